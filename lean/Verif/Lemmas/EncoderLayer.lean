import Verif.Lemmas.Layer

set_option autoImplicit false

namespace CoInf.Transformer
open Spec
variable {X Y Z : Type}

/-- Element-wise sum of two members of equal delay. -/
theorem fold_law (op : Y → Y → Y) (D : Nat) : Pair.Law (foldReducer op) op D D where
  frame := fun a b => rfl
  clip := fun as bs _ _ h => by
    have e := h rfl
    rw [Attn.lastN_all _ _ (by omega)]
    show bcast2 op as bs >>= pure = _
    rw [bcast2_eq op e]; rfl

theorem sumLastPairs_law [Add X] (D1 D2 : Nat) : Pair.Law (sumLastPairs (X := X)) (· + ·) D1 D2 where
  frame := fun a b => rfl
  clip := fun as bs hne hle _ => by
    show (if as.length = bs.length then bcast2 (· + ·) as bs
      else bcast2 (· + ·) (lastSlice (min as.length bs.length) as) (lastSlice (min as.length bs.length) bs)) = _
    by_cases h : as.length = bs.length
    · rw [if_pos h, bcast2_eq _ h, Attn.lastN_all _ _ (by omega)]
    · have hpos := List.length_pos_iff.2 hne
      rw [if_neg h, Nat.min_eq_right hle]
      have e1 : lastSlice bs.length as = lastN bs.length as := by
        rw [lastSlice, if_neg (by omega)]; rfl
      have e2 : lastSlice bs.length bs = bs := by
        rw [lastSlice, if_neg (by omega)]; simp
      rw [e1, e2, bcast2_eq _ (lastN_length _ _ hle)]

theorem lambda_pure {c : Lambda.Cfg Y Z} {g : Y → Z} (H : Lambda.Lawful c g) :
    PureOn (Lambda.mod c) (fun _ => True) g where
  step := fun i u y _ => ⟨i, by simp [H.step, Except.map]⟩
  steps := fun i u ys hne _ => ⟨i, by simp [H.steps ys hne, Except.map]⟩
  fwd := fun i ys => rfl

theorem ffResidual_fwd [Add X] [Zero X] (f : X → X) (i : (ffResidual f).Inst) (ys : List X) :
    (ffResidual f).fwd i ys = .ok (ys.map fun x => x + f x, i) := by
  obtain ⟨i1, i2, _⟩ := i
  show BroadcastReduce.fwd (foldReducer fun a b : X => a + b)
    [Delay.mod { d := 0, fill := fun _ => 0 }, Pointwise.mod f] (i1, i2, ()) ys = _
  rw [Pair.fwd_eq]
  have e : Delay.forward ({ d := 0, fill := fun _ => 0 } : Delay.Cfg X) ys = ys := by simp [Delay.forward]
  show ((foldReducer fun x1 x2 : X => x1 + x2).clip [Delay.forward _ ys, ys.map f]).map _ = _
  rw [e]
  show (bcast2 (· + ·) ys (ys.map f) >>= pure).map _ = _
  rw [bcast2_eq _ (by simp), List.zipWith_map_right, List.zipWith_self]
  rfl

theorem residual_pure [Add X] [Zero X] (f : X → X) :
    PureOn (ffResidual f) (fun _ => True) (fun x => x + f x) where
  step := by
    rintro ⟨i1, i2, _⟩ u y _
    exact ⟨(i1, i2, ()), rfl⟩
  steps := by
    rintro ⟨i1, i2, _⟩ u ys hne _
    refine ⟨(i1, i2, ()), ?_⟩
    show BroadcastReduce.steps (foldReducer fun a b : X => a + b)
      [Delay.mod { d := 0, fill := fun _ => 0 }, Pointwise.mod f] (i1, i2, ()) false u ys = _
    rw [Pair.steps_eq]
    show (nonempty _ [some ys, some (ys.map f)]).map _ = _
    show (((bcast2 (· + ·) ys (ys.map f) >>= pure).map some).map _) = _
    rw [bcast2_eq _ (by simp)]
    show Except.ok (some (List.zipWith (· + ·) ys (ys.map f)), (i1, i2, ())) = _
    rw [List.zipWith_map_right, List.zipWith_self]
  fwd := by
    rintro ⟨i1, i2, _⟩ ys
    rw [ffResidual_fwd, ffResidual_fwd f _ ys]; rfl

/-- `Residual(ff)` is what the tail of the layer contains. -/
theorem residual_ff [Add X] [Zero X] (f : X → X) (sh : Residual.Mode) :
    Residual.make (fun _ => 0) (foldReducer fun a b : X => a + b) sh (Pointwise.mod f) = .ok (ffResidual f) := by
  cases sh <;> rfl

variable {F B E : Type} [Field F] [Fintype E]

section
variable [Add X] [Zero X] (p : Layer F X B E)

/-- Feed-forward block of the single-output layer. -/
def ffn (y : X) : X := p.norm2 (p.norm1 y + p.ff (p.norm1 y))

theorem tail_pure : PureOn (tail p) (fun _ => True) (ffn p) :=
  PureOn.cons (g := p.norm1) (k := fun y => p.norm2 (y + p.ff y)) (lambda_pure (Lambda.lawful_frame _))
    (PureOn.cons (k := p.norm2) (residual_pure p.ff) (PureOn.single (lambda_pure (Lambda.lawful_frame _)))
      (fun _ _ => trivial)) (fun _ _ => trivial)

theorem tail_fwd (i : (tail p).Inst) {ys : List X} (hne : ys ≠ []) :
    ((tail p).fwd i ys).map Prod.fst = .ok (ys.map (ffn p)) := by
  obtain ⟨i1, i2, i3⟩ := i
  show ((Chain.cons (Lambda.mod { fn := some (.frame p.norm1) }) (.cons (ffResidual p.ff)
    (.single (Lambda.mod { fn := some (.frame p.norm2) })))).fwd (i1, i2, i3) ys).map Prod.fst = _
  rw [Sequential.fwd_fst]
  have e1 : ((Lambda.mod { fn := some (.frame p.norm1) }).fwd i1 ys).map Prod.fst = .ok (ys.map p.norm1) := by
    simp [Lambda.forward, Lambda.applyClip, hne, Except.map]
  rw [e1]
  simp only
  rw [Sequential.fwd_fst, ffResidual_fwd]
  show ((Lambda.mod { fn := some (.frame p.norm2) }).fwd i3 ((ys.map p.norm1).map _)).map Prod.fst = _
  simp [Lambda.forward, Lambda.applyClip, hne, Except.map, ffn]

/-- Residual stream of the single-output layer. -/
def resPhi (qi : Int) (sf : Bool) (h : List X) : List X :=
  if sf then delayed (Attn.nq p.attn.N qi).toNat 0 h else h

/-- Delay of the residual stream. -/
def resDelay (qi : Int) (sf : Bool) : Nat := if sf then (Attn.nq p.attn.N qi).toNat else 0

theorem resPhi_length (qi : Int) (sf : Bool) (h : List X) : (resPhi p qi sf h).length = h.length - resDelay p qi sf := by
  cases sf <;> simp [resPhi, resDelay, delayed]

theorem selectOrDelay_soft (c : Delay.Cfg X) : Soft (selectOrDelay c) (delayed c.d (Delay.lead c)) := by
  have H := (Delay.simRel' c).soft
  exact ⟨Delay.Rel c, {
    phi_nil := H.phi_nil
    init := H.init
    clean := H.clean
    step := H.step
    steps := H.steps
    probe := H.probe
    probes := H.probes
    fwd_state := fun {h i xs ys j} hr hf => by
      have hf : (pyGet xs (-1 - (c.d : Int))).map (fun x => ([x], i)) = .ok (ys, j) := hf
      cases hg : pyGet xs (-1 - (c.d : Int)) with
      | error e => rw [hg] at hf; cases hf
      | ok v => rw [hg] at hf; cases hf; exact hr
    fwd_indep := fun {h i} xs hr => by
      show ((pyGet xs (-1 - (c.d : Int))).map _).map _ = ((pyGet xs (-1 - (c.d : Int))).map _).map _
      cases pyGet xs (-1 - (c.d : Int)) <;> rfl }⟩

theorem residual_soft (qi : Int) (sf : Bool) : Soft (residual p qi sf) (resPhi p qi sf) := by
  cases sf with
  | true => exact selectOrDelay_soft _
  | false =>
    have : resPhi p qi false = List.map (id : X → X) := by funext h; simp [resPhi]
    rw [this]
    exact ⟨_, (Lambda.simRel (Lambda.lawful_elementwise (id : X → X))).soft⟩

theorem slide_one_length {O : Type} (N : Nat) (hN : 1 ≤ N) (g : List X → O) (h : List X) :
    (slide N 1 g h).length = h.length - (N - 1) := by
  induction h using List.reverseRecOn with
  | nil =>
    have : slide N 1 g ([] : List X) = [] := by
      unfold slide windowCount; simp; omega
    simp [this]
  | append_singleton h x ih =>
    rw [Attn.slide_one, List.length_append, ih]
    split <;> simp <;> omega

variable {qi : Int} (sf : Bool)

theorem singleLayer_soft (hN : 1 ≤ p.attn.N) (hq : 0 ≤ Attn.nq p.attn.N qi) (hq' : Attn.nq p.attn.N qi < p.attn.N) :
    Soft (singleLayer p qi sf) (fun h =>
      (Pair.phi (· + ·) (resPhi p qi sf) (slide p.attn.N 1 (Attn.rowOf p.attn qi)) h).map (ffn p)) := by
  obtain ⟨R1, H1⟩ := residual_soft p qi sf
  have H2 := (Attn.single_ok p.attn sf hN hq hq').soft
  have S := Pair.soft (r := sumLastPairs) (f := (· + ·)) (D1 := resDelay p qi sf) (D2 := p.attn.N - 1) H1 H2
    (by unfold resDelay; split <;> omega) (resPhi_length p qi sf) (slide_one_length _ hN _) (sumLastPairs_law _ _)
  exact Soft.then (P := fun _ => True) ⟨_, S⟩ (fun _ _ _ => trivial) (PureOn.single (tail_pure p))

/-- Row `qi` of a list. -/
theorem resPhi_snoc {h : List X} {x : X} (hq : 0 ≤ Attn.nq p.attn.N qi) (hq' : Attn.nq p.attn.N qi < p.attn.N)
    (hl : p.attn.N ≤ h.length + 1) {y : X}
    (hy : (h ++ [x])[h.length - resDelay p qi sf]? = some y) :
    resPhi p qi sf (h ++ [x]) = resPhi p qi sf h ++ [y] := by
  cases sf with
  | false =>
    simp [resDelay] at hy
    simp [resPhi, hy]
  | true =>
    show delayed _ 0 (h ++ [x]) = delayed _ 0 h ++ [y]
    simp only [resDelay, if_true] at hy
    rw [Delay.delayed_snoc, if_pos (by omega), hy]; rfl

/-- Entry `qi` of the last window. -/
theorem pyGet_window {N : Nat} {l : List X} (hl : N ≤ l.length) (hq : 0 ≤ Attn.nq N qi) (hq' : Attn.nq N qi < N) :
    ∃ y, pyGet (lastN N l) qi = .ok y ∧ l[l.length - 1 - (Attn.nq N qi).toNat]? = some y := by
  have hlen := lastN_length N l hl
  have hi : l.length - 1 - (Attn.nq N qi).toNat < l.length := by omega
  refine ⟨l[l.length - 1 - (Attn.nq N qi).toNat], ?_, List.getElem?_eq_getElem hi⟩
  unfold pyGet
  rw [hlen]
  have e : (if qi < 0 then qi + (N : Int) else qi) = ((N - 1 - (Attn.nq N qi).toNat : Nat) : Int) := by
    unfold Attn.nq at hq hq' ⊢
    split <;> split at hq <;> omega
  rw [e]
  have hn : ¬ (((N - 1 - (Attn.nq N qi).toNat : Nat) : Int) < 0) := by omega
  simp only [hn, if_false, Int.toNat_natCast]
  unfold lastN
  rw [List.getElem?_drop]
  have e2 : l.length - N + (N - 1 - (Attn.nq N qi).toNat) = l.length - 1 - (Attn.nq N qi).toNat := by omega
  rw [e2, List.getElem?_eq_getElem hi]

/-- Output token of the attention for `x` in the window `win`. -/
abbrev tok (win : List X) (x : X) : X := p.attn.out (attention p.attn.ex p.attn.scale p.attn.q p.attn.k p.attn.v win x)

theorem rowOf_eq {win : List X} {y : X} (h : pyGet win qi = .ok y) : Attn.rowOf p.attn qi win = tok p win y := by
  unfold Attn.rowOf multihead
  rw [Attn.pyGet_map, h]; rfl

/-- One step of the single-output layer. -/
theorem singleLayer_step (hN : 1 ≤ p.attn.N) (hq : 0 ≤ Attn.nq p.attn.N qi) (hq' : Attn.nq p.attn.N qi < p.attn.N)
    {h : List X} {i : (singleLayer p qi sf).Inst} (hi : Reach (singleLayer p qi sf) h i) (x : X) :
    (h.length + 1 < p.attn.N → ∃ j, (singleLayer p qi sf).step i true x = .ok (none, j)) ∧
    (p.attn.N ≤ h.length + 1 → ∃ j y z, (h ++ [x])[h.length - resDelay p qi sf]? = some y ∧
      pyGet (lastN p.attn.N (h ++ [x])) qi = .ok z ∧
      (singleLayer p qi sf).step i true x = .ok (some (ffn p (y + tok p (lastN p.attn.N (h ++ [x])) z)), j)) := by
  have S := singleLayer_soft p sf hN hq hq'
  have hD : resDelay p qi sf ≤ p.attn.N - 1 := by unfold resDelay; split <;> omega
  constructor
  · intro hlt
    obtain ⟨ys, hys⟩ : ∃ ys, resPhi p qi sf (h ++ [x]) = resPhi p qi sf h ++ ys := by
      cases sf with
      | false => exact ⟨[x], rfl⟩
      | true => exact ⟨_, Delay.delayed_snoc _ _ _ _⟩
    have e2 := Attn.slide_one p.attn.N (Attn.rowOf p.attn qi) h x
    rw [if_neg (by omega)] at e2
    obtain ⟨a1, _⟩ := Pair.phi_append (f := fun a b : X => a + b) hD (resPhi_length p qi sf)
      (slide_one_length _ hN _) hys e2
    obtain ⟨j, hj, _⟩ := Soft.step_of S hi x (o := none) (by rw [a1]; simp)
    exact ⟨j, hj⟩
  · intro hle
    have hlt : h.length - resDelay p qi sf < (h ++ [x]).length := by simp; omega
    obtain ⟨z, hz, _⟩ := pyGet_window (qi := qi) (N := p.attn.N) (l := h ++ [x]) (by simpa using hle) hq hq'
    have hy := List.getElem?_eq_getElem hlt
    have hys := resPhi_snoc p sf hq hq' hle hy
    have e2 := Attn.slide_one p.attn.N (Attn.rowOf p.attn qi) h x
    rw [if_pos hle, rowOf_eq p hz] at e2
    obtain ⟨a1, _⟩ := Pair.phi_append (f := fun a b : X => a + b) hD (resPhi_length p qi sf)
      (slide_one_length _ hN _) hys e2
    obtain ⟨j, hj, _⟩ := Soft.step_of S hi x (o := some (ffn p (_ + tok p (lastN p.attn.N (h ++ [x])) z)))
      (by rw [a1, List.map_append]; rfl)
    exact ⟨j, _, z, hy, hz, hj⟩

theorem encoderLayer_eq (xs : List X) :
    encoderLayer (multihead p.attn.ex p.attn.scale p.attn.q p.attn.k p.attn.v p.attn.out) p.norm1 p.ff p.norm2 xs =
      xs.map fun x => ffn p (x + tok p xs x) := by
  unfold encoderLayer multihead
  rw [List.zipWith_map_right, List.zipWith_self, List.map_map]
  rfl

theorem singleLayer_fwd_all (i : (singleLayer p qi false).Inst) {xs : List X} (hne : xs ≠ []) :
    ((singleLayer p qi false).fwd i xs).map Prod.fst =
      .ok (encoderLayer (multihead p.attn.ex p.attn.scale p.attn.q p.attn.k p.attn.v p.attn.out) p.norm1 p.ff p.norm2 xs) := by
  obtain ⟨⟨i1, i2, i3⟩, i4⟩ := i
  show ((Chain.cons (BroadcastReduce.mod sumLastPairs [residual p qi false, Attn.single p.attn qi false])
    (.single (tail p))).fwd ((i1, i2, i3), i4) xs).map Prod.fst = _
  rw [Sequential.fwd_fst]
  have e1 : (BroadcastReduce.mod sumLastPairs [residual p qi false, Attn.single p.attn qi false]).fwd (i1, i2, i3) xs =
      .ok (List.zipWith (· + ·) xs (Attn.full p.attn xs), (i1, i2, i3)) := by
    show BroadcastReduce.fwd sumLastPairs [residual p qi false, Attn.single p.attn qi false] (i1, i2, i3) xs = _
    rw [Pair.fwd_eq]
    show (sumLastPairs.clip [xs.map id, Attn.full p.attn xs]).map _ = _
    have := (sumLastPairs_law (X := X) 0 0).clip xs (Attn.full p.attn xs) (by simpa [Attn.full] using hne)
      (by simp [Attn.full]) (by simp [Attn.full])
    rw [List.map_id, this, Attn.lastN_all _ _ (by simp [Attn.full])]
    rfl
  rw [e1]
  show ((tail p).fwd i4 (List.zipWith (· + ·) xs (Attn.full p.attn xs))).map Prod.fst = _
  rw [tail_fwd, Attn.full_eq]
  · rfl
  · rw [Attn.full_eq]
    unfold multihead
    rw [List.zipWith_map_right, List.zipWith_self]
    simpa using hne

/-- `forward` of the layer with `single_output_forward`. -/
theorem singleLayer_fwd_one (i : (singleLayer p qi true).Inst) {xs : List X} {y z : X}
    (hy : pyGet xs (-1 - ((Attn.nq p.attn.N qi).toNat : Int)) = .ok y) (hz : pyGet xs qi = .ok z) :
    ((singleLayer p qi true).fwd i xs).map Prod.fst = .ok [ffn p (y + tok p xs z)] := by
  obtain ⟨⟨i1, i2, i3⟩, i4⟩ := i
  show ((Chain.cons (BroadcastReduce.mod sumLastPairs [residual p qi true, Attn.single p.attn qi true])
    (.single (tail p))).fwd ((i1, i2, i3), i4) xs).map Prod.fst = _
  rw [Sequential.fwd_fst]
  have e1 : (BroadcastReduce.mod sumLastPairs [residual p qi true, Attn.single p.attn qi true]).fwd (i1, i2, i3) xs =
      .ok ([y + tok p xs z], (i1, i2, i3)) := by
    show BroadcastReduce.fwd sumLastPairs [residual p qi true, Attn.single p.attn qi true] (i1, i2, i3) xs = _
    rw [Pair.fwd_eq]
    have a1 : (residual p qi true).fwd i1 xs = .ok ([y], i1) := by
      show (pyGet xs (-1 - ((Attn.nq p.attn.N qi).toNat : Int))).map (fun x => ([x], i1)) = _
      rw [hy]; rfl
    have a2 : (Attn.single p.attn qi true).fwd i2 xs = .ok ([tok p xs z], i2) := by
      show (Attn.singleFwd p.attn qi true xs).map (fun ys => (ys, i2)) = _
      have : Attn.singleFwd p.attn qi true xs = (pyGet xs qi).map fun x => [Attn.fullRow p.attn x xs] := rfl
      rw [this, hz]
      show Except.ok ([Attn.fullRow p.attn z xs], i2) = _
      have : Attn.fullRow p.attn z xs = tok p xs z := by
        unfold Attn.fullRow; rw [Attn.attnRow_eq]
      rw [this]
    rw [a1, a2]
    rfl
  rw [e1]
  show ((tail p).fwd i4 [y + tok p xs z]).map Prod.fst = _
  rw [tail_fwd _ _ (by simp)]
  rfl

/-! ### The retroactive layer -/

theorem perToken_pure {P : List X → Prop} (hP : ∀ x, P x → x ≠ []) (g : X → X) :
    PureOn (retroLambda (perToken g)) P (List.map g) where
  step := fun i u y hy => ⟨i, by simp [perToken, hP y hy, Except.map]⟩
  steps := fun i u ys hne hy => ⟨i, by
    have : ys.mapM (perToken g) = .ok (ys.map (List.map g)) := mapM_ok _ _ _ fun a ha => by
      simp [perToken, hP a (hy a ha)]
    simp [this, hne, Except.map]⟩
  fwd := fun i ys => rfl

/-- Frames before the block. -/
abbrev retroPhi (h : List X) : List (List X) :=
  Pair.phi (List.zipWith fun a b : X => a + b) (Unity.phi (p.attn.N - 2 + 1))
    (slide p.attn.N 1 (multihead p.attn.ex p.attn.scale p.attn.q p.attn.k p.attn.v p.attn.out)) h

theorem retroBody_soft (hN : 2 ≤ p.attn.N) :
    Soft (BroadcastReduce.mod (foldReducer (List.zipWith fun a b : X => a + b))
      [Unity.mod (fun _ => 0) (p.attn.N - 2), Attn.retro p.attn]) (retroPhi p) := by
  have H1 := (Unity.simRel (fun _ : X => (0 : X)) (p.attn.N - 2)).soft
  have H2 := (Attn.retro_ok p.attn hN).soft
  have e : p.attn.N - 2 + 1 = p.attn.N - 1 := by omega
  exact ⟨_, Pair.soft H1 H2 (Nat.le_refl (p.attn.N - 1)) (fun h => by rw [Unity.phi_length, e])
    (slide_one_length _ (by omega) _) (fold_law _ _)⟩

theorem held_length {D : Nat} (hD : 1 ≤ D) {h : List X} (hl : D + 1 ≤ h.length) : (Unity.held D h).length = D + 1 := by
  unfold Unity.held
  split
  · exact lastN_length _ _ hl
  · have h1 : (lastN D h).length = D := lastN_length _ _ (by omega)
    have h2 : D - 1 < h.length := by omega
    have : (h.length - 1) % D < D := Nat.mod_lt _ (by omega)
    simp [h1, List.getElem?_eq_getElem h2]
    omega

theorem retroPhi_snoc (hN : 2 ≤ p.attn.N) (h : List X) (x : X) :
    retroPhi p (h ++ [x]) = retroPhi p h ++
      (if p.attn.N ≤ h.length + 1 then [List.zipWith (fun a b : X => a + b) (Unity.held (p.attn.N - 1) (h ++ [x]))
        (multihead p.attn.ex p.attn.scale p.attn.q p.attn.k p.attn.v p.attn.out (lastN p.attn.N (h ++ [x])))] else []) := by
  have e : p.attn.N - 2 + 1 = p.attn.N - 1 := by omega
  have e1 := Unity.phi_snoc (p.attn.N - 1) h x
  have e2 := Attn.slide_one p.attn.N (multihead p.attn.ex p.attn.scale p.attn.q p.attn.k p.attn.v p.attn.out) h x
  rw [← e] at e1
  obtain ⟨a1, _⟩ := Pair.phi_append (f := List.zipWith fun a b : X => a + b) (Nat.le_refl (p.attn.N - 1))
    (fun h => by rw [Unity.phi_length, e]) (slide_one_length _ (by omega) _) e1 e2
  rw [e] at a1
  unfold retroPhi
  rw [e, a1]
  congr 1
  by_cases hc : p.attn.N ≤ h.length + 1
  · rw [if_pos hc, if_pos (by omega), if_pos hc]; rfl
  · rw [if_neg hc, if_neg (by omega), if_neg hc]; rfl

theorem retroPhi_ne (hN : 2 ≤ p.attn.N) (h : List X) : ∀ y ∈ retroPhi p h, y ≠ [] := by
  induction h using List.reverseRecOn with
  | nil =>
    intro y hy
    have : retroPhi p [] = [] := by
      unfold retroPhi Pair.phi
      have := slide_one_length p.attn.N (by omega) (multihead p.attn.ex p.attn.scale p.attn.q p.attn.k p.attn.v p.attn.out) ([] : List X)
      have := List.length_eq_zero_iff.1 (this.trans (by simp))
      rw [this]; simp
    rw [this] at hy; cases hy
  | append_singleton h x ih =>
    intro y hy
    rw [retroPhi_snoc p hN, List.mem_append] at hy
    rcases hy with hy | hy
    · exact ih y hy
    · split at hy
      · rename_i hc
        rw [List.mem_singleton] at hy
        intro h0
        have := congrArg List.length (hy.symm.trans h0)
        rw [List.length_zipWith, held_length (by omega) (by simp; omega)] at this
        unfold multihead at this
        rw [List.length_map, lastN_length _ _ (by simpa using hc)] at this
        simp at this
        omega
      · cases hy

theorem retroLayer_soft (hN : 2 ≤ p.attn.N) :
    Soft (retroLayer p) (fun h => (retroPhi p h).map (List.map (block p))) :=
  Soft.then (P := fun y => y ≠ []) (retroBody_soft p hN) (retroPhi_ne p hN)
    (PureOn.single (perToken_pure (fun _ h => h) _))

theorem retroLayer_step (hN : 2 ≤ p.attn.N) {h : List X} {i : (retroLayer p).Inst} (hi : Reach (retroLayer p) h i) (x : X) :
    ∃ j, (retroLayer p).step i true x = .ok (if h.length + 1 < p.attn.N then none
      else some ((List.zipWith (fun a b : X => a + b) (Unity.held (p.attn.N - 1) (h ++ [x]))
        (multihead p.attn.ex p.attn.scale p.attn.q p.attn.k p.attn.v p.attn.out (lastN p.attn.N (h ++ [x])))).map (block p)), j) := by
  have e := retroPhi_snoc p hN h x
  obtain ⟨j, hj, _⟩ := Soft.step_of (retroLayer_soft p hN) hi x (o := if h.length + 1 < p.attn.N then none
      else some ((List.zipWith (fun a b : X => a + b) (Unity.held (p.attn.N - 1) (h ++ [x]))
        (multihead p.attn.ex p.attn.scale p.attn.q p.attn.k p.attn.v p.attn.out (lastN p.attn.N (h ++ [x])))).map (block p)))
    (by
      rw [e, List.map_append]
      congr 1
      by_cases hc : p.attn.N ≤ h.length + 1
      · rw [if_pos hc, if_neg (by omega)]; rfl
      · rw [if_neg hc, if_pos (by omega)]; rfl)
  exact ⟨j, hj⟩

theorem retroLayer_fwd (i : (retroLayer p).Inst) {xs : List X} (hne : xs ≠ []) :
    ((retroLayer p).fwd i xs).map Prod.fst = .ok [(List.zipWith (fun a b : X => a + b) xs
        (multihead p.attn.ex p.attn.scale p.attn.q p.attn.k p.attn.v p.attn.out xs)).map (block p)] := by
  obtain ⟨⟨i1, i2, i3⟩, i4⟩ := i
  show ((Chain.cons (BroadcastReduce.mod (foldReducer (List.zipWith fun a b : X => a + b))
      [Unity.mod (fun _ => 0) (p.attn.N - 2), Attn.retro p.attn])
    (.single (retroLambda (perToken (block p))))).fwd ((i1, i2, i3), i4) xs).map Prod.fst = _
  rw [Sequential.fwd_fst]
  have e1 : (BroadcastReduce.mod (foldReducer (List.zipWith fun a b : X => a + b))
      [Unity.mod (fun _ => 0) (p.attn.N - 2), Attn.retro p.attn]).fwd (i1, i2, i3) xs =
      .ok ([List.zipWith (fun a b : X => a + b) xs (Attn.full p.attn xs)], (i1, i2, i3)) := by
    show BroadcastReduce.fwd (foldReducer (List.zipWith fun a b : X => a + b))
      [Unity.mod (fun _ => 0) (p.attn.N - 2), Attn.retro p.attn] (i1, i2, i3) xs = _
    rw [Pair.fwd_eq]; rfl
  rw [e1, Attn.full_eq]
  have hz : List.zipWith (fun a b : X => a + b) xs
      (multihead p.attn.ex p.attn.scale p.attn.q p.attn.k p.attn.v p.attn.out xs) ≠ [] := by
    unfold multihead
    rw [List.zipWith_map_right, List.zipWith_self]
    simpa using hne
  show ((perToken (block p) _).map _).map _ = _
  rw [perToken, if_neg (by simpa using hz)]
  rfl

end

end CoInf.Transformer

/-! ### The encoder -/

namespace CoInf.Transformer
open Spec
variable {X F B E : Type} [Field F] [Fintype E] [Add X] [Zero X] (p1 p2 : Layer F X B E)

/-- The last token of the layer output, without computing the others. -/
def lastToken (p : Layer F X B E) (rows : List X) : X :=
  match rows.getLast? with
  | some y => ffn p (y + tok p rows y)
  | none => 0

theorem pyGet_last {l : List X} {y : X} (h : l.getLast? = some y) : pyGet l (-1) = .ok y := by
  obtain ⟨l', rfl⟩ : ∃ l', l = l' ++ [y] := by
    rw [List.getLast?_eq_some_iff] at h; exact h
  have e : (-1 : Int) + ((l' ++ [y]).length : Int) = (l'.length : Int) := by simp
  unfold pyGet
  simp only [show (-1 : Int) < 0 by decide, if_true, e]
  have : ¬ ((l'.length : Int) < 0) := by omega
  simp [this]

theorem layerForward_eq (p : Layer F X B E) {rows : List X} (hne : rows ≠ []) :
    layerForward (singleLayer p (-1) true) rows = .ok [lastToken p rows] := by
  have h := List.getLast?_eq_some_getLast hne
  have hg := pyGet_last h
  unfold layerForward
  rw [singleLayer_fwd_one p (y := rows.getLast hne) (z := rows.getLast hne) _ (by simpa [Attn.nq] using hg) hg]
  simp [lastToken, h]

theorem finish_pure (p : Layer F X B E) :
    PureOn (Sequential.mod (.cons (retroLambda (layerForward (singleLayer p (-1) true))) (.single (squeezeLast X))))
      (fun rows => rows ≠ []) (lastToken p) := by
  have h1 : PureOn (retroLambda (layerForward (singleLayer p (-1) true))) (fun rows => rows ≠ [])
      (fun rows => [lastToken p rows]) := {
    step := fun i u y hy => ⟨i, by simp [layerForward_eq p hy, Except.map]⟩
    steps := fun i u ys hne hy => ⟨i, by
      have : ys.mapM (layerForward (singleLayer p (-1) true)) = .ok (ys.map fun rows => [lastToken p rows]) :=
        mapM_ok _ _ _ fun a ha => layerForward_eq p (hy a ha)
      simp [this, hne, Except.map]⟩
    fwd := fun i ys => rfl }
  have h2 : PureOn (squeezeLast X) (fun rows => ∃ a, rows = [a]) (fun rows => rows.headD 0) := {
    step := fun i u y hy => ⟨i, by obtain ⟨a, rfl⟩ := hy; rfl⟩
    steps := fun i u ys hne hy => ⟨i, by
      have : ys.mapM squeeze = .ok (ys.map fun rows => rows.headD 0) :=
        mapM_ok _ _ _ fun a ha => by obtain ⟨b, rfl⟩ := hy a ha; rfl
      show (ys.mapM squeeze).map _ = _
      rw [this]; rfl⟩
    fwd := fun i ys => rfl }
  exact PureOn.cons (g := fun rows => [lastToken p rows]) (k := fun rows : List X => rows.headD 0) h1 (PureOn.single h2)
    fun x _ => ⟨_, rfl⟩

theorem twoLayers_soft (hN : 2 ≤ p1.attn.N) :
    Soft (twoLayers p1 p2) (fun h => ((retroPhi p1 h).map (List.map (block p1))).map (lastToken p2)) :=
  Soft.then (P := fun y => y ≠ []) (retroLayer_soft p1 hN) (fun h y hy => by
    obtain ⟨z, hz, rfl⟩ := List.mem_map.1 hy
    simpa using retroPhi_ne p1 hN h z hz) (finish_pure p2)

/-- The optional norm at the end. -/
def normOf (norm : Option (X → X)) : X → X := norm.getD id

theorem withNorm_soft {m : CoMod (.stream X) (.stream X)} {φ : List X → List X} (H : Soft m φ) (norm : Option (X → X)) :
    Soft (withNorm m norm) (fun h => (φ h).map (normOf norm)) := by
  cases norm with
  | none =>
    have : (fun h => (φ h).map (normOf (none : Option (X → X)))) = φ := by
      funext h; simp [normOf]
    rw [this]
    exact Sequential.soft_single H
  | some g =>
    exact Soft.then (P := fun _ => True) H (fun _ _ _ => trivial) (PureOn.single (lambda_pure (Lambda.lawful_frame g)))

theorem withNorm_fwd {m : CoMod (.stream X) (.stream X)} (norm : Option (X → X)) (i : (withNorm m norm).Inst)
    {xs ys : List X} (h : ∀ j, (m.fwd j xs).map Prod.fst = .ok ys) (hne : ys ≠ []) :
    ((withNorm m norm).fwd i xs).map Prod.fst = .ok (ys.map (normOf norm)) := by
  cases norm with
  | none =>
    simp only [normOf, Option.getD_none, List.map_id]
    exact h i
  | some g =>
    obtain ⟨i1, i2⟩ := i
    show ((Chain.cons m (.single (Lambda.mod { fn := some (.frame g) }))).fwd (i1, i2) xs).map Prod.fst = _
    rw [Sequential.fwd_fst, h i1]
    show ((Lambda.mod { fn := some (.frame g) }).fwd i2 ys).map Prod.fst = _
    simp [Lambda.forward, Lambda.applyClip, hne, Except.map, normOf]

theorem twoLayers_fwd (i : (twoLayers p1 p2).Inst) {xs : List X} (hne : xs ≠ []) :
    ((twoLayers p1 p2).fwd i xs).map Prod.fst = .ok [lastToken p2 ((List.zipWith (fun a b : X => a + b) xs
        (multihead p1.attn.ex p1.attn.scale p1.attn.q p1.attn.k p1.attn.v p1.attn.out xs)).map (block p1))] := by
  obtain ⟨i1, i2, i3⟩ := i
  show ((Chain.cons (retroLayer p1) (.cons (retroLambda (layerForward (singleLayer p2 (-1) true)))
    (.single (squeezeLast X)))).fwd (i1, i2, i3) xs).map Prod.fst = _
  rw [Sequential.fwd_fst, retroLayer_fwd p1 i1 hne]
  simp only
  rw [Sequential.fwd_fst]
  have hz : (List.zipWith (fun a b : X => a + b) xs
      (multihead p1.attn.ex p1.attn.scale p1.attn.q p1.attn.k p1.attn.v p1.attn.out xs)).map (block p1) ≠ [] := by
    unfold multihead
    rw [List.zipWith_map_right, List.zipWith_self]
    simpa using hne
  have e : ((retroLambda (layerForward (singleLayer p2 (-1) true))).fwd i2 [(List.zipWith (fun a b : X => a + b) xs
      (multihead p1.attn.ex p1.attn.scale p1.attn.q p1.attn.k p1.attn.v p1.attn.out xs)).map (block p1)]).map Prod.fst =
      .ok [[lastToken p2 ((List.zipWith (fun a b : X => a + b) xs
        (multihead p1.attn.ex p1.attn.scale p1.attn.q p1.attn.k p1.attn.v p1.attn.out xs)).map (block p1))]] := by
    show ((layerForward (singleLayer p2 (-1) true) _).map fun y => ([y], i2)).map Prod.fst = _
    rw [layerForward_eq p2 hz]; rfl
  rw [e]
  rfl

end CoInf.Transformer
