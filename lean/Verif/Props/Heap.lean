/-
Aliasing: C27 (checkpoints), C28 (in-place writes do not leak), C29 (purity of the functional step).
-/
import Verif.Lemmas.Checkpoint
import Verif.Lemmas.Delay
import Verif.Props.Pad

set_option autoImplicit false

namespace CoInf
open Spec Heap
variable {X Y : Type}

/-! ### C28 -/

/-- **C28**, Delay: whatever public calls are made, a user who looks at all returned tensors at the end (when any of
them could have been overwritten) sees what the module with immutable tensors returns.  (`Delay(0)` returns its input
and keeps nothing.) -/
theorem C28_delay (c : Delay.Cfg X) (hd : c.d ≠ 0) (cs : List (Call (.stream X))) :
    seen (Heap.delay c) (cs.map ofCall) = (calls (Delay.mod c) (Delay.mod c).init cs).1 := by
  rw [seen_values (delay_models c) _ (allowed_ofCalls cs)]
  refine vcalls_eq (L := Delay.leaf c) (fwd := fun xs => .ok (Delay.forward c xs)) (M := Delay.mod c) id ?_ ?_ (fun _ => rfl) (fun _ _ => rfl) cs _ []
  · intro i u x
    show (if c.d = 0 then _ else (Delay.leaf c).forwardStep i u x) = _
    rw [if_neg hd]
    cases (Delay.leaf c).forwardStep i u x <;> rfl
  · intro i p u xs
    show (if c.d = 0 then _ else (Delay.leaf c).forwardSteps i p u xs) = _
    rw [if_neg hd]
    cases (Delay.leaf c).forwardSteps i p u xs <;> rfl

/-- **C28**, pooling. -/
theorem C28_pool (c : Pool.Cfg X Y) (cs : List (Call (.stream X))) :
    seen (Heap.pool c) (cs.map ofCall) = (calls (Pool.mod c) (Pool.mod c).init cs).1 := by
  rw [seen_values (pool_models c) _ (allowed_ofCalls cs)]
  refine vcalls_eq (L := Pool.leaf c) (fwd := Pool.forward c) (M := Pool.mod c) id ?_ ?_ (fun _ => rfl) (fun _ _ => rfl) cs _ []
  · intro i u x
    show (Pool.leaf c).forwardStep i u x = _
    cases (Pool.leaf c).forwardStep i u x <;> rfl
  · intro i p u xs
    show (Pool.leaf c).forwardSteps i p u xs = _
    cases (Pool.leaf c).forwardSteps i p u xs <;> rfl

/-- **C28**, convolution, in training and in evaluation mode. -/
theorem C28_conv [Zero X] [AddCommMonoid Y] (c : Conv.Cfg X Y) (training : Bool) (cs : List (Call (.stream X))) :
    seen (Heap.conv c training) (cs.map ofCall) = (calls (Conv.mod c) (Conv.mod c).init cs).1 := by
  rw [seen_values (conv_models c training) _ (allowed_ofCalls cs)]
  refine vcalls_eq (L := Conv.leaf c) (fwd := Conv.forward c) (M := Conv.mod c) id ?_ ?_ (fun _ => rfl) (fun _ _ => rfl) cs _ []
  · intro i u x
    show (Conv.leaf c).forwardStep i u x = _
    cases (Conv.leaf c).forwardStep i u x <;> rfl
  · intro i p u xs
    show (Conv.leaf c).forwardSteps i p u xs = _
    cases (Conv.leaf c).forwardSteps i p u xs <;> rfl

/-- A delay of two frames and a script with probes, chunks, end padding and cleaning. -/
def exDelay2 : Delay.Cfg Int := { d := 2, fill := fun _ => 0 }

def exScript : List (Call (.stream Int)) :=
  [.step true 1, .step false 2, .steps true true [3, 4, 5], .step true 6, .steps true false [7, 8], .step true 9,
    .clean, .steps false true [10, 11, 12]]

example : seen (Heap.delay exDelay2) (exScript.map ofCall) =
    [.frame none, .frame none, .clip (some [1, 3, 4, 5]), .frame (some 4), .clip (some [5, 6, 5, 6]), .frame (some 5),
      .done, .clip (some [10])] := rfl

example : seen (Heap.conv (exSum 3 1 1) false) (exScript.map ofCall) =
    (calls (Conv.mod (exSum 3 1 1)) (Conv.mod (exSum 3 1 1)).init exScript).1 := C28_conv _ _ _

/-! ### C27 -/

/-- **C27** holds for convolutions in training mode, where the buffer is copied before it is written: after any calls
`pre` (in particular a non-trivial history), `s = m.get_state()`, any calls `mid` (including taking and putting back
other states), `m.set_state(s)`, all public calls return what they would have returned instead of the `get_state`.
(`get_state` of a module that has seen no frame is `None`, with which `set_state` raises; then the hypothesis that no
call raises fails: `C27_fresh_refuted`.) -/
theorem C27_conv_training [Zero X] [AddCommMonoid Y] (c : Conv.Cfg X Y) (pre mid : List (HCall X))
    (fut : List (Call (.stream X))) :
    let H := Heap.conv c true
    let w := (hcalls H (World.new H) pre).2
    let w' := (hcalls H w (.save :: mid ++ [.restore w.kept.length])).2
    Fine (hcalls H w (.save :: mid ++ [.restore w.kept.length])).1 →
    seenFrom H w' (fut.map ofCall) = seenFrom H w (fut.map ofCall) := by
  intro H w w' hf
  have M : Models false (Heap.conv c true) (Conv.leaf c) (Conv.forward c) convVal convVal := conv_models c true
  have r :=  (run_spec M pre (new_rel M) (fun _ _ => .inr (.inr rfl))).2.1
  have k := checkpoint M (w := w) r .save (.inr ⟨rfl, rfl⟩) mid (fun _ _ => .inr (.inr rfl)) hf
  rw [seenFrom_obj M k fut, seenFrom_obj M r.obj fut]

/-- **C27**, the part that holds for the modules that write in place (Delay, pooling, convolution in evaluation mode):
a checkpoint is good if its tensors are copied when it is taken, and it is put back once.  Missing for the full claim:
copying in `get_state`/`set_state`, without which the claim is false (below). -/
theorem C27_clone_partial {V : Type} {ip : Bool} {H : HLeaf X Y V} {L : Leaf X Y} {fwd : List X → Except Err (List Y)}
    {eI : List V × H.A → L.Inst} {eS : List V × H.A → L.St} (M : Models ip H L fwd eI eS) (pre mid : List (HCall X))
    (fut : List (Call (.stream X))) (hpre : ∀ c ∈ pre, HCall.plain c ∨ c = .saveClone)
    (hmid : ∀ c ∈ mid, HCall.plain c ∨ c = .saveClone) :
    let w := (hcalls H (World.new H) pre).2
    let w' := (hcalls H w (.saveClone :: mid ++ [.restore w.kept.length])).2
    Fine (hcalls H w (.saveClone :: mid ++ [.restore w.kept.length])).1 →
    seenFrom H w' (fut.map ofCall) = seenFrom H w (fut.map ofCall) := by
  intro w w' hf
  have ok : ∀ c : HCall X, (HCall.plain c ∨ c = .saveClone) → Allowed ip c := fun c h => h.imp_right .inl
  have r : WRel ip eI eS w _ := (run_spec M pre (new_rel M) (fun c hc => ok c (hpre c hc))).2.1
  have k := checkpoint M r .saveClone (.inl rfl) mid (fun c hc => ok c (hmid c hc)) hf
  rw [seenFrom_obj M k fut, seenFrom_obj M r.obj fut]

/-- The modules to which `C27_clone_partial` applies. -/
theorem C27_clone_modules_partial :
    (∀ c : Delay.Cfg X, ∃ L fwd eI eS, Models true (Heap.delay c) L fwd eI eS) ∧
    (∀ c : Pool.Cfg X Y, ∃ L fwd eI eS, Models true (Heap.pool c) L fwd eI eS) ∧
    (∀ [Zero X] [AddCommMonoid Y] (c : Conv.Cfg X Y) (t : Bool), ∃ L fwd eI eS, Models (!t) (Heap.conv c t) L fwd eI eS) :=
  ⟨fun c => ⟨_, _, _, _, delay_models c⟩, fun c => ⟨_, _, _, _, pool_models c⟩,
    fun c t => ⟨_, _, _, _, conv_models c t⟩⟩

/-- A script for the examples: three frames, checkpoint, three more, restore, two frames. -/
def exCheck (sv : HCall Int) : List (HCall Int) :=
  [.steps false true [1, 2, 3], sv, .steps false true [4, 5, 6], .restore 0, .step true 10, .step true 20]

example : seen (Heap.conv (exSum 3 1 0) true) (exCheck .save) =
    [.clip (some [6]), .done, .clip (some [9, 12, 15]), .done, .frame (some 15), .frame (some 33)] := rfl

example : seen (Heap.delay exDelay2) (exCheck .saveClone) =
    [.clip (some [1]), .done, .clip (some [2, 3, 4]), .done, .frame (some 2), .frame (some 3)] := rfl

/-- **C27** on a module without history: `get_state` gives `None` and `set_state(None)` raises, whatever was done in
between. -/
theorem C27_fresh_refuted [Zero X] [AddCommMonoid Y] (c : Conv.Cfg X Y) (t : Bool) (d : Delay.Cfg X) (q : Pool.Cfg X Y) :
    seen (Heap.conv c t) [.save, .restore 0] = [.done, .raised .type] ∧
    seen (Heap.delay d) [.save, .restore 0] = [.done, .raised .type] ∧
    seen (Heap.pool q) [.save, .restore 0] = [.done, .raised .type] := ⟨rfl, rfl, rfl⟩

/-- One step of a filled delay. -/
theorem delayStep_full (c : Delay.Cfg X) {h : Mem X} {a : Nat} (ha : a < h.length) (hl : (read h a).length = c.d)
    {i : Nat} (hi : i < c.d) (x : X) :
    ∃ h', delayStep c x (some (a, (i : Int))) h = .ok ⟨some ⟨h.length, 0⟩, some (a, ((i + 1) % c.d : Nat)), h'⟩ ∧
      h' = (h ++ [[(read h a)[i]'(by omega)]]).set a ((read h a).set i x) := by
  have hd : c.d ≠ 0 := by omega
  have hg : pyGet (read h a) (i : Int) = .ok ((read h a)[i]'(by omega)) :=
    pyGet_ofNat (List.getElem?_eq_getElem (by omega))
  have hm : ((i : Int) % (c.d : Int)) = ((i : Nat) : Int) := Int.emod_eq_of_lt (by omega) (by omega)
  have hs : store (h ++ [[(read h a)[i]'(by omega)]]) a (i : Int) x =
      .ok ((h ++ [[(read h a)[i]'(by omega)]]).set a ((read h a).set i x)) := by
    unfold store
    rw [read_append_lt ha, pySet_ofNat _ (by omega)]
    rfl
  refine ⟨_, ?_, rfl⟩
  unfold delayStep
  rw [if_neg hd]
  simp only [ge_iff_le, Int.natCast_nonneg, if_true, hg, alloc, hm, hs]
  rw [if_pos (by omega)]
  simp

/-- The object of a delay that has emitted a frame. -/
theorem delay_full (c : Delay.Cfg X) (hd : c.d ≠ 0) (hsh : c.shrink ≠ .on) (xs : List X) (hx : c.d ≤ xs.length) :
    ∃ w rs, hcalls (Heap.delay c) (World.new _) (xs.map (HCall.step true)) = (rs, w) ∧ Fine rs ∧ rs.length = xs.length ∧
      w.kept = [] ∧ w.obj.1 < w.mem.length ∧ (read w.mem w.obj.1).length = c.d ∧
      ∃ i : Nat, i < c.d ∧ w.obj.2 = i ∧ (read w.mem w.obj.1)[i]? = xs[xs.length - c.d]? := by
  have hdp : 0 < c.d := Nat.pos_of_ne_zero hd
  -- runs of the loop
  have main : ∀ (xs h : List X) (w : World (Heap.delay c)) (v : Delay.St X), ObjRel (L := Delay.leaf c) id w.mem w.obj v →
      Delay.Inv c h ((Delay.leaf c).get v) → w.kept = [] →
      ∃ w' rs, hcalls (Heap.delay c) w (xs.map (HCall.step true)) = (rs, w') ∧ Fine rs ∧ rs.length = xs.length ∧
        w'.kept = [] ∧ ∃ v' : Delay.St X, ObjRel (L := Delay.leaf c) id w'.mem w'.obj v' ∧ Delay.Inv c (h ++ xs) ((Delay.leaf c).get v') := by
    intro xs
    induction xs with
    | nil => intro h w v r hI hk; exact ⟨w, [], rfl, (by intro r hr; cases hr), rfl, hk, v, r, by simpa using hI⟩
    | cons x xs ih =>
      intro h w v r hI hk
      obtain ⟨o, v', h1, _, h3⟩ := (Delay.leafRel c hdp).forwardStep true x hI
      have hs := step_spec (delay_models c) r true x
      rw [h1] at hs
      obtain ⟨ov, i', h', k1, k2, _, _⟩ := hs
      obtain ⟨w', rs, l1, l2, l3, l4, l5⟩ := ih (h ++ [x]) (⟨i', w.kept, h'⟩ : World (Heap.delay c)) v' k2 h3 hk
      refine ⟨w', .frame ov :: rs, ?_, ?_, by simp [l3], l4, by simpa using l5⟩
      · simp only [List.map_cons, hcalls, hcall, k1, l1]
      · intro r hr e
        rcases List.mem_cons.1 hr with rfl | hr
        · simp
        · exact l2 r hr e
  obtain ⟨w, rs, h1, h2, h3, h4, v, h5, h6⟩ := main xs [] (World.new _) (Delay.leaf c).init
    (new_rel (delay_models c)).obj ((Delay.leafRel c hdp).init) rfl
  refine ⟨w, rs, h1, h2, h3, h4, h5.1, ?_⟩
  rw [List.nil_append] at h6
  have hlead : Delay.lead c = 0 := by unfold Delay.lead; rw [if_neg hsh]
  rcases h6 with ⟨h0, _⟩ | ⟨b, idx, pad, hne, hg, hr, hi⟩
  · subst h0; simp at hx; omega
  · have hv : v = (b, idx) := by
      have : (if v.1.length > 0 then some v else none) = some (b, idx) := hg
      split at this
      · exact Option.some.inj this
      · cases this
    have e1 : (read w.mem w.obj.1, w.obj.2) = (b, idx) := by rw [← hv]; exact h5.2.symm
    have e2 : read w.mem w.obj.1 = b := congrArg Prod.fst e1
    have e3 : w.obj.2 = idx := congrArg Prod.snd e1
    rw [e2, e3]
    refine ⟨hr.len, xs.length % c.d, Nat.mod_lt _ hdp, ?_, ?_⟩
    · rw [hi, hlead]
      simp only
      rw [Int.natCast_emod]
      split
      · have : xs.length = c.d := by omega
        rw [this]; simp
      · rw [show (xs.length : Int) - c.d - ((0 : Nat) : Int) = xs.length - c.d from by omega, Int.sub_emod_right]
    · rw [hr.slot xs.length (by simp; omega) (by simp; omega), List.getElem?_append_right (by simp; omega),
        List.length_replicate]

/-- **C27** is false for `Delay`: for every delay of at least one frame, every stream `xs` that fills it, and all frames
`y`, `z`.  After `xs`, a checkpoint, a frame `y` and going back to the checkpoint, the frame `z` makes the module return
`y` - a frame that came after the checkpoint - instead of the frame `d` steps back in `xs`. -/
theorem C27_delay_refuted (c : Delay.Cfg X) (hd : c.d ≠ 0) (hsh : c.shrink ≠ .on) (xs : List X) (hx : c.d ≤ xs.length)
    (y z : X) :
    ∃ rs, rs.length = xs.length + 3 ∧
      seen (Heap.delay c) (xs.map (.step true) ++ [.save, .step true y, .restore 0, .step true z]) = rs ++ [.frame (some y)] ∧
    ∃ rs', rs'.length = xs.length ∧
      seen (Heap.delay c) (xs.map (.step true) ++ [.step true z]) = rs' ++ [.frame (xs[xs.length - c.d]?)] := by
  obtain ⟨w, rs, h1, h2, h3, h4, h5, h6, i, h7, h8, h9⟩ := delay_full c hd hsh xs hx
  have hf : Fine (hcalls (Heap.delay c) (World.new _) (xs.map (HCall.step true))).1 := by rw [h1]; exact h2
  obtain ⟨⟨a, idx⟩, kept, mem⟩ := w
  simp only at h4 h5 h6 h8 h9
  subst h4
  subst h8
  have hget : ∀ m : Mem X, (read m a).length = c.d → (Heap.delay c).get (a, (i : Int)) m = some (a, (i : Int)) := by
    intro m hm
    show (if (read m a).length > 0 then _ else _) = _
    rw [if_pos (by omega)]
  -- one step in memory `m`
  have one : ∀ (m : Mem X) (ha : a < m.length) (hl : (read m a).length = c.d) (x : X), ∃ m', 
      (Heap.delay c).forwardStep (a, (i : Int)) true x m = .ok (some ⟨m.length, 0⟩, (a, (((i + 1) % c.d : Nat) : Int)), m') ∧
        m' = (m ++ [[(read m a)[i]'(by omega)]]).set a ((read m a).set i x) := by
    intro m ha hl x
    obtain ⟨m', e1, e2⟩ := delayStep_full c ha hl h7 x
    refine ⟨m', ?_, e2⟩
    unfold HLeaf.forwardStep
    rw [hget m hl]
    have hp : (Heap.delay c).protect true (some (a, (i : Int))) m = (some (a, (i : Int)), m) := rfl
    simp only [hp]
    rw [e1]
    rfl
  obtain ⟨m1, s1, e1⟩ := one mem h5 h6 y
  have hl1 : a < m1.length := by rw [e1]; simp; omega
  have hr1 : read m1 a = (read mem a).set i y := by
    rw [e1]; exact read_set_self (by simp; omega) _
  obtain ⟨m2, s2, e2⟩ := one m1 hl1 (by rw [hr1]; simpa using h6) z
  obtain ⟨m3, s3, e3⟩ := one mem h5 h6 z
  have lookv : ∀ (m m' : Mem X) (ha : a < m.length) (hl : (read m a).length = c.d) (x : X),
      m' = (m ++ [[(read m a)[i]'(by omega)]]).set a ((read m a).set i x) →
      look (Heap.delay c) m' (.frame (some ⟨m.length, 0⟩)) = .frame (some ((read m a)[i]'(by omega))) := by
    intro m m' ha hl x e
    have : read m' m.length = [(read m a)[i]'(by omega)] := by
      rw [e, read_set_ne (by omega), read_alloc]
    simp only [look, View.read, Option.bind_some, this]
    rfl
  refine ⟨(rs.map (look (Heap.delay c) m2)) ++ [.done, look (Heap.delay c) m2 (.frame (some ⟨mem.length, 0⟩)), .done], ?_, ?_,
    rs.map (look (Heap.delay c) m3), by simp [h3], ?_⟩
  · simp [h3]
  · unfold seen seenFrom
    rw [hcalls_append _ _ _ hf, h1]
    simp only [hcalls, hcall, hget mem h6, s1, List.nil_append, List.getElem?_cons_zero, s2, List.map_append, List.map_cons, List.map_nil,
      List.append_assoc, List.cons_append]
    have hy : look (Heap.delay c) m2 (.frame (some ⟨m1.length, 0⟩)) = .frame (some y) := by
      rw [lookv m1 m2 hl1 (by rw [hr1]; simpa using h6) z e2]
      simp [hr1]
    rw [hy]
    rfl
  · unfold seen seenFrom
    rw [hcalls_append _ _ _ hf, h1]
    simp only [hcalls, hcall, s3, List.map_append, List.map_cons, List.map_nil]
    rw [lookv mem m3 h5 h6 z e3, ← h9, List.getElem?_eq_getElem (by omega)]

example : seen (Heap.delay exDelay2) (exCheck .save) =
    [.clip (some [1]), .done, .clip (some [2, 3, 4]), .done, .frame (some 6), .frame (some 5)] := rfl

/-- Sum over three frames. -/
def exPool3 : Pool.Cfg Int Int where
  K := 3
  S := 1
  P := 0
  dil := 1
  spatial := id
  pool := List.sum
  fillIn := fun _ => 0
  fillOut := fun _ => 0
  refPad := 0

/-- **C27** is false for pooling and for convolution in evaluation mode (a sum over three frames): after the frames
1, 2, 3, a checkpoint, the frames 4, 5, 6 and going back, the frame 10 gives 21 (convolution 21, pooling 10+5+6) where
2+3+10 = 15 is due. -/
theorem C27_inplace_refuted :
    seen (Heap.pool exPool3) (exCheck .save) =
      [.clip (some [6]), .done, .clip (some [9, 12, 15]), .done, .frame (some 21), .frame (some 36)] ∧
    seen (Heap.pool exPool3) (exCheck .saveClone) =
      [.clip (some [6]), .done, .clip (some [9, 12, 15]), .done, .frame (some 15), .frame (some 33)] ∧
    seen (Heap.conv (exSum 3 1 0) false) (exCheck .save) =
      [.clip (some [6]), .done, .clip (some [9, 12, 15]), .done, .frame (some 21), .frame (some 35)] ∧
    seen (Heap.conv (exSum 3 1 0) false) (exCheck .saveClone) =
      [.clip (some [6]), .done, .clip (some [9, 12, 15]), .done, .frame (some 15), .frame (some 33)] := by
  exact ⟨rfl, rfl, rfl, rfl⟩

/-! ### C29 -/

/-- **C29** holds for convolutions in training mode: `_forward_step(x, state)` changes no existing tensor at all, and
calling it again with the same arguments gives the same output and a state with the same contents. -/
theorem C29_conv_training [Zero X] [AddCommMonoid Y] (c : Conv.Cfg X Y) (x : X) (s : Option (Nat × Int × Int))
    (h : Mem (List Y)) (hv : ∀ st, s = some st → st.1 < h.length) {r : Out (List Y) (Int × Int)}
    (hr : convStep c true x s h = .ok r) :
    (∀ q < h.length, read r.mem q = read h q) ∧
    ∃ r', convStep c true x s r.mem = .ok r' ∧
      (r'.out.bind (View.read r'.mem)).bind List.head? = (r.out.bind (View.read r.mem)).bind List.head? ∧
      r'.state.map (fun st => (read r'.mem st.1, st.2)) = r.state.map (fun st => (read r.mem st.1, st.2)) := by
  have val : ∀ (h : Mem (List Y)) (hv : ∀ st, s = some st → st.1 < h.length) (r : Out (List Y) (Int × Int)),
      convStep c true x s h = .ok r → (∀ q < h.length, read r.mem q = read h q) ∧ h.length ≤ r.mem.length ∧
      Conv.pstep c x (s.map fun st => convVal (read h st.1, st.2)) =
        .ok ((r.out.bind (View.read r.mem)).bind List.head?, r.state.map fun st => convVal (read r.mem st.1, st.2)) := by
    intro h hv r hr
    have hs := conv_step c true x s h hv
    unfold StepOk at hs
    cases hp : Conv.pstep c x (s.map fun st => convVal (read h st.1, st.2)) with
    | error e => rw [hp] at hs; simp only at hs; rw [hr] at hs; cases hs
    | ok p =>
      obtain ⟨o, t⟩ := p
      rw [hp] at hs
      obtain ⟨r', k1, k2, k3, k4, k5, k6⟩ := hs
      rw [hr] at k1
      cases k1
      refine ⟨fun q hq => k4.2 q hq (.inl rfl), k4.1, ?_⟩
      rw [k2]
      cases ho : r.out with
      | none => rw [ho] at k6; simp only at k6; rw [k6]; rfl
      | some v =>
        rw [ho] at k6
        obtain ⟨⟨z, z1, z2⟩, _⟩ := k6
        simp only [Option.bind_some, z1, z2]
  obtain ⟨a1, a2, a3⟩ := val h hv r hr
  refine ⟨a1, ?_⟩
  have hv' : ∀ st, s = some st → st.1 < r.mem.length := fun st e => Nat.lt_of_lt_of_le (hv st e) a2
  have harg : (s.map fun st => convVal (read r.mem st.1, st.2)) = s.map fun st => convVal (read h st.1, st.2) := by
    cases s with
    | none => rfl
    | some st => simp only [Option.map_some]; rw [a1 st.1 (hv st rfl)]
  cases hr' : convStep c true x s r.mem with
  | error e =>
    have hs := conv_step c true x s r.mem hv'
    unfold StepOk at hs
    rw [harg, a3] at hs
    obtain ⟨q, k1, _⟩ := hs
    rw [hr'] at k1; cases k1
  | ok r' =>
    obtain ⟨b1, b2, b3⟩ := val r.mem hv' r' hr'
    rw [harg, a3] at b3
    have e := Except.ok.inj b3
    refine ⟨r', rfl, (congrArg Prod.fst e).symm, ?_⟩
    have e2 := congrArg Prod.snd e
    cases hst : r.state with
    | none => cases hst' : r'.state with
      | none => rfl
      | some st' => rw [hst, hst'] at e2; cases e2
    | some st => cases hst' : r'.state with
      | none => rw [hst, hst'] at e2; cases e2
      | some st' =>
        rw [hst, hst'] at e2
        obtain ⟨a, i, j⟩ := st
        obtain ⟨a', i', j'⟩ := st'
        have e3 := Option.some.inj e2
        simp only [convVal, Conv.St.mk.injEq] at e3
        simp only [Option.map_some, e3]

example : ∃ r, convStep (exSum 3 1 0) true 10 (some (0, 0, 0)) [[[1, 1], [2, 2]]] = .ok r ∧
    r.mem = [[[1, 1], [2, 2]], [[13]], [[10, 10], [2, 2]]] ∧ r.state = some (2, 1, 0) := ⟨_, rfl, rfl, rfl⟩

/-- **C29**, the part that holds for every module: if every state is used once (the state returned by one call is passed
to the next), the outputs, looked at after the last call, are those of immutable tensors.  Missing: using a state twice,
for which the claim is false (below). -/
theorem C29_linear_partial {V : Type} {ip : Bool} {H : HLeaf X Y V} {L : Leaf X Y} {fwd : List X → Except Err (List Y)}
    {eI : List V × H.A → L.Inst} {eS : List V × H.A → L.St} (M : Models ip H L fwd eI eS) (xs : List X)
    {ys : List Y} {t : Option L.St} (hl : L.loop none xs = .ok (ys, t)) :
    ∃ os s h, H.loop xs none [] = .ok (os, s, h) ∧ os.map (fun v => (View.read h v).bind H.frame) = ys.map some := by
  have hs := loop_spec M xs none [] (by intro st hst; cases hst)
  have : L.loop (absS eS ([] : Mem V) none) xs = .ok (ys, t) := hl
  rw [this] at hs
  obtain ⟨os, s, h, k1, _, _, _, _, k6⟩ := hs
  refine ⟨os, s, h, k1, ?_⟩
  clear k1 hl this
  induction k6 with
  | nil => rfl
  | cons hd _ ih =>
    obtain ⟨⟨z, z1, z2⟩, _⟩ := hd
    simp only [List.map_cons, ih, z1, Option.bind_some, z2]

/-- **C29** is false for `Delay`: for every filled buffer of `d >= 1` frames and every frame, the first call returns the
oldest frame and overwrites it in the buffer of the state that it was given, so that the second call with the same
state returns `x` itself. -/
theorem C29_delay_refuted (c : Delay.Cfg X) (h : Mem X) (a i : Nat) (ha : a < h.length) (hl : (read h a).length = c.d)
    (hi : i < c.d) (x : X) :
    ∃ r r', delayStep c x (some (a, (i : Int))) h = .ok r ∧ delayStep c x (some (a, (i : Int))) r.mem = .ok r' ∧
      r.out.bind (View.read r.mem) = (read h a)[i]? ∧ r'.out.bind (View.read r'.mem) = some x ∧
      read r.mem a = (read h a).set i x := by
  obtain ⟨m1, e1, k1⟩ := delayStep_full c ha hl hi x
  have hl1 : a < m1.length := by rw [k1]; simp; omega
  have hr1 : read m1 a = (read h a).set i x := by rw [k1]; exact read_set_self (by simp; omega) _
  have hn1 : (read m1 a).length = c.d := by rw [hr1]; simpa using hl
  obtain ⟨m2, e2, k2⟩ := delayStep_full c hl1 hn1 hi x
  refine ⟨_, _, e1, e2, ?_, ?_, hr1⟩
  · simp only [Option.bind_some, View.read]
    rw [k1, read_set_ne (by omega), read_alloc]; simp
  · simp only [Option.bind_some, View.read]
    rw [k2, read_set_ne (by omega), read_alloc]
    simp [hr1]

/-- **C29** is false for pooling: every step overwrites one frame in the buffer of the state that it was given. -/
theorem C29_pool_refuted (c : Pool.Cfg X Y) (hc : c.dil = 1) (h : Mem Y) (a i : Nat) (si : Int) (ha : a < h.length)
    (hi : i < (read h a).length) (x : X) :
    ∃ r, poolStep c x (some (a, (i : Int), si)) h = .ok r ∧ read r.mem a = (read h a).set i (c.spatial x) := by
  have hs : store h a (i : Int) (c.spatial x) = .ok (h.set a ((read h a).set i (c.spatial x))) := by
    unfold store; rw [pySet_ofNat _ hi]; rfl
  have hrd : read (h.set a ((read h a).set i (c.spatial x))) a = (read h a).set i (c.spatial x) := read_set_self ha _
  unfold poolStep
  simp only [hs, Pool.select, hc, if_true, alloc]
  split
  · refine ⟨_, rfl, ?_⟩
    simp only
    rw [read_append_lt (by simpa using ha), hrd]
  · exact ⟨_, rfl, hrd⟩

/-- **C29** is false for convolution in evaluation mode: the second call with the same state has another output.
(Sum over three frames, the state after the frames 1 and 2; the frame 10.) -/
theorem C29_conv_refuted :
    let c := exSum 3 1 0
    let h : Mem (List Int) := [[[1, 1], [2, 2]]]
    ∃ r r', convStep c false 10 (some (0, 0, 0)) h = .ok r ∧ convStep c false 10 (some (0, 0, 0)) r.mem = .ok r' ∧
      r.out.bind (View.read r.mem) = some [13] ∧ r'.out.bind (View.read r'.mem) = some [22] := by
  refine ⟨_, _, rfl, rfl, ?_, ?_⟩ <;> decide +kernel

example : Heap.read ([[3, 4]] : Mem Int) 0 = [3, 4] ∧ (delayStep exDelay2 9 (some (0, 1)) [[3, 4]]).map (·.mem) =
    .ok [[3, 9], [4]] := by decide

end CoInf
