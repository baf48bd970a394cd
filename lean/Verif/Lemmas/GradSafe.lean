/-
Programs that do not write into what they saved for the backward pass.
-/
import Verif.Lemmas.GradInv

set_option autoImplicit false

namespace CoInf.Grad

open CoInf.Spec

/-- The nodes from `b` on belong to the present stream: they point to nodes of this stream, what they saved is unchanged
and is not in `W`, the storages that may be written into later. -/
structure Inv (b : Nat) (W : Nat → Prop) (g : Graph) : Prop where
  ins : ∀ i n, nodeAt g.nodes i = some n → b ≤ i → ∀ j ∈ n.ins, b ≤ j
  saved : ∀ i n, nodeAt g.nodes i = some n → b ≤ i → ∀ p ∈ n.saved, g.ver p.1 = p.2 ∧ p.1 < g.used ∧ ¬ W p.1
  gone : ∀ i ∈ g.gone, i < b
  mem : ∀ m, W m → m < g.used
  base : b ≤ g.nodes.length

/-- A tensor of the present stream, in `W` or not. -/
structure Ok (b : Nat) (W : Nat → Prop) (g : Graph) (w : Bool) (t : Ten) : Prop where
  fn : ∀ i, t.fn = some i → b ≤ i
  mem : t.mem < g.used
  kind : W t.mem ↔ w = true

/-- More storages have been used; the old ones are in `W` or not as before. -/
structure Frame (W : Nat → Prop) (g : Graph) (W' : Nat → Prop) (g' : Graph) : Prop where
  used : g.used ≤ g'.used
  old : ∀ m, m < g.used → (W' m ↔ W m)

theorem Frame.trans {W W' W'' : Nat → Prop} {g g' g'' : Graph} (a : Frame W g W' g') (c : Frame W' g' W'' g'') :
    Frame W g W'' g'' :=
  ⟨Nat.le_trans a.used c.used, fun m hm => (c.old m (Nat.lt_of_lt_of_le hm a.used)).trans (a.old m hm)⟩

theorem Frame.refl (W : Nat → Prop) (g : Graph) : Frame W g W g := ⟨Nat.le_refl _, fun _ _ => Iff.rfl⟩

theorem Ok.frame {b : Nat} {W W' : Nat → Prop} {g g' : Graph} {w : Bool} {t : Ten} (h : Ok b W g w t)
    (f : Frame W g W' g') : Ok b W' g' w t :=
  ⟨h.fn, Nat.lt_of_lt_of_le h.mem f.used, (f.old _ h.mem).trans h.kind⟩

/-- `W` with the next storage, or without. -/
def plus (W : Nat → Prop) (w : Bool) (m : Nat) : Nat → Prop := fun k => W k ∨ (w = true ∧ k = m)

theorem make_inv {b : Nat} {W : Nat → Prop} {g : Graph} (hI : Inv b W g) {ts saved : List Ten} {so once w : Bool}
    (hts : ∀ t ∈ ts, ∀ i, t.fn = some i → b ≤ i) (hsv : ∀ t ∈ saved, t.mem < g.used ∧ ¬ W t.mem)
    (hw : so = true → w = false) :
    Frame W g (plus W w g.used) (g.make ts saved so once).2 ∧ Inv b (plus W w g.used) (g.make ts saved so once).2 ∧
    Ok b (plus W w g.used) (g.make ts saved so once).2 w (g.make ts saved so once).1 := by
  have hnot : ¬ W g.used := fun h => absurd (hI.mem _ h) (Nat.lt_irrefl _)
  have hold : ∀ m, m < g.used → (plus W w g.used m ↔ W m) := by
    intro m hm
    simp only [plus]
    constructor
    · rintro (h | ⟨_, h⟩)
      · exact h
      · omega
    · exact .inl
  have hmem : ∀ m, plus W w g.used m → m < g.used + 1 := by
    rintro m (h | ⟨_, rfl⟩)
    · have := hI.mem _ h; omega
    · omega
  have hkind : plus W w g.used g.used ↔ w = true := by
    simp only [plus]
    constructor
    · rintro (h | ⟨h, _⟩)
      · exact absurd h hnot
      · exact h
    · intro h; exact Or.inr (And.intro h (by simp))
  have hsaved : ∀ i n, nodeAt g.nodes i = some n → b ≤ i → ∀ p ∈ n.saved,
      g.ver p.1 = p.2 ∧ p.1 < g.used + 1 ∧ ¬ plus W w g.used p.1 := by
    intro i n hn hb p hp
    obtain ⟨h1, h2, h3⟩ := hI.saved i n hn hb p hp
    exact ⟨h1, by omega, fun h => h3 ((hold _ h2).1 h)⟩
  unfold Graph.make
  split
  · refine ⟨⟨Nat.le_succ _, hold⟩, ⟨?_, ?_, hI.gone, hmem, Nat.le_succ_of_le hI.base⟩,
      ⟨?_, Nat.lt_succ_self _, hkind⟩⟩
    · intro i n hn hb j hj
      simp only [nodeAt] at hn
      split at hn
      · cases hn
        obtain ⟨t, ht, hf⟩ := mem_fns.1 hj
        exact hts t ht j hf
      · exact hI.ins i n hn hb j hj
    · intro i n hn hb p hp
      simp only [nodeAt] at hn
      split at hn
      · cases hn
        rcases List.mem_append.1 hp with hp | hp
        · obtain ⟨t, ht, rfl⟩ := List.mem_map.1 hp
          obtain ⟨h1, h2⟩ := hsv t ht
          exact ⟨rfl, by simp only; omega, fun h => h2 ((hold _ h1).1 h)⟩
        · split at hp
          · rename_i hso
            obtain rfl := List.mem_singleton.1 hp
            refine ⟨rfl, by simp, fun h => ?_⟩
            rw [hw hso] at hkind
            exact absurd (hkind.1 (by rw [hw hso] at h; exact h)) (by simp)
          · cases hp
      · exact hsaved i n hn hb p hp
    · intro i hi
      cases hi
      exact hI.base
  · exact ⟨⟨Nat.le_succ _, hold⟩, ⟨hI.ins, hsaved, hI.gone, hmem, hI.base⟩,
      ⟨(fun i hi => by cases hi), Nat.lt_succ_self _, hkind⟩⟩

theorem view_inv {b : Nat} {W : Nat → Prop} {g : Graph} (hI : Inv b W g) {a : Ten} {w : Bool} (ha : Ok b W g w a) :
    Frame W g W (g.view a).2 ∧ Inv b W (g.view a).2 ∧ Ok b W (g.view a).2 w (g.view a).1 := by
  unfold Graph.view
  split
  · refine ⟨⟨Nat.le_refl _, fun _ _ => Iff.rfl⟩, ⟨?_, ?_, hI.gone, hI.mem, Nat.le_succ_of_le hI.base⟩,
      ⟨?_, ha.mem, ha.kind⟩⟩
    · intro i n hn hb j hj
      simp only [nodeAt] at hn
      split at hn
      · cases hn
        obtain ⟨t, ht, hf⟩ := mem_fns.1 hj
        obtain rfl := List.mem_singleton.1 ht
        exact ha.fn j hf
      · exact hI.ins i n hn hb j hj
    · intro i n hn hb p hp
      simp only [nodeAt] at hn
      split at hn
      · cases hn; cases hp
      · exact hI.saved i n hn hb p hp
    · intro i hi
      cases hi
      exact hI.base
  · exact ⟨.refl W g, hI, ⟨(fun i hi => by cases hi), ha.mem, ha.kind⟩⟩

theorem write_inv {b : Nat} {W : Nat → Prop} {g : Graph} (hI : Inv b W g) {a v : Ten} (ha : Ok b W g true a)
    (hv : ∀ i, v.fn = some i → b ≤ i) :
    Frame W g W (g.write a v).2 ∧ Inv b W (g.write a v).2 ∧ Ok b W (g.write a v).2 true (g.write a v).1 := by
  have hsaved : ∀ i n, nodeAt g.nodes i = some n → b ≤ i → ∀ p ∈ n.saved,
      (if p.1 = a.mem then g.ver p.1 + 1 else g.ver p.1) = p.2 ∧ p.1 < g.used ∧ ¬ W p.1 := by
    intro i n hn hb p hp
    obtain ⟨h1, h2, h3⟩ := hI.saved i n hn hb p hp
    refine ⟨?_, h2, h3⟩
    rw [if_neg, h1]
    intro h
    rw [h] at h3
    exact h3 (ha.kind.2 rfl)
  unfold Graph.write
  simp only
  split
  · refine ⟨⟨Nat.le_refl _, fun _ _ => Iff.rfl⟩, ⟨?_, ?_, hI.gone, hI.mem, Nat.le_succ_of_le hI.base⟩,
      ⟨?_, ha.mem, ha.kind⟩⟩
    · intro i n hn hb j hj
      simp only [nodeAt] at hn
      split at hn
      · cases hn
        obtain ⟨t, ht, hf⟩ := mem_fns.1 hj
        rcases List.mem_cons.1 ht with rfl | ht
        · exact ha.fn j hf
        · obtain rfl := List.mem_singleton.1 ht
          exact hv j hf
      · exact hI.ins i n hn hb j hj
    · intro i n hn hb p hp
      simp only [nodeAt] at hn
      split at hn
      · cases hn; cases hp
      · exact hsaved i n hn hb p hp
    · intro i hi
      cases hi
      exact hI.base
  · exact ⟨⟨Nat.le_refl _, fun _ _ => Iff.rfl⟩, ⟨hI.ins, hsaved, hI.gone, hI.mem, hI.base⟩, ⟨ha.fn, ha.mem, ha.kind⟩⟩

theorem Inv.drop {b : Nat} {W W' : Nat → Prop} {g : Graph} (hI : Inv b W g) (h : ∀ m, W' m → W m) : Inv b W' g :=
  ⟨hI.ins, fun i n hn hb p hp =>
    let ⟨h1, h2, h3⟩ := hI.saved i n hn hb p hp
    ⟨h1, h2, fun hm => h3 (h _ hm)⟩, hI.gone, fun m hm => hI.mem m (h m hm), hI.base⟩

theorem push_inv {b : Nat} {W : Nat → Prop} {g : Graph} (hI : Inv b W g) {a v : Ten}
    (ha : ∀ i, a.fn = some i → b ≤ i) (hv : ∀ i, v.fn = some i → b ≤ i) :
    let r := (g.make [a] [] false false)
    Frame W g W (r.2.write r.1 v).2 ∧ Inv b W (r.2.write r.1 v).2 ∧ Ok b W (r.2.write r.1 v).2 false (r.2.write r.1 v).1 := by
  intro r
  obtain ⟨hf, hI', hO⟩ := make_inv (w := true) (ts := [a]) (saved := []) (so := false) (once := false) hI
    (by intro t ht; obtain rfl := List.mem_singleton.1 ht; exact ha) (by simp) (by simp)
  obtain ⟨hf2, hI2, hO2⟩ := write_inv hI' hO hv
  refine ⟨⟨Nat.le_trans hf.used hf2.used, fun _ _ => Iff.rfl⟩, hI2.drop fun m hm => .inl hm, hO2.fn, hO2.mem, ?_⟩
  have hm : (r.2.write r.1 v).1.mem = g.used := by
    have h1 : r.1.mem = g.used := by
      show (g.make [a] [] false false).1.mem = g.used
      unfold Graph.make
      split <;> rfl
    rw [← h1]
    unfold Graph.write
    simp only
    split <;> rfl
  rw [hm]
  simp only [Bool.false_eq_true, iff_false]
  exact fun h => absurd (hI.mem _ h) (Nat.lt_irrefl _)

/-- The registers are tensors of the present stream. -/
def RegsOk (b : Nat) (W : Nat → Prop) (g : Graph) (rs : List Ten) (ks : List Bool) : Prop :=
  ks.length = rs.length ∧ ∀ i w, ks[i]? = some w → Ok b W g w (reg rs i)

/-- An operation saves no register that may be written into later, and writes only into those. -/
def Instr.check (ks : List Bool) (w : Bool) : Instr → Bool
  | .op args saved so _ =>
    args.all (fun i => decide (i < ks.length)) && saved.all (fun i => ks[i]? == some false) && !(so && w)
  | .view a => ks[a]? == some w
  | .zeros => true
  | .write a v => (ks[a]? == some true) && decide (v < ks.length) && w
  | .push a v => decide (a < ks.length) && decide (v < ks.length) && !w

def check : List Instr → List Bool → List Bool → Bool
  | [], _, [] => true
  | c :: cs, ks, w :: ws => c.check ks w && check cs (ks ++ [w]) ws
  | _, _, _ => false

theorem RegsOk.frame {b : Nat} {W W' : Nat → Prop} {g g' : Graph} {rs : List Ten} {ks : List Bool}
    (h : RegsOk b W g rs ks) (f : Frame W g W' g') : RegsOk b W' g' rs ks :=
  ⟨h.1, fun i w hw => (h.2 i w hw).frame f⟩

theorem RegsOk.snoc {b : Nat} {W : Nat → Prop} {g : Graph} {rs : List Ten} {ks : List Bool} {w : Bool} {t : Ten}
    (h : RegsOk b W g rs ks) (ht : Ok b W g w t) : RegsOk b W g (rs ++ [t]) (ks ++ [w]) := by
  refine ⟨by simp [h.1], fun i v hv => ?_⟩
  by_cases hlt : i < ks.length
  · rw [List.getElem?_append_left hlt] at hv
    rw [reg_append_left (by rw [← h.1]; exact hlt)]
    exact h.2 i v hv
  · have hi : i = ks.length := by
      have := (List.getElem?_eq_some_iff.1 hv).1
      simp at this
      omega
    subst hi
    simp only [List.getElem?_concat_length, Option.some.injEq] at hv
    subst hv
    rw [h.1, reg_append_last]
    exact ht

theorem RegsOk.append {b : Nat} {W : Nat → Prop} {g : Graph} {rs rs' : List Ten} {ks ks' : List Bool}
    (h : RegsOk b W g rs ks) (h' : RegsOk b W g rs' ks') : RegsOk b W g (rs ++ rs') (ks ++ ks') := by
  refine ⟨by simp [h.1, h'.1], fun i v hv => ?_⟩
  by_cases hlt : i < ks.length
  · rw [List.getElem?_append_left hlt] at hv
    have : reg (rs ++ rs') i = reg rs i := by
      unfold reg
      simp only [List.getD_eq_getElem?_getD]
      rw [List.getElem?_append_left (by rw [← h.1]; exact hlt)]
    rw [this]
    exact h.2 i v hv
  · rw [List.getElem?_append_right (by omega)] at hv
    have : reg (rs ++ rs') i = reg rs' (i - ks.length) := by
      unfold reg
      simp only [List.getD_eq_getElem?_getD]
      rw [List.getElem?_append_right (by rw [← h.1]; omega), h.1]
    rw [this]
    exact h'.2 _ v hv

theorem exec_inv {b : Nat} {W : Nat → Prop} {g : Graph} (hI : Inv b W g) {rs : List Ten} {ks : List Bool}
    (h : RegsOk b W g rs ks) (c : Instr) (w : Bool) (hc : c.check ks w = true) :
    ∃ W', Frame W g W' (c.exec rs g).2 ∧ Inv b W' (c.exec rs g).2 ∧ Ok b W' (c.exec rs g).2 w (c.exec rs g).1 := by
  have hfn : ∀ i, i < ks.length → ∀ j, (reg rs i).fn = some j → b ≤ j :=
    fun i hi => (h.2 i ks[i] (List.getElem?_eq_getElem hi)).fn
  cases c with
  | op args saved so once =>
    simp only [Instr.check, Bool.and_eq_true, List.all_eq_true, decide_eq_true_eq, beq_iff_eq, Bool.not_eq_true',
      Bool.and_eq_false_iff] at hc
    refine ⟨plus W w g.used, make_inv hI ?_ ?_ ?_⟩
    · intro t ht
      obtain ⟨i, hi, rfl⟩ := List.mem_map.1 ht
      exact hfn i (hc.1.1 i hi)
    · intro t ht
      obtain ⟨i, hi, rfl⟩ := List.mem_map.1 ht
      have := h.2 i false (hc.1.2 i hi)
      exact ⟨this.mem, fun hm => by simpa using this.kind.1 hm⟩
    · intro hso
      rcases hc.2 with h | h
      · rw [hso] at h; cases h
      · exact h
  | view a =>
    simp only [Instr.check, beq_iff_eq] at hc
    exact ⟨W, view_inv hI (h.2 a w hc)⟩
  | zeros => exact ⟨plus W w g.used, make_inv hI (by simp) (by simp) (by simp)⟩
  | write a v =>
    simp only [Instr.check, Bool.and_eq_true, decide_eq_true_eq, beq_iff_eq] at hc
    obtain ⟨⟨h1, h2⟩, rfl⟩ := hc
    exact ⟨W, write_inv hI (h.2 a true h1) (hfn v h2)⟩
  | push a v =>
    simp only [Instr.check, Bool.and_eq_true, decide_eq_true_eq, Bool.not_eq_true'] at hc
    obtain ⟨⟨h1, h2⟩, rfl⟩ := hc
    exact ⟨W, push_inv hI (hfn a h1) (hfn v h2)⟩

theorem run_inv : ∀ (cs : List Instr) (rs : List Ten) (ks ws : List Bool) (g : Graph) (b : Nat) (W : Nat → Prop),
    check cs ks ws = true → Inv b W g → RegsOk b W g rs ks →
    ∃ W', Frame W g W' (run cs rs g).2 ∧ Inv b W' (run cs rs g).2 ∧ RegsOk b W' (run cs rs g).2 (run cs rs g).1 (ks ++ ws)
  | [], rs, ks, [], g, b, W, _, hI, h => ⟨W, .refl W g, hI, by rw [List.append_nil]; exact h⟩
  | [], _, _, _ :: _, _, _, _, hc, _, _ => by cases hc
  | _ :: _, _, _, [], _, _, _, hc, _, _ => by cases hc
  | c :: cs, rs, ks, w :: ws, g, b, W, hc, hI, h => by
    simp only [check, Bool.and_eq_true] at hc
    obtain ⟨W1, hf1, hI1, hO1⟩ := exec_inv hI h c w hc.1
    obtain ⟨W2, hf2, hI2, hO2⟩ := run_inv cs _ _ ws _ b W1 hc.2 hI1 ((h.frame hf1).snoc hO1)
    refine ⟨W2, hf1.trans hf2, hI2, ?_⟩
    rw [List.append_assoc, List.singleton_append] at hO2
    exact hO2

/-! ### The modules -/

/-- Which parts of its state a module writes into in later steps. -/
def Kind.writes : Kind → List Bool
  | .layer _ _ => []
  | .conv .. => [true]
  | .pool .. => [true]
  | .delay .. => [true]
  | .single .. => [false, false, false]
  | .retro .. => [false, false, false, false, false]

/-- Which results of a step may be written into in later steps. -/
def Kind.ann : Kind → (first emit : Bool) → List Bool
  | .layer _ _, _, _ => [false]
  | .conv _ _ _ _ t, first, emit =>
    [false, false, false] ++ (if first then [false, true] else []) ++
      (if emit then [false, false, false, false] else []) ++ (if t then [true, true] else [true])
  | .pool _ _ _ _ _ _ sp c, first, emit =>
    (if sp then [false] else []) ++ (if first then [false, true] else []) ++ [true] ++
      (if emit then [!c, false, false] else [])
  | .delay _ _ _, first, emit =>
    (if first then [false, true] else []) ++ (if emit then [true, false] else []) ++ [true]
  | .single _ _, first, _ => List.replicate (if first then 16 else 13) false
  | .retro _, first, _ => List.replicate (if first then 33 else 28) false

/-- The registers of a module before a step. -/
def Kind.kinds (k : Kind) (first : Bool) : List Bool :=
  false :: List.replicate k.leaf.params false ++ (if first then [] else k.writes)

/-- What is to be checked of a module. -/
def Kind.Checked (k : Kind) (first emit : Bool) : Prop :=
  check (k.leaf.code first emit) (k.kinds first) (k.ann first emit) = true ∧
  (emit = true → (k.kinds first ++ k.ann first emit)[k.leaf.out first emit]? = some false) ∧
  (k.leaf.keep first emit).map (fun i => (k.kinds first ++ k.ann first emit)[i]?) = k.writes.map some

instance (k : Kind) (first emit : Bool) : Decidable (k.Checked first emit) := by
  unfold Kind.Checked
  infer_instance

/-- The code does not depend on the sizes. -/
def Kind.bare : Kind → Kind
  | .layer w o => .layer w o
  | .conv _ _ _ r t => .conv 0 0 0 r t
  | .pool _ _ _ _ m r sp c => .pool 0 0 0 0 m r sp c
  | .delay _ sh r => .delay 0 sh r
  | .single _ o => .single 0 o
  | .retro _ => .retro 0

theorem bare_code (k : Kind) : k.bare.leaf.code = k.leaf.code := by cases k <;> rfl
theorem bare_out (k : Kind) : k.bare.leaf.out = k.leaf.out := by cases k <;> rfl
theorem bare_keep (k : Kind) : k.bare.leaf.keep = k.leaf.keep := by cases k <;> rfl
theorem bare_params (k : Kind) : k.bare.leaf.params = k.leaf.params := by cases k <;> rfl
theorem bare_writes (k : Kind) : k.bare.writes = k.writes := by cases k <;> rfl
theorem bare_ann (k : Kind) : k.bare.ann = k.ann := by cases k <;> rfl

theorem check_layer : ∀ w o first emit, (Kind.layer w o).Checked first emit := by decide +kernel
theorem check_conv : ∀ r t first emit, (Kind.conv 0 0 0 r t).Checked first emit := by decide +kernel
theorem check_pool : ∀ m r sp c first emit, (m = true → c = true) → (Kind.pool 0 0 0 0 m r sp c).Checked first emit := by
  decide +kernel
theorem check_delay : ∀ sh r first emit, (Kind.delay 0 sh r).Checked first emit := by decide +kernel
theorem check_single : ∀ o first emit, (Kind.single 0 o).Checked first emit := by decide +kernel
theorem check_retro : ∀ first emit, (Kind.retro 0).Checked first emit := by decide +kernel

theorem kind_check (k : Kind) (hk : k.Tame) (first emit : Bool) : k.Checked first emit := by
  have h : k.bare.Checked first emit := by
    cases k with
    | layer w o => exact check_layer w o first emit
    | conv K s p r t => exact check_conv r t first emit
    | pool K d s p m r sp c => exact check_pool m r sp c first emit hk
    | delay d sh r => exact check_delay sh r first emit
    | single N o => exact check_single o first emit
    | retro N => exact check_retro first emit
  unfold Kind.Checked Kind.kinds at h ⊢
  rw [bare_code, bare_out, bare_keep, bare_params, bare_writes, bare_ann] at h
  exact h

/-- The parameters and states are tensors of the present stream. -/
def InstOk (b : Nat) (W : Nat → Prop) (g : Graph) : Net → Inst → Prop
  | .one k, .one ps st =>
    RegsOk b W g ps (List.replicate k.leaf.params false) ∧ ∀ s, st = some s → RegsOk b W g s.1 k.writes
  | .seq a b', .two ia ib => InstOk b W g a ia ∧ InstOk b W g b' ib
  | .sum _ a b', .two ia ib => InstOk b W g a ia ∧ InstOk b W g b' ib
  | _, _ => False

theorem InstOk.frame {b : Nat} {W W' : Nat → Prop} {g g' : Graph} (f : Frame W g W' g') : ∀ {net : Net} {i : Inst},
    InstOk b W g net i → InstOk b W' g' net i
  | .one _, .one _ _, h => ⟨h.1.frame f, fun s hs => (h.2 s hs).frame f⟩
  | .seq _ _, .two _ _, h => ⟨InstOk.frame f h.1, InstOk.frame f h.2⟩
  | .sum _ _ _, .two _ _, h => ⟨InstOk.frame f h.1, InstOk.frame f h.2⟩
  | .one _, .two _ _, h => h.elim
  | .seq _ _, .one _ _, h => h.elim
  | .sum _ _ _, .one _ _, h => h.elim

theorem regsOk_single {b : Nat} {W : Nat → Prop} {g : Graph} {t : Ten} {w : Bool} (h : Ok b W g w t) :
    RegsOk b W g [t] [w] := by
  refine ⟨rfl, fun i v hv => ?_⟩
  cases i with
  | zero => cases hv; exact h
  | succ i => cases hv

theorem step_inv : ∀ (net : Net), net.Tame → ∀ (i : Inst) (x : Ten) (g : Graph) (b : Nat) (W : Nat → Prop),
    Inv b W g → Ok b W g false x → InstOk b W g net i →
    ∃ W', Frame W g W' (net.step i x g).2.2 ∧ Inv b W' (net.step i x g).2.2 ∧
      (∀ y, (net.step i x g).1 = some y → Ok b W' (net.step i x g).2.2 false y) ∧
      InstOk b W' (net.step i x g).2.2 net (net.step i x g).2.1
  | .one k, hk, .one ps st, x, g, b, W, hI, hx, hi => by
    have hregs : RegsOk b W g (x :: ps ++ (st.map Prod.fst).getD []) (k.kinds st.isNone) := by
      have h1 := (regsOk_single hx).append hi.1
      refine h1.append ?_
      cases st with
      | none => exact ⟨rfl, fun i w hw => by cases hw⟩
      | some s => exact hi.2 s rfl
    obtain ⟨hc, ho, hkp⟩ := kind_check k hk st.isNone (k.leaf.emits ((st.map Prod.snd).getD k.leaf.start))
    obtain ⟨W', hf, hI', hR⟩ := run_inv _ _ _ _ g b W hc hI hregs
    refine ⟨W', hf, hI', ?_, hi.1.frame hf, ?_⟩
    · intro y hy
      simp only [Net.step, Leaf.step] at hy
      split at hy
      · rename_i he
        cases hy
        exact hR.2 _ false (ho he)
      · cases hy
    · intro s hs
      simp only [Leaf.step, Option.some.injEq] at hs
      subst hs
      have hlen := congrArg List.length hkp
      simp only [List.length_map] at hlen
      refine ⟨by simp only [List.length_map]; exact hlen.symm, fun j w hw => ?_⟩
      have hj := (List.getElem?_eq_some_iff.1 hw).1
      rw [← hlen] at hj
      have hkj := congrArg (fun l => l[j]?) hkp
      simp only [List.getElem?_map, hw, List.getElem?_eq_getElem hj, Option.map_some, Option.some.injEq] at hkj
      have := hR.2 _ w hkj
      unfold reg at this ⊢
      simp only [List.getD_eq_getElem?_getD] at this ⊢
      rw [List.getElem?_map, List.getElem?_eq_getElem hj]
      exact this
  | .seq a c, hk, .two ia ic, x, g, b, W, hI, hx, hi => by
    obtain ⟨W1, hf1, hI1, hO1, hi1⟩ := step_inv a hk.1 ia x g b W hI hx hi.1
    simp only [Net.step]
    rcases hs : a.step ia x g with ⟨o, ia', g'⟩
    rw [hs] at hf1 hI1 hO1 hi1
    cases o with
    | none => exact ⟨W1, hf1, hI1, (fun y hy => by cases hy), hi1, InstOk.frame hf1 hi.2⟩
    | some y =>
      obtain ⟨W2, hf2, hI2, hO2, hi2⟩ := step_inv c hk.2 ic y g' b W1 hI1 (hO1 y rfl) (InstOk.frame hf1 hi.2)
      exact ⟨W2, hf1.trans hf2, hI2, hO2, InstOk.frame hf2 hi1, hi2⟩
  | .sum mul a c, hk, .two ia ic, x, g, b, W, hI, hx, hi => by
    obtain ⟨W1, hf1, hI1, hO1, hi1⟩ := step_inv a hk.1 ia x g b W hI hx hi.1
    simp only [Net.step]
    rcases hs : a.step ia x g with ⟨o, ia', g'⟩
    rw [hs] at hf1 hI1 hO1 hi1
    obtain ⟨W2, hf2, hI2, hO2, hi2⟩ := step_inv c hk.2 ic x g' b W1 hI1 (hx.frame hf1) (InstOk.frame hf1 hi.2)
    simp only
    rcases hs' : c.step ic x g' with ⟨o', ic', g''⟩
    rw [hs'] at hf2 hI2 hO2 hi2
    have hi' : InstOk b W2 g'' (.sum mul a c) (.two ia' ic') := ⟨InstOk.frame hf2 hi1, hi2⟩
    cases o with
    | none => exact ⟨W2, hf1.trans hf2, hI2, (fun y hy => by cases hy), hi'⟩
    | some y =>
      cases o' with
      | none => exact ⟨W2, hf1.trans hf2, hI2, (fun y hy => by cases hy), hi'⟩
      | some z =>
        have hy := (hO1 y rfl).frame hf2
        have hz := hO2 z rfl
        have hyz : ∀ t ∈ [y, z], Ok b W2 g'' false t := by
          intro t ht
          rcases List.mem_cons.1 ht with rfl | ht
          · exact hy
          · obtain rfl := List.mem_singleton.1 ht
            exact hz
        obtain ⟨hf3, hI3, hO3⟩ := make_inv (w := false) (ts := [y, z]) (saved := if mul then [y, z] else [])
          (so := false) (once := mul) hI2 (fun t ht => (hyz t ht).fn)
          (by
            intro t ht
            split at ht
            · exact ⟨(hyz t ht).mem, fun h => by simpa using (hyz t ht).kind.1 h⟩
            · cases ht) (by simp)
        exact ⟨_, (hf1.trans hf2).trans hf3, hI3, (fun w hw => by cases hw; exact hO3), InstOk.frame hf3 hi'⟩
  | .one _, _, .two _ _, _, _, _, _, _, _, hi => hi.elim
  | .seq _ _, _, .one _ _, _, _, _, _, _, _, hi => hi.elim
  | .sum _ _ _, _, .one _ _, _, _, _, _, _, _, hi => hi.elim

theorem frame_inv {b : Nat} {W : Nat → Prop} {g : Graph} (hI : Inv b W g) :
    Frame W g W g.frame.2 ∧ Inv b W g.frame.2 ∧ Ok b W g.frame.2 false g.frame.1 := by
  refine ⟨⟨Nat.le_succ _, fun _ _ => Iff.rfl⟩, ⟨hI.ins, ?_, hI.gone, ?_, hI.base⟩, ⟨(fun i hi => by cases hi), ?_, ?_⟩⟩
  · intro i n hn hb p hp
    obtain ⟨h1, h2, h3⟩ := hI.saved i n hn hb p hp
    exact ⟨h1, Nat.lt_succ_of_lt h2, h3⟩
  · intro m hm
    exact Nat.lt_succ_of_lt (hI.mem m hm)
  · exact Nat.lt_succ_self _
  · simp only [Graph.frame, Bool.false_eq_true, iff_false]
    exact fun h => absurd (hI.mem _ h) (Nat.lt_irrefl _)

theorem stream_inv (net : Net) (hk : net.Tame) : ∀ (n : Nat) (i : Inst) (g : Graph) (b : Nat) (W : Nat → Prop),
    Inv b W g → InstOk b W g net i →
    ∃ W', Frame W g W' (net.stream n i g).2.2 ∧ Inv b W' (net.stream n i g).2.2 ∧
      (∀ y ∈ (net.stream n i g).1, Ok b W' (net.stream n i g).2.2 false y) ∧
      InstOk b W' (net.stream n i g).2.2 net (net.stream n i g).2.1
  | 0, i, g, b, W, hI, hi => ⟨W, .refl W g, hI, by simp [Net.stream], hi⟩
  | n + 1, i, g, b, W, hI, hi => by
    obtain ⟨W1, hf1, hI1, hO1, hi1⟩ := stream_inv net hk n i g b W hI hi
    obtain ⟨hf2, hI2, hO2⟩ := frame_inv hI1
    obtain ⟨W3, hf3, hI3, hO3, hi3⟩ := step_inv net hk _ _ _ b W1 hI2 hO2 (InstOk.frame hf2 hi1)
    refine ⟨W3, (hf1.trans hf2).trans hf3, hI3, ?_, hi3⟩
    intro y hy
    rcases List.mem_append.1 hy with hy | hy
    · exact ((hO1 y hy).frame hf2).frame hf3
    · exact hO3 y (Option.mem_toList.1 hy)

end CoInf.Grad
