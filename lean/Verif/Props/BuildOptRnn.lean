/-
C114: keyword arguments of `build_from` of the recurrent modules.
-/
import Verif.Props.BuildOpt

set_option autoImplicit false

namespace CoInf
open BuildOpt
open AttnBuild (Ten copy copyIf fits source fits_self source_self copy_self)
open CoInf.Typed (Place Casts)

namespace Spec
variable {F : Type}

/-- The arguments of the module, but for those asked for. -/
def rnnWith (c : Cell) (m : RnnMod F) (k : RnnKw F) : RnnSizes :=
  ⟨k.input.getD m.sizes.input, k.hidden.getD m.sizes.hidden, k.layers.getD m.sizes.layers, k.bias.getD m.sizes.bias,
    (k.proj.filter fun _ => c = .lstm).getD m.sizes.proj, (k.nonlinearity.filter fun _ => c = .rnn).getD m.sizes.nonlinearity⟩

/-- Type and device of the module, or those asked for. -/
def rnnPlace (m : RnnMod F) (k : RnnKw F) : Option Place := k.place.or (m.flat.head?.map (·.ten.place))

end Spec

namespace BuildOpt
open Spec
variable {F : Type}

theorem rnnSizes_eq (c : Cell) (m : RnnMod F) (k : RnnKw F) : rnnSizes c m k = rnnWith c m k := by
  unfold rnnSizes rnnWith
  congr 1
  · cases k.proj <;> cases c <;> simp [Option.filter]
  · cases k.nonlinearity <;> cases c <;> simp [Option.filter]

theorem mem_flat (c : Cell) (a : RnnSizes) (r : Role) (l : Nat) (s : List Nat) :
    (r, l, s) ∈ flatShapes c a ↔ l < a.layers ∧ (r, s) ∈ layerShapes c a l := by
  simp only [flatShapes, List.mem_flatMap, List.mem_range, List.mem_map, Prod.mk.injEq, Prod.exists]
  constructor
  · rintro ⟨x, h1, r', s', h2, rfl, rfl, rfl⟩; exact ⟨h1, h2⟩
  · rintro ⟨h1, h2⟩; exact ⟨l, h1, r, s, h2, rfl, rfl, rfl⟩

theorem gates_pos (c : Cell) : 0 < c.gates := by cases c <;> decide

/-- The list of weights determines the sizes. -/
theorem flatShapes_inj (c : Cell) (a b : RnnSizes) (ha : a.layers ≠ 0) (hb : b.layers ≠ 0)
    (h : flatShapes c a = flatShapes c b) :
    a.input = b.input ∧ a.hidden = b.hidden ∧ a.layers = b.layers ∧ a.bias = b.bias ∧ a.proj = b.proj := by
  have hmem : ∀ r l s, (l < a.layers ∧ (r, s) ∈ layerShapes c a l) ↔ (l < b.layers ∧ (r, s) ∈ layerShapes c b l) := by
    intro r l s
    rw [← mem_flat, ← mem_flat, h]
  have hih : ∀ (a : RnnSizes) l s, (Role.weightIh, s) ∈ layerShapes c a l ↔
      s = [c.gates * a.hidden, if l = 0 then a.input else if a.proj = 0 then a.hidden else a.proj] := by
    intro a l s
    simp only [layerShapes]
    cases a.bias <;> split <;> simp
  have hbi : ∀ (a : RnnSizes) l s, (Role.biasIh, s) ∈ layerShapes c a l ↔ a.bias = true ∧ s = [c.gates * a.hidden] := by
    intro a l s
    simp only [layerShapes]
    cases a.bias <;> split <;> simp
  have hhr : ∀ (a : RnnSizes) l s, (Role.weightHr, s) ∈ layerShapes c a l ↔ a.proj ≠ 0 ∧ s = [a.proj, a.hidden] := by
    intro a l s
    simp only [layerShapes]
    by_cases hp : a.proj = 0 <;> cases a.bias <;> simp [hp]
  have h0 := ((hmem .weightIh 0 _).1 ⟨Nat.pos_of_ne_zero ha, (hih a 0 _).2 rfl⟩).2
  rw [hih] at h0
  simp only [if_true, List.cons.injEq, and_true] at h0
  have hhid : a.hidden = b.hidden := Nat.eq_of_mul_eq_mul_left (gates_pos c) h0.1
  refine ⟨h0.2, hhid, ?_, ?_, ?_⟩
  · apply le_antisymm
    · by_contra hlt
      have := (hmem .weightIh b.layers _).1 ⟨by omega, (hih a _ _).2 rfl⟩
      omega
    · by_contra hlt
      have := (hmem .weightIh a.layers _).2 ⟨by omega, (hih b _ _).2 rfl⟩
      omega
  · rw [Bool.eq_iff_iff]
    constructor
    · intro h1
      exact ((hbi _ _ _).1 ((hmem .biasIh 0 _).1 ⟨by omega, (hbi a 0 _).2 ⟨h1, rfl⟩⟩).2).1
    · intro h1
      exact ((hbi _ _ _).1 ((hmem .biasIh 0 _).2 ⟨by omega, (hbi b 0 _).2 ⟨h1, rfl⟩⟩).2).1
  · by_cases hp : a.proj = 0
    · by_contra hq
      have := (hmem .weightHr 0 _).2 ⟨by omega, (hhr b 0 _).2 ⟨fun h => hq (hp.trans h.symm), rfl⟩⟩
      exact ((hhr _ _ _).1 this.2).1 hp
    · have := (hmem .weightHr 0 _).1 ⟨by omega, (hhr a 0 _).2 ⟨hp, rfl⟩⟩
      have := ((hhr _ _ _).1 this.2).2
      simp only [List.cons.injEq, and_true] at this
      exact this.1

variable [Casts F]

/-- Copying keeps names, shapes and the place. -/
theorem copyAll_names (os ts us : List (Par F)) (h : copyAll os ts = .ok us) :
    us.map (fun w => (w.role, w.layer, w.ten.shape, w.ten.place)) = os.map (fun w => (w.role, w.layer, w.ten.shape, w.ten.place)) := by
  induction os generalizing ts us with
  | nil => cases ts <;> · simp only [copyAll] at h; cases h; rfl
  | cons o os ih =>
    cases ts with
    | nil => simp only [copyAll] at h; cases h; rfl
    | cons t ts =>
      simp only [copyAll, Bind.bind, Except.bind, pure, Except.pure] at h
      split at h
      · cases h
      rename_i u eu
      split at h
      · cases h
      rename_i vs ev
      cases h
      obtain ⟨-, u, rfl, h1, h2, -⟩ := copy_ok _ _ _ eu
      simp [ih _ _ ev, h1, h2]

/-- Copying between lists of the same shapes. -/
theorem copyAll_same (q : Place) (os ts : List (Par F)) (hq : ∀ o ∈ os, o.ten.place = q)
    (h : os.map (fun w => (w.role, w.layer, w.ten.shape)) = ts.map (fun w => (w.role, w.layer, w.ten.shape))) :
    ∃ us, copyAll os ts = .ok us ∧ List.Forall₂ (SamePar q) us ts := by
  induction os generalizing ts with
  | nil =>
    cases ts with
    | nil => exact ⟨[], rfl, .nil⟩
    | cons t ts => simp at h
  | cons o os ih =>
    cases ts with
    | nil => simp at h
    | cons t ts =>
      simp only [List.map_cons, List.cons.injEq, Prod.mk.injEq] at h
      obtain ⟨us, e, hus⟩ := ih ts (fun o ho => hq o (List.mem_cons_of_mem _ ho)) h.2
      obtain ⟨u, eu, hu, -⟩ := copy_self o.ten t.ten h.1.2.2
      rw [hq o List.mem_cons_self] at hu
      refine ⟨{ o with ten := u } :: us, ?_, .cons ⟨h.1.1, h.1.2.1, hu⟩ hus⟩
      simp only [copyAll, Bind.bind, Except.bind, pure, Except.pure, eu, e, Option.getD]

/-- Copying from a list that starts, or goes on, like the other. -/
theorem copyAll_append (os os' ts ts' us : List (Par F)) (hl : os.length = ts.length) (h : copyAll os ts = .ok us) :
    copyAll (os ++ os') (ts ++ ts') = (copyAll os' ts').map (us ++ ·) := by
  induction os generalizing ts us with
  | nil =>
    cases ts with
    | nil => simp only [copyAll] at h; cases h; simp; cases copyAll os' ts' <;> rfl
    | cons t ts => simp at hl
  | cons o os ih =>
    cases ts with
    | nil => simp at hl
    | cons t ts =>
      simp only [copyAll, Bind.bind, Except.bind, pure, Except.pure, List.cons_append] at h ⊢
      split at h
      · cases h
      rename_i u eu
      split at h
      · cases h
      rename_i vs ev
      cases h
      rw [ih ts vs (by simpa using hl) ev]
      cases copyAll os' ts' <;> rfl

/-- `RuntimeError` if a weight does not fit. -/
theorem copyAll_stuck (os os' ts ts' : List (Par F)) (o t : Par F) (hl : os.length = ts.length)
    (h : ∃ us, copyAll os ts = .ok us) (hf : fits t.ten.shape o.ten.shape = false) :
    copyAll (os ++ o :: os') (ts ++ t :: ts') = .error .runtime := by
  obtain ⟨us, h⟩ := h
  rw [copyAll_append _ _ _ _ us hl h]
  simp only [copyAll, Bind.bind, Except.bind, copy_unfit _ _ hf]
  rfl

theorem copyAll_nil (os : List (Par F)) : copyAll os [] = .ok os := by cases os <;> rfl
theorem nil_copyAll (ts : List (Par F)) : copyAll [] ts = .ok [] := by cases ts <;> rfl

/-- The constructor, when it does not raise. -/
theorem makeRnn_ok (seed : Role → Nat → List Nat → F) (c : Cell) (a : RnnSizes) (d : F) (p : Place) (o : RnnMod F)
    (h : makeRnn seed c a d p = .ok o) : a.layers ≠ 0 ∧ a.hidden ≠ 0 ∧ a.proj < a.hidden ∧
      (a.nonlinearity = "tanh" ∨ a.nonlinearity = "relu") ∧ o.sizes = a ∧ o.dropout = d ∧
      o.flat = (flatShapes c a).map fun s => ⟨s.1, s.2.1, ⟨s.2.2, seed s.1 s.2.1, p, true⟩⟩ := by
  unfold makeRnn at h
  split at h
  · cases h
  rename_i h1
  split at h
  · cases h
  rename_i h2
  cases h
  push Not at h1 h2
  simp only [List.mem_cons, List.not_mem_nil, or_false] at h2
  exact ⟨h1.1, h1.2.1, h1.2.2, h2, rfl, rfl, rfl⟩

theorem makeRnn_of (seed : Role → Nat → List Nat → F) (c : Cell) (a : RnnSizes) (d : F) (p : Place) (h1 : a.layers ≠ 0)
    (h2 : a.hidden ≠ 0) (h3 : a.proj < a.hidden) (h4 : a.nonlinearity = "tanh" ∨ a.nonlinearity = "relu") :
    makeRnn seed c a d p = .ok ⟨a, d, (flatShapes c a).map fun s => ⟨s.1, s.2.1, ⟨s.2.2, seed s.1 s.2.1, p, true⟩⟩⟩ := by
  unfold makeRnn
  rw [if_neg (by push Not; exact ⟨h1, h2, h3⟩), if_neg (by push Not; simpa using h4)]

end BuildOpt

open Spec
variable {F : Type} [Casts F]

/-- C114: a recurrent module is built with the weights of the original exactly if the sizes stay as they are; then it has the other
arguments that were asked for, whatever it was initialised with. -/
theorem C114_rnn_exact (seed : Role → Nat → List Nat → F) (c : Cell) (m : RnnMod F) (hm : FormedRnn c m) (k : RnnKw F) :
    (∃ r q, buildRnn seed c m k = .ok r ∧ rnnPlace m k = some q ∧ List.Forall₂ (SamePar q) r.flat m.flat ∧ r.sizes = rnnWith c m k ∧
        r.dropout = k.dropout.getD m.dropout) ↔
      (rnnWith c m k).input = m.sizes.input ∧ (rnnWith c m k).hidden = m.sizes.hidden ∧ (rnnWith c m k).layers = m.sizes.layers ∧
        (rnnWith c m k).bias = m.sizes.bias ∧ (rnnWith c m k).proj = m.sizes.proj ∧
        ((rnnWith c m k).nonlinearity = "tanh" ∨ (rnnWith c m k).nonlinearity = "relu") := by
  unfold buildRnn rnnPlace
  cases hflat : m.flat with
  | nil =>
    have h1 := hm.flat
    have h2 := (mem_flat c m.sizes .weightIh 0 _).2 ⟨Nat.pos_of_ne_zero hm.layers, List.mem_append_left _ (List.mem_append_left _ (List.mem_cons_self))⟩
    rw [← h1, hflat] at h2
    simp at h2
  | cons w ws =>
    simp only []
    rw [rnnSizes_eq]
    generalize rnnWith c m k = a
    generalize k.dropout.getD m.dropout = d
    have hplace : k.place.or ((w :: ws).head?.map (·.ten.place)) = some (k.place.getD w.ten.place) := by
      cases k.place <;> rfl
    rw [hplace]
    generalize k.place.getD w.ten.place = q
    constructor
    · rintro ⟨r, q', h, hq, hw, -, -⟩
      cases hq
      simp only [Bind.bind, Except.bind, pure, Except.pure] at h
      split at h
      · cases h
      rename_i o eo
      split at h
      · cases h
      rename_i us eu
      cases h
      obtain ⟨h1, h2, h3, h4, h5, h6, h7⟩ := makeRnn_ok _ _ _ _ _ _ eo
      have hn := congrArg (List.map fun x : Role × Nat × List Nat × Place => (x.1, x.2.1, x.2.2.1)) (copyAll_names _ _ _ eu)
      rw [List.map_map, List.map_map, h7, List.map_map] at hn
      have e1 : us.map (fun w => (w.role, w.layer, w.ten.shape)) = flatShapes c a := by
        refine Eq.trans hn ?_
        refine Eq.trans (List.map_congr_left fun x _ => ?_) (List.map_id _)
        rfl
      have e2 : us.map (fun w => (w.role, w.layer, w.ten.shape)) = (w :: ws).map (fun w => (w.role, w.layer, w.ten.shape)) := by
        have hw' : List.Forall₂ (SamePar q) us (w :: ws) := hw
        generalize (w :: ws) = l at hw'
        clear hw e1 hn eu
        induction hw' with
        | nil => rfl
        | cons h _ ih => simp [ih, h.1, h.2.1, h.2.2.1]
      rw [e1, ← hflat, hm.flat] at e2
      obtain ⟨g1, g2, g3, g4, g5⟩ := flatShapes_inj c _ _ h1 hm.layers e2
      exact ⟨g1, g2, g3, g4, g5, h4⟩
    · rintro ⟨h1, h2, h3, h4, h5, h6⟩
      have eo := makeRnn_of seed c a d q (by rw [h3]; exact hm.layers) (by rw [h2]; exact hm.hidden) (by rw [h2, h5]; exact hm.proj) h6
      have efs : flatShapes c a = flatShapes c m.sizes := by
        unfold flatShapes layerShapes
        rw [h1, h2, h3, h4, h5]
      obtain ⟨us, eu, hu⟩ := copyAll_same q ((flatShapes c a).map fun s => (⟨s.1, s.2.1, ⟨s.2.2, seed s.1 s.2.1, q, true⟩⟩ : Par F)) (w :: ws)
        (by intro o ho; obtain ⟨s, -, rfl⟩ := List.mem_map.1 ho; rfl)
        (by rw [← hflat, hm.flat, efs, List.map_map]
            refine Eq.trans (List.map_congr_left fun x _ => ?_) (List.map_id _)
            rfl)
      refine ⟨⟨a, d, us⟩, q, ?_, rfl, hu, rfl, rfl⟩
      rw [eo]
      simp only [Bind.bind, Except.bind, pure, Except.pure, eu]

namespace BuildOpt

/-- The list of weights by layers. -/
theorem flatMap_get {α : Type} (f : Nat → List α) (c n l e : Nat) (hf : ∀ i, (f i).length = c) (hl : l < n) (he : e < c) :
    ((List.range n).flatMap f)[c * l + e]? = (f l)[e]? := by
  induction n with
  | zero => omega
  | succ n ih =>
    have hlen : ((List.range n).flatMap f).length = c * n := by
      clear ih hl
      induction n with
      | zero => rfl
      | succ n ih => rw [List.range_succ, List.flatMap_append, List.length_append, ih]; simp [hf, Nat.mul_succ]
    rw [List.range_succ, List.flatMap_append]
    by_cases h : l < n
    · have : c * l + e < c * n := by
        calc c * l + e < c * l + c := by omega
          _ = c * (l + 1) := by ring
          _ ≤ c * n := Nat.mul_le_mul_left _ h
      rw [List.getElem?_append_left (by rw [hlen]; exact this)]
      exact ih h
    · have : l = n := by omega
      subst this
      rw [List.getElem?_append_right (by rw [hlen]; omega), hlen]
      simp

theorem flatMap_length {α : Type} (f : Nat → List α) (c n : Nat) (hf : ∀ i, (f i).length = c) : ((List.range n).flatMap f).length = c * n := by
  induction n with
  | zero => rfl
  | succ n ih => rw [List.range_succ, List.flatMap_append, List.length_append, ih]; simp [hf, Nat.mul_succ]

/-- What copying does at each place. -/
theorem copyAll_get (os ts : List (Par F))
    (h : ∀ (i : Nat) (o t : Par F), os[i]? = some o → ts[i]? = some t → fits t.ten.shape o.ten.shape = true) :
    ∃ us, copyAll os ts = .ok us ∧ us.length = os.length ∧ ∀ (i : Nat) (o t : Par F), os[i]? = some o → ts[i]? = some t →
      ∃ u, us[i]? = some u ∧ u.role = o.role ∧ u.layer = o.layer ∧ u.ten.shape = o.ten.shape ∧ u.ten.place = o.ten.place ∧
        ∀ x, u.ten.val x = ofType t.ten.place.dtype o.ten.place.dtype (t.ten.val (source t.ten.shape x)) := by
  induction os generalizing ts with
  | nil => exact ⟨[], nil_copyAll _, rfl, fun i o t h1 _ => by simp at h1⟩
  | cons o os ih =>
    cases ts with
    | nil => exact ⟨o :: os, rfl, rfl, fun i o t _ h2 => by simp at h2⟩
    | cons t ts =>
      obtain ⟨us, e, hl, hus⟩ := ih ts fun i o' t' h1 h2 => h (i + 1) o' t' (by simpa using h1) (by simpa using h2)
      obtain ⟨u, eu, g1, g2, -, g4⟩ := copy_fits o.ten t.ten (h 0 o t rfl rfl)
      refine ⟨{ o with ten := u } :: us, ?_, by simp [hl], fun i o' t' h1 h2 => ?_⟩
      · simp only [copyAll, Bind.bind, Except.bind, pure, Except.pure, eu, e, Option.getD]
      · cases i with
        | zero =>
          simp only [List.getElem?_cons_zero, Option.some.injEq] at h1 h2
          subst h1 h2
          exact ⟨_, rfl, rfl, rfl, g1, g2, g4⟩
        | succ i => exact hus i o' t' (by simpa using h1) (by simpa using h2)

/-- The build, given that the constructor does not raise. -/
theorem buildRnn_eq (seed : Role → Nat → List Nat → F) (c : Cell) (m : RnnMod F) (k : RnnKw F) (q : Place) (hq : rnnPlace m k = some q)
    (hne : m.flat ≠ []) (a : RnnSizes) (ha : rnnWith c m k = a) (h1 : a.layers ≠ 0) (h2 : a.hidden ≠ 0) (h3 : a.proj < a.hidden)
    (h4 : a.nonlinearity = "tanh" ∨ a.nonlinearity = "relu") :
    buildRnn seed c m k =
      (copyAll ((flatShapes c a).map fun s => ⟨s.1, s.2.1, ⟨s.2.2, seed s.1 s.2.1, q, true⟩⟩) m.flat).map fun us =>
        ⟨a, k.dropout.getD m.dropout, us⟩ := by
  unfold buildRnn
  cases hflat : m.flat with
  | nil => exact absurd hflat hne
  | cons w ws =>
    have hq' : k.place.getD w.ten.place = q := by
      unfold rnnPlace at hq
      rw [hflat] at hq
      cases hk : k.place with
      | none => simpa [hk] using hq
      | some p => simpa [hk] using hq
    simp only []
    rw [rnnSizes_eq, ha, hq', makeRnn_of seed c a _ q h1 h2 h3 h4]
    simp only [Bind.bind, Except.bind, pure, Except.pure]
    cases copyAll _ (w :: ws) <;> rfl

omit [Casts F] in
theorem FormedRnn.ne {c : Cell} {m : RnnMod F} (hm : FormedRnn c m) : m.flat ≠ [] := by
  intro hflat
  have h2 := (mem_flat c m.sizes .weightIh 0 _).2 ⟨Nat.pos_of_ne_zero hm.layers, List.mem_append_left _ (List.mem_append_left _ (List.mem_cons_self))⟩
  rw [← hm.flat, hflat] at h2
  simp at h2

omit [Casts F] in
theorem FormedRnn.get {c : Cell} {m : RnnMod F} (hm : FormedRnn c m) (i : Nat) (r : Role) (l : Nat) (s : List Nat)
    (h : (flatShapes c m.sizes)[i]? = some (r, l, s)) : ∃ w, m.flat[i]? = some w ∧ w.role = r ∧ w.layer = l ∧ w.ten.shape = s := by
  rw [← hm.flat, List.getElem?_map] at h
  cases hw : m.flat[i]? with
  | none => simp [hw] at h
  | some w =>
    simp only [hw, Option.map_some, Option.some.injEq, Prod.mk.injEq] at h
    exact ⟨w, rfl, h⟩

/-- Sizes with other layers. -/
theorem flatShapes_add (c : Cell) (a : RnnSizes) (n d : Nat) :
    flatShapes c { a with layers := n + d } = flatShapes c { a with layers := n } ++
      (List.range d).flatMap fun i => (layerShapes c a (n + i)).map fun s => (s.1, n + i, s.2) := by
  unfold flatShapes
  simp only [List.range_add, List.flatMap_append, List.flatMap_map]
  rfl

end BuildOpt

/-- C114: `num_layers=n` with at most the layers of the original gives its first n layers. -/
theorem C114_rnn_fewer (seed : Role → Nat → List Nat → F) (c : Cell) (m : RnnMod F) (hm : FormedRnn c m) (n : Nat) (hn : n ≠ 0)
    (hle : n ≤ m.sizes.layers) : ∃ r q, buildRnn seed c m { layers := some n } = .ok r ∧ rnnPlace m {} = some q ∧
      r.sizes = { m.sizes with layers := n } ∧ List.Forall₂ (SamePar q) r.flat (m.flat.filter (·.layer < n)) := by
  obtain ⟨w, ws, hflat⟩ := List.exists_cons_of_ne_nil (FormedRnn.ne hm)
  have hq : rnnPlace m ({} : RnnKw F) = some w.ten.place := by simp [rnnPlace, hflat]
  have hb := buildRnn_eq seed c m { layers := some n } w.ten.place hq (FormedRnn.ne hm) { m.sizes with layers := n } (by
    cases c <;> rfl) hn hm.hidden hm.proj hm.nonlinearity
  obtain ⟨d, hd⟩ := Nat.exists_eq_add_of_le hle
  have hfl := hm.flat
  have hsplit := flatShapes_add c m.sizes n d
  rw [← hd] at hsplit
  rw [show ({ m.sizes with layers := m.sizes.layers } : RnnSizes) = m.sizes from rfl] at hsplit
  rw [hsplit] at hfl
  obtain ⟨A, B, hAB, hA, hB⟩ := List.map_eq_append_iff.1 hfl
  have hfilt : m.flat.filter (·.layer < n) = A := by
    rw [hAB, List.filter_append]
    rw [List.filter_eq_self.2, List.filter_eq_nil_iff.2, List.append_nil]
    · intro x hx
      have : (x.role, x.layer, x.ten.shape) ∈ B.map fun w => (w.role, w.layer, w.ten.shape) := List.mem_map_of_mem hx
      rw [hB] at this
      simp only [List.mem_flatMap, List.mem_map, Prod.mk.injEq] at this
      obtain ⟨i, -, s, -, -, h, -⟩ := this
      simp [← h]
    · intro x hx
      have : (x.role, x.layer, x.ten.shape) ∈ A.map fun w => (w.role, w.layer, w.ten.shape) := List.mem_map_of_mem hx
      rw [hA, mem_flat] at this
      exact decide_eq_true this.1
  obtain ⟨us, eu, hu⟩ := copyAll_same w.ten.place
    ((flatShapes c { m.sizes with layers := n }).map fun s => (⟨s.1, s.2.1, ⟨s.2.2, seed s.1 s.2.1, w.ten.place, true⟩⟩ : Par F)) A
    (by intro o ho; obtain ⟨s, -, rfl⟩ := List.mem_map.1 ho; rfl)
    (by rw [hA, List.map_map]
        refine Eq.trans (List.map_congr_left fun x _ => ?_) (List.map_id _)
        rfl)
  refine ⟨⟨{ m.sizes with layers := n }, m.dropout, us⟩, w.ten.place, ?_, hq, rfl, ?_⟩
  · rw [hb, hAB]
    have hl := congrArg List.length hA
    rw [List.length_map] at hl
    have := copyAll_append _ [] A B us (by rw [List.length_map, hl]) eu
    rw [List.append_nil, nil_copyAll] at this
    rw [this]
    simp [Except.map]
  · rw [hfilt]; exact hu

/-- C114, violated: `num_layers=n` with more layers than the original has adds layers of the random numbers they were initialised with. -/
theorem C114_rnn_more (seed : Role → Nat → List Nat → F) (c : Cell) (m : RnnMod F) (hm : FormedRnn c m) (n : Nat)
    (hlt : m.sizes.layers < n) : ∃ r q first rest, buildRnn seed c m { layers := some n } = .ok r ∧ rnnPlace m {} = some q ∧
      r.sizes = { m.sizes with layers := n } ∧ r.flat = first ++ rest ∧ List.Forall₂ (SamePar q) first m.flat ∧ rest ≠ [] ∧
      ∀ w ∈ rest, m.sizes.layers ≤ w.layer ∧ w.ten.val = seed w.role w.layer := by
  obtain ⟨w, ws, hflat⟩ := List.exists_cons_of_ne_nil (FormedRnn.ne hm)
  have hq : rnnPlace m ({} : RnnKw F) = some w.ten.place := by simp [rnnPlace, hflat]
  have hb := buildRnn_eq seed c m { layers := some n } w.ten.place hq (FormedRnn.ne hm) { m.sizes with layers := n } (by
    cases c <;> rfl) (by show n ≠ 0; omega) hm.hidden hm.proj hm.nonlinearity
  obtain ⟨d, hd⟩ := Nat.exists_eq_add_of_le hlt.le
  have hsplit := flatShapes_add c m.sizes m.sizes.layers d
  rw [← hd] at hsplit
  rw [show ({ m.sizes with layers := m.sizes.layers } : RnnSizes) = m.sizes from rfl] at hsplit
  rw [hsplit, List.map_append] at hb
  obtain ⟨us, eu, hu⟩ := copyAll_same w.ten.place
    ((flatShapes c m.sizes).map fun s => (⟨s.1, s.2.1, ⟨s.2.2, seed s.1 s.2.1, w.ten.place, true⟩⟩ : Par F)) m.flat
    (by intro o ho; obtain ⟨s, -, rfl⟩ := List.mem_map.1 ho; rfl)
    (by rw [hm.flat, List.map_map]
        refine Eq.trans (List.map_congr_left fun x _ => ?_) (List.map_id _)
        rfl)
  have hl := congrArg List.length hm.flat
  rw [List.length_map] at hl
  have hc := copyAll_append _ (((List.range d).flatMap fun i => (layerShapes c m.sizes (m.sizes.layers + i)).map fun s =>
    (s.1, m.sizes.layers + i, s.2)).map fun s => (⟨s.1, s.2.1, ⟨s.2.2, seed s.1 s.2.1, w.ten.place, true⟩⟩ : Par F)) m.flat [] us
    (by rw [List.length_map, hl]) eu
  rw [List.append_nil, copyAll_nil] at hc
  rw [hc] at hb
  refine ⟨_, w.ten.place, us, _, hb, hq, rfl, rfl, hu, ?_, ?_⟩
  · have hd0 : 0 < d := by omega
    intro h
    have := congrArg List.length h
    rw [List.length_map, List.length_nil, List.length_flatMap, List.sum_eq_zero_iff] at this
    have := this _ (List.mem_map_of_mem (List.mem_range.2 hd0))
    simp [layerShapes] at this
  · intro x hx
    obtain ⟨s, hs, rfl⟩ := List.mem_map.1 hx
    simp only [List.mem_flatMap, List.mem_map] at hs
    obtain ⟨i, -, t, -, rfl⟩ := hs
    exact ⟨Nat.le_add_right _ _, rfl⟩

namespace BuildOpt

omit [Casts F] in
theorem par_eq {w : Par F} {r : Role} {l : Nat} (h1 : w.role = r) (h2 : w.layer = l) : some w = some ⟨r, l, w.ten⟩ := by
  cases w; cases h1; cases h2; rfl

theorem get_plain (c : Cell) (a : RnnSizes) (hb : a.bias = false) (hp : a.proj = 0) (l : Nat) (hl : l < a.layers) :
    (flatShapes c a)[2 * l]? = some (.weightIh, l, [c.gates * a.hidden, if l = 0 then a.input else a.hidden]) ∧
      (flatShapes c a)[2 * l + 1]? = some (.weightHh, l, [c.gates * a.hidden, a.hidden]) := by
  have hf : ∀ i, ((layerShapes c a i).map fun s => (s.1, i, s.2)).length = 2 := fun i => by simp [layerShapes, hb, hp]
  have h0 := flatMap_get (fun l => (layerShapes c a l).map fun s => (s.1, l, s.2)) 2 a.layers l 0 hf hl (by decide)
  have h1 := flatMap_get (fun l => (layerShapes c a l).map fun s => (s.1, l, s.2)) 2 a.layers l 1 hf hl (by decide)
  refine ⟨Eq.trans h0 ?_, Eq.trans h1 ?_⟩ <;> simp [layerShapes, hb, hp]

theorem get_biased (c : Cell) (a : RnnSizes) (hb : a.bias = true) (hp : a.proj = 0) (l : Nat) (hl : l < a.layers) :
    (flatShapes c a)[4 * l]? = some (.weightIh, l, [c.gates * a.hidden, if l = 0 then a.input else a.hidden]) ∧
      (flatShapes c a)[4 * l + 1]? = some (.weightHh, l, [c.gates * a.hidden, a.hidden]) ∧
      (flatShapes c a)[4 * l + 2]? = some (.biasIh, l, [c.gates * a.hidden]) ∧
      (flatShapes c a)[4 * l + 3]? = some (.biasHh, l, [c.gates * a.hidden]) := by
  have hf : ∀ i, ((layerShapes c a i).map fun s => (s.1, i, s.2)).length = 4 := fun i => by simp [layerShapes, hb, hp]
  have h := fun e he => flatMap_get (fun l => (layerShapes c a l).map fun s => (s.1, l, s.2)) 4 a.layers l e hf hl he
  refine ⟨Eq.trans (h 0 (by decide)) ?_, Eq.trans (h 1 (by decide)) ?_, Eq.trans (h 2 (by decide)) ?_, Eq.trans (h 3 (by decide)) ?_⟩ <;>
    simp [layerShapes, hb, hp]

end BuildOpt

/-- C114, violated: `bias=False` for an `RNN` with biases.  Layer 2j gets the weights of layer j, and each row of the weights of layer
2j+1 is a bias of layer j. -/
theorem C114_rnn_bias_as_weight (seed : Role → Nat → List Nat → F) (m : RnnMod F) (hm : FormedRnn .rnn m) (hb : m.sizes.bias = true) :
    ∃ r q, buildRnn seed .rnn m { bias := some false } = .ok r ∧ rnnPlace m {} = some q ∧ r.flat.length = 2 * m.sizes.layers ∧
      (∀ l < m.sizes.layers, ∃ ih hh, r.flat[2 * l]? = some ⟨.weightIh, l, ih⟩ ∧ r.flat[2 * l + 1]? = some ⟨.weightHh, l, hh⟩ ∧
        ih.place = q ∧ hh.place = q ∧
        (∀ j, l = 2 * j → ∃ ih' hh', m.flat[4 * j]? = some ⟨.weightIh, j, ih'⟩ ∧ m.flat[4 * j + 1]? = some ⟨.weightHh, j, hh'⟩ ∧
          SameTen q ih ih' ∧ SameTen q hh hh') ∧
        ∀ j, l = 2 * j + 1 → ∃ bih bhh, m.flat[4 * j + 2]? = some ⟨.biasIh, j, bih⟩ ∧ m.flat[4 * j + 3]? = some ⟨.biasHh, j, bhh⟩ ∧
          ∀ x y, x < m.sizes.hidden → y < m.sizes.hidden →
            ih.val [x, y] = ofType bih.place.dtype q.dtype (bih.val [y]) ∧ hh.val [x, y] = ofType bhh.place.dtype q.dtype (bhh.val [y])) := by
  obtain ⟨w, ws, hflat⟩ := List.exists_cons_of_ne_nil (FormedRnn.ne hm)
  have hq : rnnPlace m ({} : RnnKw F) = some w.ten.place := by simp [rnnPlace, hflat]
  have hp := hm.noProj (by decide)
  have hbd := buildRnn_eq seed .rnn m { bias := some false } w.ten.place hq (FormedRnn.ne hm) { m.sizes with bias := false } (by
    rfl) hm.layers hm.hidden hm.proj hm.nonlinearity
  clear hflat
  generalize w.ten.place = q at *
  set a : RnnSizes := { m.sizes with bias := false } with ha
  have hlen : (flatShapes .rnn a).length = 2 * m.sizes.layers :=
    flatMap_length _ 2 _ fun i => by simp [layerShapes, ha, hp]
  -- the weight at each place
  have hos : ∀ l < m.sizes.layers, ∀ e < 2, ∃ o : Par F, ((flatShapes .rnn a).map fun s =>
      (⟨s.1, s.2.1, ⟨s.2.2, seed s.1 s.2.1, q, true⟩⟩ : Par F))[2 * l + e]? = some o ∧ o.layer = l ∧ o.ten.place = q ∧
      o.role = (if e = 0 then .weightIh else .weightHh) ∧
      o.ten.shape = [m.sizes.hidden, if e = 0 ∧ l = 0 then m.sizes.input else m.sizes.hidden] := by
    intro l hl e he
    have hg := get_plain .rnn a rfl hp l hl
    rcases (show e = 0 ∨ e = 1 by omega) with rfl | rfl
    · rw [List.getElem?_map, Nat.add_zero, hg.1]
      exact ⟨_, rfl, rfl, rfl, rfl, by simp [Cell.gates, ha]⟩
    · rw [List.getElem?_map, hg.2]
      exact ⟨_, rfl, rfl, rfl, rfl, by simp [Cell.gates, ha]⟩
  have hts : ∀ j < m.sizes.layers, ∀ e < 2, (∃ t : Par F, m.flat[4 * j + e]? = some t ∧ t.layer = j ∧
        t.role = (if e = 0 then .weightIh else .weightHh) ∧
        t.ten.shape = [m.sizes.hidden, if e = 0 ∧ j = 0 then m.sizes.input else m.sizes.hidden]) ∧
      (∃ t : Par F, m.flat[4 * j + 2 + e]? = some t ∧ t.layer = j ∧ t.role = (if e = 0 then .biasIh else .biasHh) ∧
        t.ten.shape = [m.sizes.hidden]) := by
    intro j hj e he
    obtain ⟨h0, h1, h2, h3⟩ := get_biased .rnn m.sizes hb hp j hj
    rcases (show e = 0 ∨ e = 1 by omega) with rfl | rfl
    · obtain ⟨t, g1, g2, g3, g4⟩ := FormedRnn.get hm _ _ _ _ h0
      obtain ⟨t', g1', g2', g3', g4'⟩ := FormedRnn.get hm _ _ _ _ h2
      exact ⟨⟨t, g1, g3, by simpa using g2, by simpa [Cell.gates] using g4⟩, ⟨t', g1', g3', by simpa using g2', by simpa [Cell.gates] using g4'⟩⟩
    · obtain ⟨t, g1, g2, g3, g4⟩ := FormedRnn.get hm _ _ _ _ h1
      obtain ⟨t', g1', g2', g3', g4'⟩ := FormedRnn.get hm _ _ _ _ h3
      exact ⟨⟨t, g1, g3, by simpa using g2, by simpa [Cell.gates] using g4⟩, ⟨t', g1', g3', by simpa using g2', by simpa [Cell.gates] using g4'⟩⟩
  obtain ⟨us, eu, hul, hus⟩ := copyAll_get ((flatShapes .rnn a).map fun s => (⟨s.1, s.2.1, ⟨s.2.2, seed s.1 s.2.1, q, true⟩⟩ : Par F)) m.flat (by
    intro i o t ho ht
    have hi : i < 2 * m.sizes.layers := by
      have := (List.getElem?_eq_some_iff.1 ho).1
      rwa [List.length_map, hlen] at this
    obtain ⟨o', ho', -, -, -, hsh⟩ := hos (i / 2) (by omega) (i % 2) (by omega)
    rw [show 2 * (i / 2) + i % 2 = i by omega, ho] at ho'
    cases ho'
    rcases (show (i / 2) % 2 = 0 ∨ (i / 2) % 2 = 1 by omega) with hpar | hpar
    · obtain ⟨⟨t', ht', -, -, hts'⟩, -⟩ := hts (i / 4) (by omega) (i % 2) (by omega)
      rw [show 4 * (i / 4) + i % 2 = i by omega, ht] at ht'
      cases ht'
      rw [hts', hsh]
      have : (if i % 2 = 0 ∧ i / 4 = 0 then m.sizes.input else m.sizes.hidden) =
          if i % 2 = 0 ∧ i / 2 = 0 then m.sizes.input else m.sizes.hidden := if_congr (by omega) rfl rfl
      rw [this]
      exact fits_self _
    · obtain ⟨-, ⟨t', ht', -, -, hts'⟩⟩ := hts (i / 4) (by omega) (i % 2) (by omega)
      rw [show 4 * (i / 4) + 2 + i % 2 = i by omega, ht] at ht'
      cases ht'
      rw [hts', hsh, if_neg (by omega)]
      simp [fits])
  refine ⟨⟨a, m.dropout, us⟩, q, ?_, hq, ?_, fun l hl => ?_⟩
  · rw [hbd, eu]; rfl
  · show us.length = _
    rw [hul, List.length_map, hlen]
  · obtain ⟨o0, ho0, l0, p0, r0, s0⟩ := hos l hl 0 (by decide)
    obtain ⟨o1, ho1, l1, p1, r1, s1⟩ := hos l hl 1 (by decide)
    have key : ∀ (j : Nat), j < m.sizes.layers → ∀ (e : Nat) (o t : Par F), ((flatShapes .rnn a).map fun s =>
        (⟨s.1, s.2.1, ⟨s.2.2, seed s.1 s.2.1, q, true⟩⟩ : Par F))[2 * l + e]? = some o → m.flat[2 * l + e]? = some t →
        ∃ u, us[2 * l + e]? = some ⟨o.role, o.layer, u⟩ ∧ u.shape = o.ten.shape ∧ u.place = o.ten.place ∧
        ∀ x, u.val x = ofType t.ten.place.dtype o.ten.place.dtype (t.ten.val (source t.ten.shape x)) := by
      intro j _ e o t h1 h2
      obtain ⟨u, g1, g2, g3, g4, g5, g6⟩ := hus _ _ _ h1 h2
      refine ⟨u.ten, ?_, g4, g5, g6⟩
      rw [g1, ← g2, ← g3]
    rcases Nat.even_or_odd' l with ⟨j, hj | hj⟩
    · obtain ⟨⟨t0, ht0, tl0, tr0, ts0⟩, -⟩ := hts j (by omega) 0 (by decide)
      obtain ⟨⟨t1, ht1, tl1, tr1, ts1⟩, -⟩ := hts j (by omega) 1 (by decide)
      obtain ⟨u0, hu0, us0, up0, uv0⟩ := key j (by omega) 0 o0 t0 ho0 (by rw [hj, ← ht0]; congr 1; omega)
      obtain ⟨u1, hu1, us1, up1, uv1⟩ := key j (by omega) 1 o1 t1 ho1 (by rw [hj, ← ht1]; congr 1; omega)
      refine ⟨u0, u1, ?_, ?_, up0.trans p0, up1.trans p1, fun j' hj' => ?_, fun j' hj' => by omega⟩
      · rw [r0, l0] at hu0; exact hu0
      · rw [r1, l1] at hu1; exact hu1
      · obtain rfl : j' = j := by omega
        refine ⟨t0.ten, t1.ten, ?_, ?_, ⟨?_, up0.trans p0, fun i hi => ?_⟩, ⟨?_, up1.trans p1, fun i hi => ?_⟩⟩
        · rw [← Nat.add_zero (4 * j'), ht0]; exact par_eq tr0 tl0
        · rw [ht1]; exact par_eq tr1 tl1
        · have : (if 0 = 0 ∧ l = 0 then m.sizes.input else m.sizes.hidden) = if 0 = 0 ∧ j' = 0 then m.sizes.input else m.sizes.hidden :=
            if_congr (by omega) rfl rfl
          rw [us0, s0, ts0, this]
        · rw [uv0, source_self _ _ hi, p0]
        · rw [us1, s1, ts1, if_neg (by omega), if_neg (by omega)]
        · rw [uv1, source_self _ _ hi, p1]
    · obtain ⟨-, ⟨t0, ht0, tl0, tr0, ts0⟩⟩ := hts j (by omega) 0 (by decide)
      obtain ⟨-, ⟨t1, ht1, tl1, tr1, ts1⟩⟩ := hts j (by omega) 1 (by decide)
      obtain ⟨u0, hu0, us0, up0, uv0⟩ := key j (by omega) 0 o0 t0 ho0 (by rw [hj, ← ht0]; congr 1; omega)
      obtain ⟨u1, hu1, us1, up1, uv1⟩ := key j (by omega) 1 o1 t1 ho1 (by rw [hj, ← ht1]; congr 1; omega)
      refine ⟨u0, u1, ?_, ?_, up0.trans p0, up1.trans p1, fun j' hj' => by omega, fun j' hj' => ?_⟩
      · rw [r0, l0] at hu0; exact hu0
      · rw [r1, l1] at hu1; exact hu1
      · obtain rfl : j' = j := by omega
        refine ⟨t0.ten, t1.ten, ?_, ?_, fun x y hx hy => ?_⟩
        · rw [← Nat.add_zero (4 * j' + 2), ht0]; exact par_eq tr0 tl0
        · rw [show 4 * j' + 3 = 4 * j' + 2 + 1 by omega, ht1]; exact par_eq tr1 tl1
        · have hsrc : source [m.sizes.hidden] [x, y] = [y] := by
            simp only [source, List.length_cons, List.length_nil, List.drop_succ_cons, List.drop_zero, List.zipWith_cons_cons,
              List.zipWith_nil_left, List.cons.injEq, and_true, Nat.reduceAdd, Nat.reduceSub]
            split <;> omega
          rw [uv0, uv1, ts0, ts1, hsrc, p0, p1]
          exact ⟨rfl, rfl⟩


namespace BuildOpt

omit [Casts F] in
/-- The first weights of a module, one by one. -/
theorem FormedRnn.third {c : Cell} {m : RnnMod F} (hm : FormedRnn c m) (x y z : Role × Nat × List Nat) (rest : List (Role × Nat × List Nat))
    (h : flatShapes c m.sizes = x :: y :: z :: rest) : ∃ w1 w2 w3 ws, m.flat = w1 :: w2 :: w3 :: ws ∧ w1.ten.shape = x.2.2 ∧
      w2.ten.shape = y.2.2 ∧ w3.ten.shape = z.2.2 := by
  have hf := hm.flat
  rw [h] at hf
  obtain ⟨w1, l1, e1, h1, hf⟩ := List.map_eq_cons_iff.1 hf
  obtain ⟨w2, l2, e2, h2, hf⟩ := List.map_eq_cons_iff.1 hf
  obtain ⟨w3, l3, e3, h3, -⟩ := List.map_eq_cons_iff.1 hf
  subst e2 e3
  exact ⟨w1, w2, w3, _, e1, by rw [← h1], by rw [← h2], by rw [← h3]⟩

/-- `RuntimeError` if the third weight does not fit. -/
theorem third_stuck (seed : Role → Nat → List Nat → F) {c : Cell} {m : RnnMod F} (hm : FormedRnn c m) (b : Bool) (s1 s2 s3 t3 : List Nat)
    (r3 r3' : Role) (l3 l3' : Nat) (rest rest' : List (Role × Nat × List Nat))
    (h : flatShapes c m.sizes = (.weightIh, 0, s1) :: (.weightHh, 0, s2) :: (r3, l3, s3) :: rest)
    (h' : flatShapes c { m.sizes with bias := b } = (.weightIh, 0, s1) :: (.weightHh, 0, s2) :: (r3', l3', t3) :: rest')
    (hf : fits s3 t3 = false) : buildRnn seed c m { bias := some b } = .error .runtime := by
  obtain ⟨w1, w2, w3, ws, hflat, g1, g2, g3⟩ := FormedRnn.third hm _ _ _ _ h
  have hq : rnnPlace m ({} : RnnKw F) = some w1.ten.place := by simp [rnnPlace, hflat]
  rw [buildRnn_eq seed c m { bias := some b } w1.ten.place hq (FormedRnn.ne hm) { m.sizes with bias := b } (by cases c <;> rfl) hm.layers hm.hidden
    hm.proj hm.nonlinearity, h', hflat]
  have hs := copyAll_stuck
    [(⟨.weightIh, 0, ⟨s1, seed .weightIh 0, w1.ten.place, true⟩⟩ : Par F), ⟨.weightHh, 0, ⟨s2, seed .weightHh 0, w1.ten.place, true⟩⟩]
    (rest'.map fun s => (⟨s.1, s.2.1, ⟨s.2.2, seed s.1 s.2.1, w1.ten.place, true⟩⟩ : Par F)) [w1, w2] ws
    ⟨r3', l3', ⟨t3, seed r3' l3', w1.ten.place, true⟩⟩ w3 rfl
    (by
      obtain ⟨us, e, -⟩ := copyAll_get
        [(⟨.weightIh, 0, ⟨s1, seed .weightIh 0, w1.ten.place, true⟩⟩ : Par F), ⟨.weightHh, 0, ⟨s2, seed .weightHh 0, w1.ten.place, true⟩⟩] [w1, w2]
        (by
          intro i o t ho ht
          match i with
          | 0 => cases ho; cases ht; rw [g1]; exact fits_self _
          | 1 => cases ho; cases ht; rw [g2]; exact fits_self _
          | i + 2 => simp at ho)
      exact ⟨us, e⟩)
    (by rw [g3]; exact hf)
  exact congrArg (Except.map _) hs

end BuildOpt

/-- C114: `bias=False` for a `GRU` or `LSTM` with biases raises if there are several layers or a projection. -/
theorem C114_rnn_bias_raises (seed : Role → Nat → List Nat → F) (c : Cell) (m : RnnMod F) (hm : FormedRnn c m) (hb : m.sizes.bias = true)
    (hc : c ≠ .rnn) (hl : 2 ≤ m.sizes.layers ∨ m.sizes.proj ≠ 0) : buildRnn seed c m { bias := some false } = .error .runtime := by
  obtain ⟨L, hL⟩ := Nat.exists_eq_succ_of_ne_zero hm.layers
  have hh := hm.hidden
  have hg : 3 ≤ c.gates := by cases c <;> first | exact absurd rfl hc | decide
  have hbig : 3 * m.sizes.hidden ≤ c.gates * m.sizes.hidden := Nat.mul_le_mul_right _ hg
  by_cases hp : m.sizes.proj = 0
  · obtain ⟨L', rfl⟩ := Nat.exists_eq_succ_of_ne_zero (show L ≠ 0 by omega)
    refine third_stuck seed hm false _ _ [c.gates * m.sizes.hidden] [c.gates * m.sizes.hidden, m.sizes.hidden] _ _ _ _ _ _
      (by simp only [flatShapes, hL, List.range_succ_eq_map, List.map_cons, List.flatMap_cons, layerShapes, hb, cond_true, hp, if_true,
            List.map_append, List.map_nil, List.cons_append, List.nil_append]; rfl)
      (by simp only [flatShapes, hL, List.range_succ_eq_map, List.map_cons, List.flatMap_cons, layerShapes, cond_false, hp, if_true,
            List.map_append, List.map_nil, List.cons_append, List.nil_append]; rfl) ?_
    simp [fits]
    omega
  · refine third_stuck seed hm false _ _ [c.gates * m.sizes.hidden] [m.sizes.proj, m.sizes.hidden] _ _ _ _ _ _
      (by simp only [flatShapes, hL, List.range_succ_eq_map, List.map_cons, List.flatMap_cons, layerShapes, hb, cond_true, hp, if_false, if_true,
            List.map_append, List.map_nil, List.cons_append, List.nil_append]; rfl)
      (by simp only [flatShapes, hL, List.range_succ_eq_map, List.map_cons, List.flatMap_cons, layerShapes, cond_false, hp, if_false, if_true,
            List.map_append, List.map_nil, List.cons_append, List.nil_append]; rfl) ?_
    simp [fits]
    omega

/-- C114: `bias=True` for a recurrent module without biases raises if there are several layers or a projection. -/
theorem C114_rnn_more_bias_raises (seed : Role → Nat → List Nat → F) (c : Cell) (m : RnnMod F) (hm : FormedRnn c m)
    (hb : m.sizes.bias = false) (hl : 2 ≤ m.sizes.layers ∨ m.sizes.proj ≠ 0) :
    buildRnn seed c m { bias := some true } = .error .runtime := by
  obtain ⟨L, hL⟩ := Nat.exists_eq_succ_of_ne_zero hm.layers
  by_cases hp : m.sizes.proj = 0
  · obtain ⟨L', rfl⟩ := Nat.exists_eq_succ_of_ne_zero (show L ≠ 0 by omega)
    refine third_stuck seed hm true _ _ [c.gates * m.sizes.hidden, m.sizes.hidden] [c.gates * m.sizes.hidden] _ _ _ _ _ _
      (by simp only [flatShapes, hL, List.range_succ_eq_map, List.map_cons, List.flatMap_cons, layerShapes, hb, cond_false, hp, if_true,
            List.map_append, List.map_nil, List.cons_append, List.nil_append]; rfl)
      (by simp only [flatShapes, hL, List.range_succ_eq_map, List.map_cons, List.flatMap_cons, layerShapes, cond_true, hp, if_true,
            List.map_append, List.map_nil, List.cons_append, List.nil_append]; rfl) ?_
    simp [fits]
  · refine third_stuck seed hm true _ _ [m.sizes.proj, m.sizes.hidden] [c.gates * m.sizes.hidden] _ _ _ _ _ _
      (by simp only [flatShapes, hL, List.range_succ_eq_map, List.map_cons, List.flatMap_cons, layerShapes, hb, cond_false, hp, if_false, if_true,
            List.map_append, List.map_nil, List.cons_append, List.nil_append]; rfl)
      (by simp only [flatShapes, hL, List.range_succ_eq_map, List.map_cons, List.flatMap_cons, layerShapes, cond_true, hp, if_false, if_true,
            List.map_append, List.map_nil, List.cons_append, List.nil_append]; rfl) ?_
    simp [fits]

/-! ### Examples -/

/-- An `RNN` of two layers with biases: one input, two hidden units. -/
def exTorchRnn : RnnMod Int where
  sizes := ⟨1, 2, 2, true, 0, "tanh"⟩
  dropout := 0
  flat := [⟨.weightIh, 0, ⟨[2, 1], fun i => i.sum, Place.default, true⟩⟩, ⟨.weightHh, 0, ⟨[2, 2], fun i => i.sum, Place.default, true⟩⟩,
    ⟨.biasIh, 0, ⟨[2], fun i => 10 + i.sum, Place.default, true⟩⟩, ⟨.biasHh, 0, ⟨[2], fun i => 20 + i.sum, Place.default, true⟩⟩,
    ⟨.weightIh, 1, ⟨[2, 2], fun i => i.sum, Place.default, true⟩⟩, ⟨.weightHh, 1, ⟨[2, 2], fun i => i.sum, Place.default, true⟩⟩,
    ⟨.biasIh, 1, ⟨[2], fun i => 30 + i.sum, Place.default, true⟩⟩, ⟨.biasHh, 1, ⟨[2], fun i => 40 + i.sum, Place.default, true⟩⟩]

theorem exTorchRnn_formed : FormedRnn .rnn exTorchRnn :=
  ⟨by decide, by decide, by decide, fun _ => rfl, .inl rfl, rfl⟩

/-- An `LSTM` with a projection and without biases. -/
def exTorchLstm : RnnMod Int where
  sizes := ⟨1, 2, 1, false, 1, "tanh"⟩
  dropout := 0
  flat := [⟨.weightIh, 0, ⟨[8, 1], fun i => i.sum, Place.default, true⟩⟩, ⟨.weightHh, 0, ⟨[8, 1], fun i => i.sum, Place.default, true⟩⟩,
    ⟨.weightHr, 0, ⟨[1, 2], fun i => i.sum, Place.default, true⟩⟩]

example : FormedRnn .lstm exTorchLstm := ⟨by decide, by decide, by decide, fun h => absurd rfl h, .inl rfl, rfl⟩

/-- A `GRU` of two layers. -/
def exTorchGru : RnnMod Int where
  sizes := ⟨1, 1, 2, true, 0, "tanh"⟩
  dropout := 0
  flat := [⟨.weightIh, 0, ⟨[3, 1], fun i => i.sum, Place.default, true⟩⟩, ⟨.weightHh, 0, ⟨[3, 1], fun i => i.sum, Place.default, true⟩⟩,
    ⟨.biasIh, 0, ⟨[3], fun i => i.sum, Place.default, true⟩⟩, ⟨.biasHh, 0, ⟨[3], fun i => i.sum, Place.default, true⟩⟩,
    ⟨.weightIh, 1, ⟨[3, 1], fun i => i.sum, Place.default, true⟩⟩, ⟨.weightHh, 1, ⟨[3, 1], fun i => i.sum, Place.default, true⟩⟩,
    ⟨.biasIh, 1, ⟨[3], fun i => i.sum, Place.default, true⟩⟩, ⟨.biasHh, 1, ⟨[3], fun i => i.sum, Place.default, true⟩⟩]

example : FormedRnn .gru exTorchGru ∧ exTorchGru.sizes.bias = true ∧ 2 ≤ exTorchGru.sizes.layers :=
  ⟨⟨by decide, by decide, by decide, fun _ => rfl, .inl rfl, rfl⟩, rfl, le_refl _⟩

/-- Another nonlinearity, dropout and type keep the weights. -/
example : let k : RnnKw Int := { nonlinearity := some "relu", dropout := some 1, place := some ⟨.double, .cpu⟩ }
    (rnnWith .rnn exTorchRnn k).input = exTorchRnn.sizes.input ∧ (rnnWith .rnn exTorchRnn k).hidden = exTorchRnn.sizes.hidden ∧
      (rnnWith .rnn exTorchRnn k).layers = exTorchRnn.sizes.layers ∧ (rnnWith .rnn exTorchRnn k).bias = exTorchRnn.sizes.bias ∧
      (rnnWith .rnn exTorchRnn k).proj = exTorchRnn.sizes.proj ∧ (rnnWith .rnn exTorchRnn k).nonlinearity = "relu" :=
  ⟨rfl, rfl, rfl, rfl, rfl, rfl⟩

/-- C114: if `build_from` returns, the weights need not be those of the same name of the original. -/
theorem C114_names_refuted : ¬ ∀ (F : Type) (_ : Casts F) (seed : Role → Nat → List Nat → F) (c : Cell) (m r : RnnMod F) (k : RnnKw F),
    FormedRnn c m → buildRnn seed c m k = .ok r → ∀ w ∈ r.flat, ∃ v ∈ m.flat, v.role = w.role ∧ v.layer = w.layer ∧
      ∀ i, List.Forall₂ (· < ·) i w.ten.shape → w.ten.val i = v.ten.val i := by
  intro h
  letI := exCasts
  obtain ⟨r, q, e, -, -, hr⟩ := C114_rnn_bias_as_weight (fun _ _ _ => (0 : Int)) exTorchRnn exTorchRnn_formed rfl
  obtain ⟨ih, hh, h1, -, -, -, -, h2⟩ := hr 1 (by decide)
  obtain ⟨bih, bhh, g1, -, g3⟩ := h2 0 rfl
  have hbih : bih = ⟨[2], fun i => 10 + i.sum, Place.default, true⟩ := by
    have : exTorchRnn.flat[4 * 0 + 2]? = some ⟨.biasIh, 0, ⟨[2], fun i => 10 + i.sum, Place.default, true⟩⟩ := rfl
    rw [this] at g1
    cases g1
    rfl
  have hv := (g3 0 0 (by decide) (by decide)).1
  rw [hbih] at hv
  have hv : ih.val [0, 0] = 10 := by rw [hv]; unfold ofType; split <;> rfl
  obtain ⟨v, hv1, hv2, hv3, hv4⟩ := h Int exCasts _ .rnn exTorchRnn r _ exTorchRnn_formed e _ (List.mem_of_getElem? h1)
  have hshape : ih.shape = [2, 2] := by
    have := e
    have hn := copyAll_names _ _ _ (show copyAll _ exTorchRnn.flat = .ok r.flat by
      have := this
      rw [buildRnn_eq (fun _ _ _ => (0 : Int)) .rnn exTorchRnn { bias := some false } Place.default rfl (by decide +revert) _ rfl (by decide) (by decide)
        (by decide) (.inl rfl)] at this
      cases hc : copyAll (F := Int) _ exTorchRnn.flat with
      | error e => rw [hc] at this; cases this
      | ok us => rw [hc] at this; cases this; rfl)
    have h3 := congrArg (fun l : List (Role × Nat × List Nat × Place) => (l[2]?).map (·.2.2.1)) hn
    simp only [List.getElem?_map] at h3
    rw [h1] at h3
    exact Option.some.inj h3
  have hz : ih.val [0, 0] = v.ten.val [0, 0] := hv4 [0, 0] (by
    show List.Forall₂ (· < ·) [0, 0] ih.shape
    rw [hshape]
    exact .cons (by decide) (.cons (by decide) .nil))
  have hv2 : v.role = .weightIh := hv2
  have hv3 : v.layer = 1 := hv3
  have hval : v.ten.val [0, 0] = 0 := by
    simp only [exTorchRnn, List.mem_cons, List.not_mem_nil, or_false] at hv1
    rcases hv1 with rfl | rfl | rfl | rfl | rfl | rfl | rfl | rfl <;> first | rfl | (cases hv2) | (cases hv3)
  rw [hz, hval] at hv
  exact absurd hv (by decide)

/-- C114: the constructors of the recurrent modules take options they do not have without a word: with `bidirectional=True` the same module
of one direction is built. -/
theorem C114_unknown_refuted : ¬ ∀ (F : Type) (_ : Casts F) (seed : Role → Nat → List Nat → F) (c : Cell) (m : RnnMod F) (k : RnnKw F),
    FormedRnn c m → k.unknown ≠ [] → ∃ e, buildRnn seed c m k = .error e := by
  intro h
  letI := exCasts
  obtain ⟨e, he⟩ := h Int exCasts (fun _ _ _ => 0) .rnn exTorchRnn { unknown := ["bidirectional"] } exTorchRnn_formed (by decide)
  obtain ⟨r, q, hr, -⟩ := (C114_rnn_exact (fun _ _ _ => (0 : Int)) .rnn exTorchRnn exTorchRnn_formed { unknown := ["bidirectional"] }).2
    ⟨rfl, rfl, rfl, rfl, rfl, .inl rfl⟩
  rw [hr] at he
  cases he

end CoInf
