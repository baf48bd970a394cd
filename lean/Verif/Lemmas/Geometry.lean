import Verif.Spec.Geometry
import Verif.Lemmas.Leaves
import Verif.Lemmas.Broadcast
import Mathlib.Tactic.Ring
import Mathlib.Tactic.Linarith

namespace CoInf
open Spec
variable {X Y Z : Type}

/-! ### Composition -/

theorem sched_comp {φ : List X → List Y} {ψ : List Y → List Z} {d1 s1 d2 s2 : Nat} (h1 : 1 ≤ s1)
    (H1 : Sched φ d1 s1) (H2 : Sched ψ d2 s2) : Sched (ψ ∘ φ) (d1 + s1 * d2) (s1 * s2) := by
  intro xs
  have e1 := H1 xs
  have e2 := H2 (φ xs)
  simp only [Function.comp]
  rw [e2]
  by_cases hn : xs.length ≤ d1
  · rw [if_pos hn] at e1
    rw [if_pos (by omega), if_pos (by omega)]
  · rw [if_neg hn] at e1
    rw [e1]
    have key : (xs.length - 1 - d1) / s1 + 1 ≤ d2 ↔ xs.length ≤ d1 + s1 * d2 := by
      rw [Nat.succ_le_iff, Nat.div_lt_iff_lt_mul (by omega), Nat.mul_comm d2]
      omega
    by_cases hc : xs.length ≤ d1 + s1 * d2
    · rw [if_pos (key.2 hc), if_pos hc]
    · rw [if_neg (fun h => hc (key.1 h)), if_neg hc]
      have : (xs.length - 1 - d1) / s1 + 1 - 1 - d2 = (xs.length - 1 - (d1 + s1 * d2)) / s1 := by
        rw [Nat.add_sub_cancel, show xs.length - 1 - (d1 + s1 * d2) = xs.length - 1 - d1 - s1 * d2 by omega,
          Nat.sub_mul_div]
      rw [this, Nat.div_div_eq_div_mul]

theorem sched_lt {φ : List X → List Y} {d s : Nat} (hs : 1 ≤ s) (H : Sched φ d s) (xs : List X) (j : Nat) :
    j < (φ xs).length ↔ d + s * j < xs.length := by
  rw [H xs]
  split
  · constructor
    · intro h; omega
    · intro h
      have : 0 ≤ s * j := Nat.zero_le _
      omega
  · rw [Nat.lt_succ_iff, Nat.le_div_iff_mul_le (by omega), Nat.mul_comm j]
    omega

theorem hasGeo_comp {φ : List X → List Y} {ψ : List Y → List Z} {k1 s1 p1 k2 s2 p2 : Nat}
    (H1 : HasGeo φ k1 s1 p1) (H2 : HasGeo ψ k2 s2 p2) :
    HasGeo (ψ ∘ φ) (s1 * k2 + k1 - s1) (s1 * s2) (p1 + p2 * s1) := by
  obtain ⟨hs1, hp1, sc1, lo1, in1⟩ := H1
  obtain ⟨hs2, hp2, sc2, lo2, in2⟩ := H2
  obtain ⟨e2, rfl⟩ : ∃ e2, k2 = p2 + 1 + e2 := ⟨k2 - p2 - 1, by omega⟩
  obtain ⟨e1, rfl⟩ : ∃ e1, k1 = p1 + 1 + e1 := ⟨k1 - p1 - 1, by omega⟩
  have hrf : s1 * (p2 + 1 + e2) + (p1 + 1 + e1) - s1 = s1 * p2 + s1 * e2 + (p1 + 1 + e1) := by
    rw [Nat.mul_add, Nat.mul_add, Nat.mul_one]; omega
  have hcomm : p2 * s1 = s1 * p2 := Nat.mul_comm _ _
  rw [hrf]
  have hsc := sched_comp hs1 sc1 sc2
  have d1 : p1 + 1 + e1 - 1 - p1 = e1 := by omega
  have d2 : p2 + 1 + e2 - 1 - p2 = e2 := by omega
  rw [d1] at sc1
  rw [d2] at sc2
  rw [d1, d2] at hsc
  refine ⟨Nat.mul_pos hs1 hs2, by omega, ?_, ?_, ?_⟩
  · have : s1 * p2 + s1 * e2 + (p1 + 1 + e1) - 1 - (p1 + p2 * s1) = e1 + s1 * e2 := by omega
    rw [this]; exact hsc
  · intro xs xs' j hj hj' hag
    apply lo2 (φ xs) (φ xs') j hj hj'
    intro m hm1 hm2
    have b := (sched_lt hs2 sc2 _ _).1 hj
    have b' := (sched_lt hs2 sc2 _ _).1 hj'
    have hcj : s2 * j = j * s2 := Nat.mul_comm _ _
    apply lo1 xs xs' m (by omega) (by omega)
    intro i hi1 hi2
    have a1 : (j * s2) * s1 ≤ (m + p2) * s1 := Nat.mul_le_mul_right _ hm1
    have a2 : (m + p2 + 1) * s1 ≤ (j * s2 + (p2 + 1 + e2)) * s1 := Nat.mul_le_mul_right _ (by omega)
    have e3 : j * (s1 * s2) = (j * s2) * s1 := by ring
    apply hag i
    · rw [e3]
      have : (m + p2) * s1 = m * s1 + p2 * s1 := by ring
      omega
    · rw [e3]
      have x1 : (m + p2 + 1) * s1 = m * s1 + p2 * s1 + s1 := by ring
      have x2 : (j * s2 + (p2 + 1 + e2)) * s1 = j * s2 * s1 + p2 * s1 + s1 + s1 * e2 := by ring
      omega
  · intro xs xs' j j' hj hj' hP hP' hag
    have e3 : j * (s1 * s2) = (j * s2) * s1 := by ring
    have e3' : j' * (s1 * s2) = (j' * s2) * s1 := by ring
    rw [e3] at hP hag
    rw [e3'] at hP' hag
    have q : p2 ≤ j * s2 := by
      by_contra hlt
      have : j * s2 * s1 + s1 ≤ p2 * s1 := by
        have := Nat.mul_le_mul_right s1 (show j * s2 + 1 ≤ p2 by omega)
        rw [Nat.add_mul, Nat.one_mul] at this
        exact this
      omega
    have q' : p2 ≤ j' * s2 := by
      by_contra hlt
      have : j' * s2 * s1 + s1 ≤ p2 * s1 := by
        have := Nat.mul_le_mul_right s1 (show j' * s2 + 1 ≤ p2 by omega)
        rw [Nat.add_mul, Nat.one_mul] at this
        exact this
      omega
    apply in2 (φ xs) (φ xs') j j' hj hj' q q'
    intro k hk
    have b := (sched_lt hs2 sc2 _ _).1 hj
    have b' := (sched_lt hs2 sc2 _ _).1 hj'
    have hcj : s2 * j = j * s2 := Nat.mul_comm _ _
    have hcj' : s2 * j' = j' * s2 := Nat.mul_comm _ _
    have r1 : (j * s2 - p2 + k) * s1 = j * s2 * s1 - p2 * s1 + k * s1 := by
      rw [Nat.add_mul, Nat.sub_mul]
    have r2 : (j' * s2 - p2 + k) * s1 = j' * s2 * s1 - p2 * s1 + k * s1 := by
      rw [Nat.add_mul, Nat.sub_mul]
    apply in1 xs xs' (j * s2 - p2 + k) (j' * s2 - p2 + k) (by omega) (by omega) (by omega) (by omega)
    intro l hl
    have hk2 : k * s1 ≤ (p2 + e2) * s1 := Nat.mul_le_mul_right _ (by omega)
    have x3 : (p2 + e2) * s1 = s1 * p2 + s1 * e2 := by ring
    have := hag (k * s1 + l) (by omega)
    rw [r1, r2]
    have i1 : j * s2 * s1 - p2 * s1 + k * s1 - p1 + l = j * s2 * s1 - (p1 + p2 * s1) + (k * s1 + l) := by
      omega
    have i2 : j' * s2 * s1 - p2 * s1 + k * s1 - p1 + l = j' * s2 * s1 - (p1 + p2 * s1) + (k * s1 + l) := by
      omega
    rw [i1, i2]; exact this

/-- A larger window with the same right end is fine, too. -/
theorem Spec.HasGeo.mono {φ : List X → List Y} {rf S P e : Nat} (H : HasGeo φ rf S P) :
    HasGeo φ (rf + e) S (P + e) where
  hS := H.hS
  hP := by have := H.hP; omega
  sched := by
    have := H.hP
    rw [show rf + e - 1 - (P + e) = rf - 1 - P by omega]; exact H.sched
  loc := fun xs xs' j hj hj' h => H.loc xs xs' j hj hj' fun i h1 h2 => h i (by omega) (by omega)
  inv := fun xs xs' j j' hj hj' hP hP' h =>
    H.inv xs xs' j j' hj hj' (by omega) (by omega) fun k hk => by
      have := h (e + k) (by omega)
      rw [show j * S - (P + e) + (e + k) = j * S - P + k by omega,
        show j' * S - (P + e) + (e + k) = j' * S - P + k by omega] at this
      exact this

/-! ### Leaves -/

theorem hasGeo_map (f : X → Y) : HasGeo (List.map f) 1 1 0 where
  hS := Nat.le_refl _
  hP := Nat.le_refl _
  sched := Pointwise.sched f
  loc := by
    intro xs xs' j hj hj' h
    have := h j (by omega) (by omega)
    simp [this]
  inv := by
    intro xs xs' j j' hj hj' _ _ h
    have := h 0 (by omega)
    simp at this
    simp [this]

theorem hasGeo_delayed (d : Nat) : HasGeo (delayed (X := X) d 0) (d + 1) 1 0 where
  hS := Nat.le_refl _
  hP := by omega
  sched := by
    intro xs
    simp only [delayed, List.length_drop, List.length_take]
    split <;> omega
  loc := by
    intro xs xs' j hj hj' h
    have := h j (by omega) (by omega)
    simp only [delayed, List.drop_zero, List.length_take] at *
    rw [List.getElem?_take_of_lt (by omega), List.getElem?_take_of_lt (by omega), this]
  inv := by
    intro xs xs' j j' hj hj' _ _ h
    have := h 0 (by omega)
    simp only [delayed, List.drop_zero, List.length_take, Nat.mul_one, Nat.sub_zero, Nat.add_zero] at *
    rw [List.getElem?_take_of_lt (by omega), List.getElem?_take_of_lt (by omega), this]

theorem padStart_get (P : Nat) (fill : X → X) (xs : List X) (i : Nat) :
    (padStart P fill xs)[i]? = if i < P then xs.head?.map fill else xs[i - P]? := by
  cases xs with
  | nil => simp [padStart]
  | cons x xs =>
    simp only [padStart]
    split
    · rename_i h
      rw [List.getElem?_append_left (by simpa using h)]
      simp [h]
    · rename_i h
      rw [List.getElem?_append_right (by simp; omega)]
      simp

theorem slide_get (K S : Nat) (f : List X → Y) (zs : List X) {j : Nat}
    (hj : j < (slide K S f zs).length) :
    (slide K S f zs)[j]? = some (f ((zs.drop (j * S)).take K)) := by
  rw [slide_length] at hj
  simp [slide, hj]

theorem window_ext {K a b : Nat} {zs zs' : List X}
    (h : ∀ k, k < K → zs[a + k]? = zs'[b + k]?) : (zs.drop a).take K = (zs'.drop b).take K := by
  apply List.ext_getElem?
  intro k
  by_cases hk : k < K
  · rw [List.getElem?_take_of_lt hk, List.getElem?_take_of_lt hk, List.getElem?_drop,
      List.getElem?_drop, h k hk]
  · simp [List.getElem?_take_eq_none (show K ≤ k by omega)]

theorem hasGeo_window {K S P : Nat} (hS : 1 ≤ S) (hP : P + 1 ≤ K) (fill : X → X) (f : List X → Y) :
    HasGeo (streamOut K S P fill f) K S P where
  hS := hS
  hP := hP
  sched := sched_window hP fill f
  loc := by
    intro xs xs' j hj hj' h
    simp only [streamOut] at *
    rw [slide_get K S f _ hj, slide_get K S f _ hj']
    congr 2
    apply window_ext
    intro k hk
    rw [padStart_get, padStart_get]
    by_cases hlt : j * S + k < P
    · rw [if_pos hlt, if_pos hlt]
      have := h 0 (by omega) (by omega)
      rw [List.head?_eq_getElem?, List.head?_eq_getElem?, this]
    · rw [if_neg hlt, if_neg hlt]
      exact h _ (by omega) (by omega)
  inv := by
    intro xs xs' j j' hj hj' hP1 hP2 h
    simp only [streamOut] at *
    rw [slide_get K S f _ hj, slide_get K S f _ hj']
    congr 2
    apply window_ext
    intro k hk
    rw [padStart_get, padStart_get, if_neg (by omega), if_neg (by omega)]
    have := h k hk
    rw [show j * S + k - P = j * S - P + k by omega, show j' * S + k - P = j' * S - P + k by omega]
    exact this

theorem Pointwise.geom (f : X → Y) : Geom (Pointwise.mod f) (List.map f) := ⟨hasGeo_map f, rfl⟩
theorem Lambda.geom (c : Lambda.Cfg X Y) (f : X → Y) : Geom (Lambda.mod c) (List.map f) :=
  ⟨hasGeo_map f, rfl⟩
theorem Delay.geom (c : Delay.Cfg X) (hs : c.shrink = .off) :
    Geom (Delay.mod c) (delayed c.d (Delay.lead c)) := by
  have hl : Delay.lead c = 0 := by simp [Delay.lead, hs]
  rw [hl]
  exact ⟨hasGeo_delayed c.d, by simp⟩
theorem Conv.geom [Zero X] [AddCommMonoid Y] (c : Conv.Cfg X Y) (hc : Conv.Ok c) :
    Geom (Conv.mod c) (Conv.phi c) := ⟨hasGeo_window hc.hS hc.hP _ _, rfl⟩
theorem Pool.geom (c : Pool.Cfg X Y) (hc : Pool.Ok c) : Geom (Pool.mod c) (Pool.phi c) := by
  have e : c.dil * c.K = c.K := by rw [hc.hd]; simp
  refine ⟨?_, rfl⟩
  show HasGeo _ (c.dil * c.K) c.S c.P
  rw [e]
  exact hasGeo_window hc.hS hc.hP _ _

/-! ### Containers -/

namespace Chain

theorem strideOf_cons (g : Geo) (gs : List Geo) : strideOf (g :: gs) = g.stride * strideOf gs := by
  have : ∀ (gs : List Geo) a, gs.foldl (fun tot m => tot * m.stride) a =
      a * gs.foldl (fun tot (m : Geo) => tot * m.stride) 1 := by
    intro gs
    induction gs with
    | nil => intro a; simp
    | cons g gs ih =>
      intro a
      rw [List.foldl_cons, List.foldl_cons, ih, ih (1 * g.stride)]
      ring
  unfold strideOf
  rw [List.foldl_cons, this]; simp

theorem rfOf_cons (g : Geo) {gs : List Geo} (h : gs ≠ []) :
    rfOf (g :: gs) = g.stride * rfOf gs + g.rf - g.stride := by
  unfold rfOf
  rw [List.reverse_cons]
  cases hr : gs.reverse with
  | nil => exact absurd (List.reverse_eq_nil_iff.1 hr) h
  | cons a l => simp [List.foldl_append]

theorem paddingOf_cons (g : Geo) {gs : List Geo} (h : gs ≠ []) :
    paddingOf (g :: gs) = g.padding + paddingOf gs * g.stride := by
  have aux : ∀ (gs : List Geo) (a s : Nat),
      (gs.foldl (fun (a : Nat × Nat) m => (a.1 + m.padding * a.2, a.2 * m.stride)) (a, s)).1 =
      a + s * (gs.foldl (fun (a : Nat × Nat) m => (a.1 + m.padding * a.2, a.2 * m.stride)) (0, 1)).1 := by
    intro gs
    induction gs with
    | nil => intro a s; simp
    | cons g gs ih =>
      intro a s
      rw [List.foldl_cons, List.foldl_cons, ih, ih (0 + g.padding * 1)]
      simp only
      ring
  cases gs with
  | nil => exact absurd rfl h
  | cons g' gs =>
    simp only [paddingOf]
    rw [aux, List.foldl_cons, aux, aux gs g'.padding]
    ring

theorem geos_ne_nil {I O : Sig} (c : Chain I O) : c.geos ≠ [] := by
  cases c <;> simp [geos]

end Chain

namespace Sequential

theorem geom_single {m : CoMod (.stream X) (.stream Y)} {φ} (H : Geom m φ) :
    Geom (Sequential.mod (.single m)) φ := by
  have h1 : Chain.strideOf (Chain.geos (.single m)) = m.stride := by simp [Chain.geos, Chain.strideOf]
  have h2 : Chain.rfOf (Chain.geos (.single m)) = m.rf := by simp [Chain.geos, Chain.rfOf]
  have h3 : Chain.paddingOf (Chain.geos (.single m)) = m.padding := by simp [Chain.geos, Chain.paddingOf]
  refine ⟨?_, rfl⟩
  simp only [h1, h2, h3]; exact H.geo

theorem geom_cons {m : CoMod (.stream X) (.stream Y)} {c : Chain (.stream Y) (.stream Z)} {φ ψ}
    (H1 : Geom m φ) (H2 : Geom (Sequential.mod c) ψ) : Geom (Sequential.mod (.cons m c)) (ψ ∘ φ) := by
  refine ⟨?_, rfl⟩
  have hne := Chain.geos_ne_nil c
  simp only [Chain.geos, Chain.strideOf_cons, Chain.rfOf_cons _ hne, Chain.paddingOf_cons _ hne]
  exact hasGeo_comp H1.geo H2.geo

theorem fwdLen_single {m : CoMod (.stream X) (.stream Y)} (H : FwdLen m) :
    FwdLen (Sequential.mod (.single m)) := by
  intro i xs ys i' h
  have := H (i := i) (i' := i') h
  simpa [Chain.geos, Chain.strideOf, Chain.rfOf, Chain.paddingOf] using this

theorem fwdLen_cons {m : CoMod (.stream X) (.stream Y)} {c : Chain (.stream Y) (.stream Z)}
    (hs : 1 ≤ m.stride) (H1 : FwdLen m) (H2 : FwdLen (Sequential.mod c))
    (hk : 1 ≤ (Sequential.mod c).rf) :
    FwdLen (Sequential.mod (.cons m c)) := by
  rintro ⟨i1, i2⟩ xs zs i' h
  obtain ⟨ys, j1, j2, h1, h2, _⟩ := fwd_inv (i1 := i1) (i2 := i2) h
  have e1 := H1 h1
  have e2 := H2 h2
  have hne := Chain.geos_ne_nil c
  simp only [Chain.geos, Chain.strideOf_cons, Chain.rfOf_cons _ hne, Chain.paddingOf_cons _ hne]
  rw [e2, e1]
  simp only at hk ⊢
  generalize Chain.strideOf c.geos = s2
  generalize Chain.paddingOf c.geos = p2
  generalize hgk : Chain.rfOf c.geos = k2 at hk
  have hsm : m.stride ≤ m.stride * k2 + m.rf := by
    have := Nat.mul_le_mul_left m.stride hk
    omega
  have hcast : ((m.stride * k2 + m.rf - m.stride : Nat) : Int) = m.stride * k2 + m.rf - m.stride := by
    rw [Int.ofNat_sub hsm]; push_cast; ring
  rw [hcast]
  push_cast
  congr 1
  rw [← Int.ediv_ediv_of_nonneg (by omega : (0 : Int) ≤ m.stride)]
  congr 1
  have : ((xs.length : Int) + 2 * (m.padding + p2 * m.stride) - (m.stride * k2 + m.rf - m.stride))
      = (xs.length + 2 * m.padding - m.rf) + (2 * p2 - k2 + 1) * m.stride := by ring
  rw [this, Int.add_mul_ediv_right _ _ (by omega)]
  ring

end Sequential

namespace BroadcastReduce

theorem phi_get (f : List Y → Z) {φs : List (List X → List Y)} (hal : Aligned φs) {xs : List X} {j : Nat}
    (hj : j < (phi f φs xs).length) : (phi f φs xs)[j]? = some (f (atTime (φs.map (· xs)) j)) ∧
      ∀ φ ∈ φs, j < (φ xs).length := by
  cases φs with
  | nil => simp [phi, zipReduce] at hj
  | cons φ φs =>
    have hl : ∀ c ∈ (φ :: φs).map (· xs), c.length = (φ xs).length := by
      intro c hc
      obtain ⟨ψ, hψ, rfl⟩ := List.mem_map.1 hc
      exact hal ψ hψ φ (by simp) xs
    have hj' : j < (φ xs).length := by
      unfold phi at hj
      rw [zipReduce_eq f (by simp) hl] at hj
      simpa using hj
    refine ⟨?_, fun ψ hψ => ?_⟩
    · unfold phi
      rw [zipReduce_eq f (by simp) hl]
      simp [hj']
    · rw [hal ψ hψ φ (by simp) xs]; exact hj'

theorem atTime_congr {φs : List (List X → List Y)} {xs xs' : List X} {j j' : Nat}
    (h : ∀ φ ∈ φs, (φ xs)[j]? = (φ xs')[j']?) :
    atTime (φs.map (· xs)) j = atTime (φs.map (· xs')) j' := by
  induction φs with
  | nil => rfl
  | cons φ φs ih =>
    have ih' := ih fun ψ hψ => h ψ (by simp [hψ])
    simp only [atTime, List.map_cons, List.filterMap_cons] at ih' ⊢
    rw [h φ (by simp), ih']

theorem hasGeo {f : List Y → Z} {φs : List (List X → List Y)} {rf S P : Nat} (hne : φs ≠ [])
    (H : ∀ φ ∈ φs, HasGeo φ rf S P) : HasGeo (phi f φs) rf S P := by
  have hal : Aligned φs := aligned_of_sched fun φ hφ => (H φ hφ).sched
  obtain ⟨φ0, hφ0⟩ := List.exists_mem_of_ne_nil φs hne
  refine ⟨(H φ0 hφ0).hS, (H φ0 hφ0).hP, sched hφ0 hal (H φ0 hφ0).sched, ?_, ?_⟩
  · intro xs xs' j hj hj' h
    obtain ⟨e1, l1⟩ := phi_get f hal hj
    obtain ⟨e2, l2⟩ := phi_get f hal hj'
    rw [e1, e2, atTime_congr fun φ hφ => (H φ hφ).loc xs xs' j (l1 φ hφ) (l2 φ hφ) h]
  · intro xs xs' j j' hj hj' p1 p2 h
    obtain ⟨e1, l1⟩ := phi_get f hal hj
    obtain ⟨e2, l2⟩ := phi_get f hal hj'
    rw [e1, e2, atTime_congr fun φ hφ => (H φ hφ).inv xs xs' j j' (l1 φ hφ) (l2 φ hφ) p1 p2 h]

theorem foldl_max_ge {α : Type 1} (g : α → Nat) : ∀ (l : List α) (a : Nat),
    a ≤ l.foldl (fun a m => max a (g m)) a ∧ ∀ m ∈ l, g m ≤ l.foldl (fun a m => max a (g m)) a := by
  intro l
  induction l with
  | nil => intro a; simp
  | cons m l ih =>
    intro a
    obtain ⟨h1, h2⟩ := ih (max a (g m))
    rw [List.foldl_cons]
    refine ⟨by omega, fun m' hm' => ?_⟩
    rcases List.mem_cons.1 hm' with rfl | hm'
    · omega
    · exact h2 m' hm'

theorem foldl_max_shift {α : Type 1} (g g' : α → Nat) (e : Nat) : ∀ (l : List α) (a : Nat),
    (∀ m ∈ l, g m = g' m + e) →
    l.foldl (fun a m => max a (g m)) (a + e) = l.foldl (fun a m => max a (g' m)) a + e := by
  intro l
  induction l with
  | nil => intro a _; rfl
  | cons m l ih =>
    intro a h
    rw [List.foldl_cons, List.foldl_cons, h m (by simp),
      show max (a + e) (g' m + e) = max a (g' m) + e by omega]
    exact ih _ fun m' hm' => h m' (by simp [hm'])

theorem maxDelay_eq {ms : List (CoMod (.stream X) (.stream Y))} {d : Int} (hne : ms ≠ [])
    (h : ∀ m ∈ ms, m.delay = d) : maxDelay ms = d := by
  cases ms with
  | nil => exact absurd rfl hne
  | cons m ms =>
    simp only [maxDelay, h m (by simp)]
    have : ∀ (l : List (CoMod (.stream X) (.stream Y))), (∀ m ∈ l, m.delay = d) →
        l.foldl (fun a m => max a m.delay) d = d := by
      intro l
      induction l with
      | nil => intro _; rfl
      | cons m l ih =>
        intro h'
        rw [List.foldl_cons, h' m (by simp), max_self]
        exact ih fun m' hm' => h' m' (by simp [hm'])
    exact this ms fun m' hm' => h m' (by simp [hm'])

/-- A parallel container of modules with equal delays and strides reports its geometry correctly. -/
theorem geom {r : Reducer Y Z} {f : List Y → Z} {ms : List (CoMod (.stream X) (.stream Y))}
    {φs : List (List X → List Y)} {S : Nat} {d : Int} (hne : ms ≠ []) (H : List.Forall₂ Geom ms φs)
    (hS : ∀ m ∈ ms, m.stride = S) (hd : ∀ m ∈ ms, m.delay = d) : Geom (mod r ms) (phi f φs) := by
  have hlen := H.length_eq
  have hφne : φs ≠ [] := by
    rintro rfl
    exact hne (List.eq_nil_of_length_eq_zero hlen)
  have hmem : ∀ φ ∈ φs, ∃ m ∈ ms, Geom m φ := by
    clear hne hS hd hlen hφne
    induction H with
    | nil => simp
    | @cons m φ ms φs h1 _ ih =>
      intro ψ hψ
      rcases List.mem_cons.1 hψ with rfl | hψ
      · exact ⟨m, by simp, h1⟩
      · obtain ⟨m', h2, h3⟩ := ih ψ hψ
        exact ⟨m', by simp [h2], h3⟩
  have hmem' : ∀ m ∈ ms, ∃ φ, Geom m φ := by
    clear hne hS hd hlen hφne hmem
    induction H with
    | nil => simp
    | @cons m φ ms φs h1 _ ih =>
      intro m' hm'
      rcases List.mem_cons.1 hm' with rfl | hm'
      · exact ⟨φ, h1⟩
      · exact ih m' hm'
  have hrel : ∀ m ∈ ms, m.rf = m.padding + (1 + d.toNat) ∧ 0 ≤ d := by
    intro m hm
    obtain ⟨φ, hg⟩ := hmem' m hm
    have := hg.delay
    have := hg.geo.hP
    have := hd m hm
    omega
  obtain ⟨m0, hm0⟩ := List.exists_mem_of_ne_nil ms hne
  have hd0 := (hrel m0 hm0).2
  have hrf : (mod r ms).rf = (mod r ms).padding + (1 + d.toNat) := by
    show ms.foldl (fun a m => max a m.rf) 0 = ms.foldl (fun a m => max a m.padding) 0 + _
    cases ms with
    | nil => exact absurd rfl hne
    | cons m ms =>
      rw [List.foldl_cons, List.foldl_cons, (hrel m (by simp)).1,
        show max 0 (m.padding + (1 + d.toNat)) = max 0 m.padding + (1 + d.toNat) by omega]
      exact foldl_max_shift (fun m : CoMod (.stream X) (.stream Y) => m.rf) (fun m => m.padding) _ ms _
        fun m' hm' => (hrel m' (by simp [hm'])).1
  have hstr : (mod r ms).stride = S := by
    cases ms with
    | nil => exact absurd rfl hne
    | cons m ms => exact hS m (by simp)
  have hdel : (mod r ms).delay = d := maxDelay_eq hne hd
  refine ⟨?_, by rw [hdel, hrf]; omega⟩
  refine hasGeo hφne fun φ hφ => ?_
  obtain ⟨m, hm, hg⟩ := hmem φ hφ
  have hle : m.padding ≤ (mod r ms).padding := (foldl_max_ge (fun m : CoMod (.stream X) (.stream Y) => m.padding) ms 0).2 m hm
  have hg' := hg.geo.mono (e := (mod r ms).padding - m.padding)
  rw [hrf, hstr]
  rw [(hrel m hm).1, hS m hm, show m.padding + ((mod r ms).padding - m.padding) = (mod r ms).padding by omega,
    show m.padding + (1 + d.toNat) + ((mod r ms).padding - m.padding) = (mod r ms).padding + (1 + d.toNat) by
      omega] at hg'
  exact hg'

/-- `auto_delay` gives every member the delay of the slowest one. -/
theorem maxDelay_ge (ms : List (CoMod (.stream X) (.stream Y))) : ∀ m ∈ ms, m.delay ≤ maxDelay ms := by
  cases ms with
  | nil => simp
  | cons m0 ms =>
    have : ∀ (l : List (CoMod (.stream X) (.stream Y))) (a : Int),
        a ≤ l.foldl (fun a m => max a m.delay) a ∧
        ∀ m ∈ l, m.delay ≤ l.foldl (fun a m => max a m.delay) a := by
      intro l
      induction l with
      | nil => intro a; simp
      | cons m l ih =>
        intro a
        obtain ⟨h1, h2⟩ := ih (max a m.delay)
        rw [List.foldl_cons]
        refine ⟨by omega, fun m' hm' => ?_⟩
        rcases List.mem_cons.1 hm' with rfl | hm'
        · omega
        · exact h2 m' hm'
    intro m hm
    simp only [maxDelay]
    rcases List.mem_cons.1 hm with rfl | hm
    · exact (this ms _).1
    · exact (this ms _).2 m hm

end BroadcastReduce

/-! ### Consequences of the geometry -/

/-- An output appears exactly at the steps `delay + j * stride`. -/
theorem Spec.Sched.emits_iff {φ : List X → List Y} {d s : Nat} (H : Sched φ d s) (xs : List X)
    (x : X) {o : Option Y} (ho : φ (xs ++ [x]) = φ xs ++ o.toList) :
    o.isSome ↔ emits d s xs.length := by
  have h1 := congrArg List.length ho
  rw [List.length_append, H (xs ++ [x]), H xs] at h1
  simp only [List.length_append, List.length_singleton] at h1
  have hlen : o.toList.length = if o.isSome then 1 else 0 := by cases o <;> rfl
  rw [hlen] at h1
  unfold emits
  by_cases hd : d ≤ xs.length
  · rw [if_neg (by omega)] at h1
    by_cases he : xs.length = d
    · rw [if_pos (by omega)] at h1
      rw [show xs.length + 1 - 1 - d = 0 by omega, Nat.zero_div] at h1
      simp only [he, Nat.le_refl, Nat.sub_self, Nat.zero_mod, and_self, iff_true]
      split at h1
      · assumption
      · omega
    · rw [if_neg (by omega)] at h1
      have hdiv := Nat.succ_div (a := xs.length - 1 - d) (b := s)
      rw [show xs.length + 1 - 1 - d = xs.length - 1 - d + 1 by omega, hdiv,
        show xs.length - 1 - d + 1 = xs.length - d by omega] at h1
      have : s ∣ xs.length - d ↔ (xs.length - d) % s = 0 := Nat.dvd_iff_mod_eq_zero
      constructor
      · intro hsome
        rw [if_pos hsome] at h1
        refine ⟨hd, this.1 ?_⟩
        by_contra hnd
        rw [if_neg hnd] at h1
        omega
      · rintro ⟨_, hm⟩
        rw [if_pos (this.2 hm)] at h1
        by_contra hns
        rw [if_neg hns] at h1
        omega
  · rw [if_pos (by omega), if_pos (by omega)] at h1
    constructor
    · intro hsome
      rw [if_pos hsome] at h1
      omega
    · rintro ⟨h, _⟩
      omega

/-- Finite memory: after histories of at least `rf - 1` frames that agree on their last `rf - 1`
frames and are in the same phase of the stride, all future outputs agree. -/
theorem Spec.HasGeo.forget {φ : List X → List Y} {rf S P : Nat} (H : HasGeo φ rf S P) {h h' : List X}
    (hl : rf ≤ h.length + 1) (hl' : rf ≤ h'.length + 1) (hm : h.length % S = h'.length % S)
    (hlast : lastN (rf - 1) h = lastN (rf - 1) h') (xs : List X) :
    (φ (h ++ xs)).drop (φ h).length = (φ (h' ++ xs)).drop (φ h').length := by
  obtain ⟨hS, hP, sc, _, inv⟩ := H
  -- number of outputs as a function of the length
  have len : ∀ h : List X, rf ≤ h.length + 1 → (φ h).length = (h.length - (rf - 1 - P) + (S - 1)) / S := by
    intro h hh
    rw [sc h]
    split
    · have : h.length - (rf - 1 - P) = 0 := by omega
      rw [this, Nat.zero_add, Nat.div_eq_of_lt (by omega)]
    · rw [show h.length - (rf - 1 - P) + (S - 1) = h.length - 1 - (rf - 1 - P) + S by omega,
        Nat.add_div_right _ (by omega)]
  -- position of the first new output
  have first : ∀ h : List X, rf ≤ h.length + 1 → ∀ r, r = (h.length - (rf - 1 - P) + (S - 1)) % S →
      (φ h).length * S + r = h.length - (rf - 1 - P) + (S - 1) := by
    intro h hh r hr
    rw [len h hh, hr, Nat.mul_comm]
    exact Nat.div_add_mod _ _
  have hmod : (h.length - (rf - 1 - P) + (S - 1)) % S = (h'.length - (rf - 1 - P) + (S - 1)) % S := by
    have e : h.length ≡ h'.length [MOD S] := hm
    have e1 : h.length - (rf - 1 - P) + (S - 1) + (rf - 1 - P) ≡
        h'.length - (rf - 1 - P) + (S - 1) + (rf - 1 - P) [MOD S] := by
      rw [show h.length - (rf - 1 - P) + (S - 1) + (rf - 1 - P) = h.length + (S - 1) by omega,
        show h'.length - (rf - 1 - P) + (S - 1) + (rf - 1 - P) = h'.length + (S - 1) by omega]
      exact Nat.ModEq.add_right _ e
    exact Nat.ModEq.add_right_cancel' _ e1
  have f1 := first h hl _ rfl
  have f2 := first h' hl' _ hmod
  have hr : (h.length - (rf - 1 - P) + (S - 1)) % S < S := Nat.mod_lt _ (by omega)
  generalize (h.length - (rf - 1 - P) + (S - 1)) % S = r at f1 f2 hr
  -- both futures have the same number of outputs
  have lens : ∀ k, (φ h).length + k < (φ (h ++ xs)).length ↔ (φ h').length + k < (φ (h' ++ xs)).length := by
    intro k
    rw [sched_lt hS sc, sched_lt hS sc, List.length_append, List.length_append]
    have e1 : S * ((φ h).length + k) = (φ h).length * S + S * k := by ring
    have e2 : S * ((φ h').length + k) = (φ h').length * S + S * k := by ring
    omega
  apply List.ext_getElem?
  intro k
  rw [List.getElem?_drop, List.getElem?_drop]
  by_cases hk : (φ h).length + k < (φ (h ++ xs)).length
  · have hk' := (lens k).1 hk
    have e1 : ((φ h).length + k) * S = (φ h).length * S + S * k := by ring
    have e2 : ((φ h').length + k) * S = (φ h').length * S + S * k := by ring
    refine inv _ _ _ _ hk hk' (by omega) (by omega) ?_
    intro i hi
    -- offset from the end of the history
    have o1 : ((φ h).length + k) * S - P + i = h.length - (rf - 1) + (S - 1 - r + S * k + i) := by omega
    have o2 : ((φ h').length + k) * S - P + i = h'.length - (rf - 1) + (S - 1 - r + S * k + i) := by omega
    rw [o1, o2]
    have split : ∀ (h : List X) (o : Nat), rf ≤ h.length + 1 →
        (h ++ xs)[h.length - (rf - 1) + o]? = (lastN (rf - 1) h ++ xs)[o]? := by
      intro h o hh
      have : h ++ xs = h.take (h.length - (rf - 1)) ++ (lastN (rf - 1) h ++ xs) := by
        rw [← List.append_assoc]; congr 1
        exact (List.take_append_drop _ _).symm
      rw [this, List.getElem?_append_right (by simp)]
      congr 1
      simp
    rw [split h _ hl, split h' _ hl', hlast]
  · have hk' : ¬ (φ h').length + k < (φ (h' ++ xs)).length := fun hh => hk ((lens k).2 hh)
    rw [List.getElem?_eq_none (by omega), List.getElem?_eq_none (by omega)]

end CoInf
