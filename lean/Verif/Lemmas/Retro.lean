import Verif.Lemmas.Attention
import Mathlib.Tactic.Ring
import Mathlib.Algebra.BigOperators.Fin
import Mathlib.Algebra.BigOperators.Field

set_option autoImplicit false

namespace CoInf.Attn
open Spec
variable {F X Y B E : Type} [Field F] [Fintype E] (c : Cfg F X Y B E)

/-! ### Rows of the attention matrix -/

/-- Sum of the attention values of a query. -/
def dRow (ks : List (B → E → F)) (q : B → E → F) : B → F := (ks.map fun k => w c q k).sum

/-- Weighted sum of the values for a query. -/
def avRow (ks vs : List (B → E → F)) (q : B → E → F) : B → E → F := mix (ks.map fun k => w c q k) vs

theorem dRow_cons (k : B → E → F) (ks : List (B → E → F)) (q : B → E → F) :
    dRow c (k :: ks) q = w c q k + dRow c ks q := by simp [dRow]

theorem dRow_snoc (k : B → E → F) (ks : List (B → E → F)) (q : B → E → F) :
    dRow c (ks ++ [k]) q = dRow c ks q + w c q k := by simp [dRow]

theorem avRow_cons (k v : B → E → F) (ks vs : List (B → E → F)) (q : B → E → F) :
    avRow c (k :: ks) (v :: vs) q = (fun i e => w c q k i * v i e) + avRow c ks vs q := by simp [avRow, mix]

theorem avRow_snoc (k v : B → E → F) (ks vs : List (B → E → F)) (q : B → E → F) (h : ks.length = vs.length) :
    avRow c (ks ++ [k]) (vs ++ [v]) q = avRow c ks vs q + (fun i e => w c q k i * v i e) := by
  simp only [avRow, mix, List.map_append, List.map_cons, List.map_nil]
  rw [List.zipWith_append (by simpa using h)]
  simp

/-- The sliding update of the normaliser. -/
theorem dRow_slide (k0 k : B → E → F) (ks : List (B → E → F)) (q : B → E → F) :
    dRow c (k0 :: ks) q - w c q k0 + w c q k = dRow c (ks ++ [k]) q := by
  rw [dRow_cons, dRow_snoc, add_sub_cancel_left]

/-- The sliding update of the weighted sum. -/
theorem avRow_slide (k0 v0 k v : B → E → F) (ks vs : List (B → E → F)) (q : B → E → F) (h : ks.length = vs.length) :
    avRow c (k0 :: ks) (v0 :: vs) q - (fun i e => w c q k0 i * v0 i e) + (fun i e => w c q k i * v i e) =
      avRow c (ks ++ [k]) (vs ++ [v]) q := by
  rw [avRow_cons, avRow_snoc c _ _ _ _ _ h, add_sub_cancel_left]

/-- A ratio of the two sums is the softmax-weighted mean. -/
theorem row_eq (ks vs : List (B → E → F)) (q : B → E → F) :
    (fun i e => avRow c ks vs q i e / dRow c ks q i) = attnRow c q ks vs := by
  classical
  funext i e
  simp only [avRow, dRow, attnRow, mix, softmax, List.map_map]
  have hd : ∀ l : List (B → F), l.sum i = (l.map fun a => a i).sum := by
    intro l; induction l with
    | nil => rfl
    | cons a l ih => simp [ih]
  have hv : ∀ l : List (B → E → F), l.sum i e = (l.map fun a => a i e).sum := by
    intro l; induction l with
    | nil => rfl
    | cons a l ih => simp [ih]
  rw [hv, hv, hd]
  simp only [List.map_zipWith, List.map_map]
  have key : ∀ (D : F) (ks vs : List (B → E → F)),
      (List.zipWith (fun x y => x i * y i e) (ks.map fun k => w c q k) vs).sum / D =
        (List.zipWith (fun x y => x i * y i e) (ks.map fun k => fun j => c.ex (dot q k j) / (if j = i then D else 1)) vs).sum := by
    intro D ks
    induction ks with
    | nil => simp
    | cons k ks ih =>
      intro vs
      cases vs with
      | nil => simp
      | cons v vs =>
        simp only [List.map_cons, List.zipWith_cons_cons, List.sum_cons, add_div, ih, if_true, w]
        ring
  rw [key]
  congr 1
  rw [List.zipWith_map_left, List.zipWith_map_left]
  simp only [Function.comp, if_true]
  rfl

/-- Model and specification of a row agree. -/
theorem attnRow_eq (x : X) (xs : List X) :
    attnRow c (sq c x) (xs.map c.k) (xs.map c.v) = attention c.ex c.scale c.q c.k c.v xs x := by
  rw [← row_eq]
  funext i e
  simp only [avRow, dRow, mix, attention]
  have hd : ∀ l : List (B → F), l.sum i = (l.map fun a => a i).sum := by
    intro l; induction l with
    | nil => rfl
    | cons a l ih => simp [ih]
  have hv : ∀ l : List (B → E → F), l.sum i e = (l.map fun a => a i e).sum := by
    intro l; induction l with
    | nil => rfl
    | cons a l ih => simp [ih]
  rw [hv, hd]
  congr 1
  · simp only [List.map_map, List.zipWith_map, List.map_zipWith, Function.comp]
    rw [List.zipWith_self]
    rw [← List.sum_ofFn]
    congr 1
    conv_lhs => rw [← List.ofFn_getElem (xs := xs)]
    rw [List.map_ofFn]
    rfl
  · rw [List.map_map, List.map_map]
    rw [← List.sum_ofFn]
    congr 1
    conv_lhs => rw [← List.ofFn_getElem (xs := xs)]
    rw [List.map_ofFn]
    rfl

theorem full_eq (xs : List X) : full c xs = multihead c.ex c.scale c.q c.k c.v c.out xs := by
  unfold full multihead
  simp only [attnRow_eq]

/-! ### Retroactive attention -/

/-- Attributes after the frames `h`: the rows of the first `N - 1 - |h|` (fictitious) queries are arbitrary. -/
def RetroInv (h : List X) (s : RetroSt F B E) : Prop :=
  ∃ (dj : List (B → F)) (AVj Qj : List (B → E → F)),
    dj.length = c.N - 1 - h.length ∧ AVj.length = c.N - 1 - h.length ∧ Qj.length = c.N - 1 - h.length ∧
    s.K = padLast c.N 0 (h.map c.k) ∧ s.V = padLast c.N 0 (h.map c.v) ∧
    s.Q = Qj ++ lastN (c.N - 1) (h.map (sq c)) ∧
    s.d = dj ++ (lastN (c.N - 1) (h.map (sq c))).map (dRow c s.K) ∧
    s.AV = AVj ++ (lastN (c.N - 1) (h.map (sq c))).map (avRow c s.K s.V)

theorem retro_dflt (hN : 1 ≤ c.N) : ∃ s, retroDefault c = .ok s ∧ RetroInv c [] s := by
  refine ⟨_, if_neg (by omega), List.replicate (c.N - 1) 0, List.replicate (c.N - 1) 0, List.replicate (c.N - 1) 0,
    by simp, by simp, by simp, ?_, ?_, ?_, ?_, ?_⟩ <;> simp [padLast_nil, lastN]

/-- Updated columns of the rows in memory. -/
theorem top_d (dj : List (B → F)) (Qj Qr : List (B → E → F)) (k0 k : B → E → F) (ks : List (B → E → F))
    (h : dj.length = Qj.length) :
    List.zipWith (· + ·) (List.zipWith (· - ·) (dj ++ Qr.map (dRow c (k0 :: ks)))
      ((Qj ++ Qr).map fun r => w c r k0)) ((Qj ++ Qr).map fun r => w c r k) =
    List.zipWith (· + ·) (List.zipWith (· - ·) dj (Qj.map fun r => w c r k0)) (Qj.map fun r => w c r k) ++
      Qr.map (dRow c (ks ++ [k])) := by
  rw [List.map_append, List.map_append, List.zipWith_append (by simpa using h), List.zipWith_append (by simp [h])]
  congr 1
  rw [List.zipWith_map, List.zipWith_self, List.zipWith_map, List.zipWith_self]
  apply List.map_congr_left
  intro q _
  exact dRow_slide c k0 k ks q

theorem top_av (AVj Qj Qr : List (B → E → F)) (k0 v0 k v : B → E → F) (ks vs : List (B → E → F))
    (h : AVj.length = Qj.length) (hl : ks.length = vs.length) :
    List.zipWith (· + ·) (List.zipWith (· - ·) (AVj ++ Qr.map (avRow c (k0 :: ks) (v0 :: vs)))
      (((Qj ++ Qr).map fun r => w c r k0).map fun a => fun i e => a i * v0 i e))
      (((Qj ++ Qr).map fun r => w c r k).map fun a => fun i e => a i * v i e) =
    List.zipWith (· + ·) (List.zipWith (· - ·) AVj ((Qj.map fun r => w c r k0).map fun a => fun i e => a i * v0 i e))
      ((Qj.map fun r => w c r k).map fun a => fun i e => a i * v i e) ++
      Qr.map (avRow c (ks ++ [k]) (vs ++ [v])) := by
  simp only [List.map_append, List.map_map]
  rw [List.zipWith_append (by simpa using h), List.zipWith_append (by simp [h])]
  congr 1
  rw [List.zipWith_map, List.zipWith_self, List.zipWith_map, List.zipWith_self]
  apply List.map_congr_left
  intro q _
  exact avRow_slide c k0 v0 k v ks vs q hl

theorem drop_one_append {α : Type} (a b : List α) :
    (a ++ b).drop 1 = if a = [] then b.drop 1 else a.drop 1 ++ b := by
  cases a <;> simp

theorem retro_step (hN : 2 ≤ c.N) {h : List X} {s : RetroSt F B E} (x : X) (hi : RetroInv c h s) :
    ∃ o s', retroSdpa c s x = .ok (o, s') ∧ RetroInv c (h ++ [x]) s' ∧
      (c.N ≤ h.length + 1 → o = multihead c.ex c.scale c.q c.k c.v c.out (lastN c.N (h ++ [x]))) := by
  obtain ⟨dj, AVj, Qj, l1, l2, l3, hK, hV, hQ, hd, hAV⟩ := hi
  have lK : s.K.length = c.N := by rw [hK, padLast_length]
  have lV : s.V.length = c.N := by rw [hV, padLast_length]
  have lQ : s.Q.length = c.N - 1 := by
    rw [hQ, List.length_append, l3]
    simp [lastN]; omega
  obtain ⟨k0, ks, eK⟩ : ∃ k0 ks, s.K = k0 :: ks := by
    cases hs : s.K with
    | nil => rw [hs] at lK; simp at lK; omega
    | cons a l => exact ⟨a, l, rfl⟩
  obtain ⟨v0, vs, eV⟩ : ∃ v0 vs, s.V = v0 :: vs := by
    cases hs : s.V with
    | nil => rw [hs] at lV; simp at lV; omega
    | cons a l => exact ⟨a, l, rfl⟩
  have lks : ks.length = vs.length := by
    rw [eK] at lK; rw [eV] at lV; simp at lK lV; omega
  have hQne : s.Q ≠ [] := by intro e; rw [e] at lQ; simp at lQ; omega
  generalize hQr : lastN (c.N - 1) (h.map (sq c)) = Qr at hQ hd hAV
  have hKn : padLast c.N 0 ((h ++ [x]).map c.k) = ks ++ [c.k x] := by
    rw [List.map_append, List.map_cons, List.map_nil, padLast_snoc _ _ _ _ (by omega), ← hK, eK]; rfl
  have hVn : padLast c.N 0 ((h ++ [x]).map c.v) = vs ++ [c.v x] := by
    rw [List.map_append, List.map_cons, List.map_nil, padLast_snoc _ _ _ _ (by omega), ← hV, eV]; rfl
  have hQrn : lastN c.N ((h ++ [x]).map (sq c)) = Qr ++ [sq c x] := by
    rw [List.map_append, List.map_cons, List.map_nil, ← hQr]
    have := lastN_snoc (c.N - 1) (h.map (sq c)) (sq c x)
    rwa [show c.N - 1 + 1 = c.N by omega] at this
  -- the new rows
  let dj' := List.zipWith (· + ·) (List.zipWith (· - ·) dj (Qj.map fun r => w c r k0)) (Qj.map fun r => w c r (c.k x))
  let AVj' := List.zipWith (· + ·) (List.zipWith (· - ·) AVj ((Qj.map fun r => w c r k0).map fun a => fun i e => a i * v0 i e))
      ((Qj.map fun r => w c r (c.k x)).map fun a => fun i e => a i * c.v x i e)
  have hd' : List.zipWith (· + ·) (List.zipWith (· - ·) s.d (s.Q.map fun r => w c r k0)) (s.Q.map fun r => w c r (c.k x)) ++
      [((ks ++ [c.k x]).map fun r => w c (sq c x) r).sum] = dj' ++ (Qr ++ [sq c x]).map (dRow c (ks ++ [c.k x])) := by
    rw [hd, hQ, eK, top_d c dj Qj Qr k0 (c.k x) ks (by omega), List.append_assoc, List.map_append (l₁ := Qr)]; rfl
  have hAV' : List.zipWith (· + ·) (List.zipWith (· - ·) s.AV ((s.Q.map fun r => w c r k0).map fun a => fun i e => a i * v0 i e))
      ((s.Q.map fun r => w c r (c.k x)).map fun a => fun i e => a i * c.v x i e) ++
      [mix ((ks ++ [c.k x]).map fun r => w c (sq c x) r) (vs ++ [c.v x])] =
      AVj' ++ (Qr ++ [sq c x]).map (avRow c (ks ++ [c.k x]) (vs ++ [c.v x])) := by
    rw [hAV, hQ, eK, eV, top_av c AVj Qj Qr k0 v0 (c.k x) (c.v x) ks vs (by omega) lks, List.append_assoc, List.map_append (l₁ := Qr)]; rfl
  have ldj : dj'.length = c.N - 1 - h.length := by simp [dj', l1, l3]
  have lAVj : AVj'.length = c.N - 1 - h.length := by simp [AVj', l2, l3]
  have step_eq : retroSdpa c s x = .ok
      ((List.zipWith (fun av dd => fun i e => av i e / dd i)
        (AVj' ++ (Qr ++ [sq c x]).map (avRow c (ks ++ [c.k x]) (vs ++ [c.v x])))
        (dj' ++ (Qr ++ [sq c x]).map (dRow c (ks ++ [c.k x])))).map c.out,
       ⟨(dj' ++ (Qr ++ [sq c x]).map (dRow c (ks ++ [c.k x]))).drop 1,
        (AVj' ++ (Qr ++ [sq c x]).map (avRow c (ks ++ [c.k x]) (vs ++ [c.v x]))).drop 1,
        s.Q.drop 1 ++ [sq c x], ks ++ [c.k x], vs ++ [c.v x]⟩) := by
    have g1 : pyGet s.K 0 = .ok k0 := by rw [eK]; rfl
    have g2 : pyGet s.V 0 = .ok v0 := by rw [eV]; rfl
    have g3 := rollSet_ok hQne (sq c x)
    have g4 : rollSet s.K (c.k x) = .ok (ks ++ [c.k x]) := by rw [eK]; exact rollSet_ok (by simp) _
    have g5 : rollSet s.V (c.v x) = .ok (vs ++ [c.v x]) := by rw [eV]; exact rollSet_ok (by simp) _
    simp only [retroSdpa, g1, g2, g3, g4, g5, bind, Except.bind, pure, Except.pure, retroCore]
    rw [hd', hAV']
  refine ⟨_, _, step_eq, ?_, ?_⟩
  · -- invariant
    have lh : (h ++ [x]).length = h.length + 1 := by simp
    by_cases hc : h.length < c.N - 1
    · -- there are still fictitious rows
      have hQrn' : lastN (c.N - 1) ((h ++ [x]).map (sq c)) = Qr ++ [sq c x] := by
        rw [← hQrn, lastN_all _ _ (by simp; omega), lastN_all _ _ (by simp; omega)]
      have nj : dj' ≠ [] := by intro e; rw [e] at ldj; simp at ldj; omega
      have nA : AVj' ≠ [] := by intro e; rw [e] at lAVj; simp at lAVj; omega
      have nQ : Qj ≠ [] := by intro e; rw [e] at l3; simp at l3; omega
      refine ⟨dj'.drop 1, AVj'.drop 1, Qj.drop 1, by rw [lh]; simp; omega, by rw [lh]; simp; omega, by rw [lh]; simp; omega,
        hKn.symm, hVn.symm, ?_, ?_, ?_⟩
      · rw [hQrn']
        show s.Q.drop 1 ++ [sq c x] = _
        rw [hQ, drop_one_append, if_neg nQ, List.append_assoc]
      · rw [hQrn']
        exact (drop_one_append _ _).trans (if_neg nj)
      · rw [hQrn']
        exact (drop_one_append _ _).trans (if_neg nA)
    · have e1 : dj' = [] := List.length_eq_zero_iff.1 (by omega)
      have e2 : AVj' = [] := List.length_eq_zero_iff.1 (by omega)
      have e3 : Qj = [] := List.length_eq_zero_iff.1 (by omega)
      have lQr : Qr.length = c.N - 1 := by rw [hQ, e3] at lQ; simpa using lQ
      have hQrn' : lastN (c.N - 1) ((h ++ [x]).map (sq c)) = (Qr ++ [sq c x]).drop 1 := by
        rw [← hQrn]
        simp only [lastN, List.drop_drop, List.length_map, lh]
        congr 1
        omega
      refine ⟨[], [], [], by rw [lh]; simp; omega, by rw [lh]; simp; omega, by rw [lh]; simp; omega,
        hKn.symm, hVn.symm, ?_, ?_, ?_⟩
      · rw [hQrn']
        show s.Q.drop 1 ++ [sq c x] = _
        rw [hQ, e3, List.nil_append, List.nil_append]
        exact (List.drop_append_of_le_length (by omega)).symm
      · rw [hQrn', e1]
        simp only [List.nil_append, List.map_drop]
      · rw [hQrn', e2]
        simp only [List.nil_append, List.map_drop]
  · intro hc
    have e1 : dj' = [] := List.length_eq_zero_iff.1 (by omega)
    have e2 : AVj' = [] := List.length_eq_zero_iff.1 (by omega)
    rw [e1, e2, List.nil_append, List.nil_append, List.zipWith_map, List.zipWith_self, ← hQrn, ← hKn, ← hVn,
      padLast_full _ _ _ (by simp; omega), padLast_full _ _ _ (by simp; omega), lastN_map, lastN_map, lastN_map,
      List.map_map, List.map_map, ← full_eq]
    unfold full
    apply List.map_congr_left
    intro y _
    simp only [Function.comp]
    rw [row_eq]

/-- Retroactive attention streams the attention of the window. -/
theorem retro_ok (hN : 2 ≤ c.N) : (retroBase c).Ok (RetroInv c) (multihead c.ex c.scale c.q c.k c.v c.out) where
  pos := show 1 ≤ c.N by omega
  dflt := retro_dflt c (by omega)
  step := fun x hi => retro_step c hN x hi

/-! ### Single-output attention -/

/-- Attributes after the frames `h`. -/
def SingleInv (qi : Int) (h : List X) (s : SingleSt F B E) : Prop :=
  s.K = padLast c.N 0 (h.map c.k) ∧ s.V = padLast c.N 0 (h.map c.v) ∧
    s.Q = padLast (nq c.N qi).toNat 0 (h.map (sq c))

theorem single_dflt (qi : Int) (hq : 0 ≤ nq c.N qi) : ∃ s, singleDefault c qi = .ok s ∧ SingleInv c qi [] s := by
  refine ⟨_, if_neg (by omega), ?_, ?_, ?_⟩ <;> simp [padLast_nil]

theorem headD_append {α : Type} (l : List α) (a : α) : (l ++ [a]).head? = some (l.headD a) := by
  cases l <;> rfl

theorem single_step {qi : Int} (hN : 1 ≤ c.N) (hq : 0 ≤ nq c.N qi) (hq' : nq c.N qi < c.N) {h : List X} {s : SingleSt F B E}
    (x : X) (hi : SingleInv c qi h s) :
    ∃ o s', singleSdpa c s x = .ok (o, s') ∧ SingleInv c qi (h ++ [x]) s' ∧
      (c.N ≤ h.length + 1 → ∃ y, pyGet (lastN c.N (h ++ [x])) qi = .ok y ∧
        o = c.out (attention c.ex c.scale c.q c.k c.v (lastN c.N (h ++ [x])) y)) := by
  obtain ⟨hK, hV, hQ⟩ := hi
  have lK : s.K.length = c.N := by rw [hK, padLast_length]
  have lV : s.V.length = c.N := by rw [hV, padLast_length]
  have g4 := rollSet_ok (l := s.K) (by intro e; rw [e] at lK; simp at lK; omega) (c.k x)
  have g5 := rollSet_ok (l := s.V) (by intro e; rw [e] at lV; simp at lV; omega) (c.v x)
  have hKn : padLast c.N 0 ((h ++ [x]).map c.k) = s.K.drop 1 ++ [c.k x] := by
    rw [List.map_append, List.map_cons, List.map_nil, padLast_snoc _ _ _ _ (by omega), ← hK]
  have hVn : padLast c.N 0 ((h ++ [x]).map c.v) = s.V.drop 1 ++ [c.v x] := by
    rw [List.map_append, List.map_cons, List.map_nil, padLast_snoc _ _ _ _ (by omega), ← hV]
  -- the selected query
  have hsel : c.N ≤ h.length + 1 → ∃ y, pyGet (lastN c.N (h ++ [x])) qi = .ok y ∧ s.Q.headD (sq c x) = sq c y := by
    intro hl
    have hlen : (lastN c.N (h ++ [x])).length = c.N := lastN_length _ _ (by simpa using hl)
    generalize hn : (nq c.N qi).toNat = n at hQ
    have hQl : s.Q ++ [sq c x] = lastN (n + 1) ((h ++ [x]).map (sq c)) := by
      rw [List.map_append, List.map_cons, List.map_nil, lastN_snoc, hQ, padLast_full _ _ _ (by simp; omega)]
    have hh := headD_append s.Q (sq c x)
    rw [hQl, lastN_map, List.head?_map] at hh
    have hidx : (lastN (n + 1) (h ++ [x])).head? = (lastN c.N (h ++ [x]))[c.N - 1 - n]? := by
      simp only [lastN, List.head?_drop, List.getElem?_drop, List.length_append, List.length_singleton]
      congr 1; omega
    rw [hidx] at hh
    obtain ⟨y, hy, hy'⟩ := Option.map_eq_some_iff.1 hh
    refine ⟨y, ?_, hy'.symm⟩
    have hlt : c.N - 1 - n < c.N := by omega
    unfold nq at hn hq hq'
    simp only [pyGet, hlen]
    split
    · rename_i hneg
      rw [if_neg (by omega)] at hn hq hq'
      rw [if_neg (by omega)]
      have : (qi + (c.N : Int)).toNat = c.N - 1 - n := by omega
      rw [this, hy]
    · rename_i hneg
      rw [if_pos (by omega)] at hn hq hq'
      have : qi.toNat = c.N - 1 - n := by omega
      rw [this, hy]
  have hout : c.N ≤ h.length + 1 → ∃ y, pyGet (lastN c.N (h ++ [x])) qi = .ok y ∧
      c.out (attnRow c (s.Q.headD (sq c x)) (s.K.drop 1 ++ [c.k x]) (s.V.drop 1 ++ [c.v x])) =
        c.out (attention c.ex c.scale c.q c.k c.v (lastN c.N (h ++ [x])) y) := by
    intro hl
    obtain ⟨y, h1, h2⟩ := hsel hl
    refine ⟨y, h1, ?_⟩
    rw [h2, ← hKn, ← hVn, padLast_full _ _ _ (by simp; omega), padLast_full _ _ _ (by simp; omega), lastN_map, lastN_map,
      attnRow_eq]
  by_cases hz : s.Q = []
  · refine ⟨c.out (attnRow c (s.Q.headD (sq c x)) (s.K.drop 1 ++ [c.k x]) (s.V.drop 1 ++ [c.v x])), ⟨s.Q, s.K.drop 1 ++ [c.k x], s.V.drop 1 ++ [c.v x]⟩,
      ?_, ?_, hout⟩
    · simp only [singleSdpa, g4, g5, hz]; rfl
    · refine ⟨hKn.symm, hVn.symm, ?_⟩
      have : (nq c.N qi).toNat = 0 := by
        have := congrArg List.length hQ
        rw [padLast_length, hz] at this
        simpa using this.symm
      rw [hz, this]; simp [padLast, lastN]
  · have g3 := rollSet_ok hz (sq c x)
    refine ⟨c.out (attnRow c (s.Q.headD (sq c x)) (s.K.drop 1 ++ [c.k x]) (s.V.drop 1 ++ [c.v x])),
      ⟨s.Q.drop 1 ++ [sq c x], s.K.drop 1 ++ [c.k x], s.V.drop 1 ++ [c.v x]⟩, ?_, ?_, hout⟩
    · have : s.Q.isEmpty = false := by cases hs : s.Q <;> simp_all
      simp [singleSdpa, g3, g4, g5, this]
    · refine ⟨hKn.symm, hVn.symm, ?_⟩
      have : 1 ≤ (nq c.N qi).toNat := by
        have := congrArg List.length hQ
        rw [padLast_length] at this
        rw [← this]
        exact List.length_pos_iff.2 hz
      rw [List.map_append, List.map_cons, List.map_nil, padLast_snoc _ _ _ _ this, ← hQ]

/-- Row `qi` of the attention of a window. -/
def rowOf (qi : Int) (win : List X) : Y :=
  match pyGet (multihead c.ex c.scale c.q c.k c.v c.out win) qi with
  | .ok y => y
  | .error _ => c.out 0

theorem pyGet_map {α β : Type} (f : α → β) (l : List α) (i : Int) : pyGet (l.map f) i = (pyGet l i).map f := by
  unfold pyGet
  simp only [List.length_map, List.getElem?_map]
  generalize hj : (if i < 0 then i + (l.length : Int) else i) = j
  by_cases h : j < 0
  · simp only [h, if_true]; rfl
  · simp only [h, if_false]
    cases l[j.toNat]? <;> rfl

theorem single_ok {qi : Int} (sf : Bool) (hN : 1 ≤ c.N) (hq : 0 ≤ nq c.N qi) (hq' : nq c.N qi < c.N) :
    (singleBase c qi sf).Ok (SingleInv c qi) (rowOf c qi) where
  pos := hN
  dflt := single_dflt c qi hq
  step := fun {h s} x hi => by
    obtain ⟨o, s', h1, h2, h3⟩ := single_step c hN hq hq' x hi
    refine ⟨o, s', h1, h2, fun hl => ?_⟩
    obtain ⟨y, h4, h5⟩ := h3 hl
    have : pyGet (multihead c.ex c.scale c.q c.k c.v c.out (lastN c.N (h ++ [x]))) qi = .ok o := by
      unfold multihead
      rw [pyGet_map, h4, h5]; rfl
    show o = rowOf c qi (lastN c.N (h ++ [x]))
    unfold rowOf
    rw [this]

end CoInf.Attn
