/-
Property C80: masks of the attention modules.
-/
import Verif.Model.AttnMask
import Verif.Props.AttnOptions
import Verif.Props.AttnNd

set_option autoImplicit false

namespace CoInf
open Spec Attn

namespace Spec.Mha
variable {F : Type} [Field F] {H D : Nat}

/-- Attention where pair `kv` has, in head `h`, the mask `kv.2 h`: hidden, or a number that is added to the score. -/
def attendMasked (ex : F → F) (sqrtD : F) (wo : Fin (H * D) → Fin (H * D) → F) (bo : Fin (H * D) → F)
    (kvs : List (((Fin (H * D) → F) × (Fin (H * D) → F)) × (Fin H → Option F))) (q : Fin (H * D) → F) (e : Fin (H * D)) : F :=
  let weight (h : Fin H) (kv : ((Fin (H * D) → F) × (Fin (H * D) → F)) × (Fin H → Option F)) : F :=
    match kv.2 h with
    | none => 0
    | some m => ex ((∑ d : Fin D, q (feat h d) * kv.1.1 (feat h d)) / sqrtD + m)
  (∑ h : Fin H, ∑ d : Fin D, wo e (feat h d) *
    ((kvs.map fun kv => weight h kv * kv.1.2 (feat h d)).sum / (kvs.map (weight h)).sum)) + bo e

/-- Hidden pairs need not be there. -/
theorem attendMasked_bool (ex : F → F) (sqrtD : F) (wo : Fin (H * D) → Fin (H * D) → F) (bo : Fin (H * D) → F)
    (kvs : List (((Fin (H * D) → F) × (Fin (H * D) → F)) × Bool)) (q : Fin (H * D) → F) (e : Fin (H * D)) :
    attendMasked ex sqrtD wo bo (kvs.map fun kv => (kv.1, fun _ => if kv.2 then none else some 0)) q e =
      attend ex sqrtD wo bo ((kvs.filter fun kv => !kv.2).map Prod.fst) q e := by
  unfold attendMasked attend
  simp only
  congr 1
  apply Finset.sum_congr rfl
  intro h _
  apply Finset.sum_congr rfl
  intro d _
  congr 2
  · induction kvs with
    | nil => rfl
    | cons kv kvs ih =>
      obtain ⟨kv, b⟩ := kv
      cases b with
      | true => simpa using ih
      | false => simpa [scoreOf] using ih
  · induction kvs with
    | nil => rfl
    | cons kv kvs ih =>
      obtain ⟨kv, b⟩ := kv
      cases b with
      | true => simpa using ih
      | false => simpa [scoreOf] using ih

end Spec.Mha

namespace Attn

/-- A row of masked attention over pairs. -/
theorem attnRowM_pairs {F X Y B E : Type} [Field F] [Fintype E] (c : Attn.Cfg F X Y B E) (q : B → E → F)
    (l : List ((B → E → F) × (B → E → F))) (ms : List (B → Option F)) (i : B) (e : E) :
    attnRowM c q (l.map Prod.fst) (l.map Prod.snd) ms i e =
      (List.zipWith (fun kv m => exm c ((m i).map fun m => dot q kv.1 i + m) * kv.2 i e) l ms).sum /
        (List.zipWith (fun kv m => exm c ((m i).map fun m => dot q kv.1 i + m)) l ms).sum := by
  have hv : ∀ l : List (B → E → F), l.sum i e = (l.map fun a => a i e).sum := by
    intro l; induction l with
    | nil => rfl
    | cons a l ih => simp [ih]
  have gen : ∀ (S : B → F) (ms : List (B → Option F)),
      mix (List.zipWith (fun k m => fun i => exm c ((m i).map fun m => dot q k i + m) / S i) (l.map Prod.fst) ms)
        (l.map Prod.snd) i e =
      (List.zipWith (fun kv m => exm c ((m i).map fun m => dot q kv.1 i + m) * kv.2 i e) l ms).sum / S i := by
    intro S ms
    unfold mix
    rw [hv, List.map_zipWith]
    induction l generalizing ms with
    | nil => simp
    | cons kv l ih =>
      cases ms with
      | nil => simp
      | cons m ms =>
        simp only [List.map_cons, List.zipWith_cons_cons, List.sum_cons, add_div]
        rw [ih ms]
        congr 1
        ring
  unfold attnRowM softmaxM
  rw [List.map_zipWith]
  refine (gen (fun i => (List.map (fun a' : B → Option F => exm c (a' i))
    (List.zipWith (fun k m => fun i => (m i).map fun m => dot q k i + m) (l.map Prod.fst) ms)).sum) ms).trans ?_
  rw [List.map_zipWith, List.zipWith_map_left]

/-- A list combined with a function of the position. -/
theorem zipWith_range {α β γ : Type} (f : α → β → γ) (g : Nat → β) : ∀ (l : List α) (k : Nat),
    List.zipWith f l ((List.range' k l.length).map g) = (l.zipIdx k).map fun a => f a.1 (g a.2)
  | [], _ => rfl
  | a :: l, k => by
    rw [List.length_cons, List.range'_succ]
    simp only [List.map_cons, List.zipWith_cons_cons, List.zipIdx_cons]
    rw [zipWith_range f g l (k + 1)]

namespace Nd
variable {F : Type} [Field F] {n H D kd vd : Nat} (p : Params F n H D kd vd)

/-- Multi-head attention of the query `x` over the clip, where the pair at position `j` has mask `mask b h j`. -/
def attendMaskedAll (mask : Fin n → Fin H → Nat → Option F) (xs : List (Frame F n (H * D) kd vd))
    (x : Frame F n (H * D) kd vd) : Mat F n (H * D) := fun b =>
  Mha.attendMasked p.ex (p.sqrt D) p.outW (biasOf p.outB) ((pairsOf p b xs).zipIdx.map fun kv => (kv.1, fun h => mask b h kv.2))
    (queryOf p b x)

theorem rowM_attend (ms : Nat → Fin (n * H) → Option F) (x : Frame F n (H * D) kd vd) (xs : List (Frame F n (H * D) kd vd)) :
    (cfg p).out (attnRowM (cfg p) (sq (cfg p) x) (keys p xs) (values p xs) ((List.range (keys p xs).length).map ms)) =
      attendMaskedAll p (fun b h j => ms j (brow b h)) xs x := by
  funext b e
  unfold attendMaskedAll Mha.attendMasked
  show linear p.outW p.outB _ b e = _
  rw [linear_apply, sum_feat]
  congr 1
  apply Finset.sum_congr rfl
  intro h _
  apply Finset.sum_congr rfl
  intro d _
  rw [unheads_apply, (pairs_fst p xs).2, (pairs_fst p xs).1, attnRowM_pairs]
  have hs : ∀ k : Mat F (n * H) D, dot (sq (cfg p) x) k (brow b h) =
      (∑ d : Fin D, queryOf p b x (Mha.feat h d) * k (brow b h) d) / p.sqrt D := by
    intro k
    unfold dot sq
    rw [Finset.sum_div]
    apply Finset.sum_congr rfl
    intro d _
    have : (cfg p).q x (brow b h) d = queryOf p b x (Mha.feat h d) := by
      show heads (qkv p.proj p.inBias x).1 _ _ = _
      rw [heads_apply]
      exact (qkv_apply _ _ _ _ _).1
    rw [this]
    show _ * (1 / p.sqrt D) * _ = _
    ring
  simp only [hs]
  rw [List.length_map, List.range_eq_range', zipWith_range, zipWith_range]
  have h1 := pairs_read p xs b h Prod.mk
  have hz : ∀ {α : Type} (f : (Fin D → F) → (Fin D → F) → Nat → α),
      ((pairs p xs).zipIdx.map fun a => f (a.1.1 (brow b h)) (a.1.2 (brow b h)) a.2) =
        (pairsOf p b xs).zipIdx.map fun a => f (fun d => a.1.1 (Mha.feat h d)) (fun d => a.1.2 (Mha.feat h d)) a.2 := by
    intro α f
    have := congrArg (fun l : List ((Fin D → F) × (Fin D → F)) => l.zipIdx.map fun a => f a.1.1 a.1.2 a.2) h1
    simpa [List.zipIdx_map, Function.comp_def] using this
  rw [hz fun k v j => exm (cfg p) ((ms j (brow b h)).map fun m =>
      (∑ d : Fin D, queryOf p b x (Mha.feat h d) * k d) / p.sqrt D + m) * v d,
    hz fun k (_ : Fin D → F) j => exm (cfg p) ((ms j (brow b h)).map fun m =>
      (∑ d : Fin D, queryOf p b x (Mha.feat h d) * k d) / p.sqrt D + m)]
  rw [List.map_map, List.map_map]
  have hw : ∀ (a : F) (o : Option F), exm (cfg p) (o.map fun m => a + m) = (match o with
      | none => 0
      | some m => p.ex (a + m)) := by
    intro a o
    cases o <;> rfl
  simp only [hw]
  rfl

/-- The mask of query `r` and key `j` in batch entry `b` and head `h`, as documented: positions hidden by
`key_padding_mask` for all queries, else the entry of `attn_mask`; pairs that do not come from the clip are visible. -/
def Masks.says (M : Masks F n H) (r : Nat) (b : Fin n) (h : Fin H) (j : Nat) : Option F :=
  if (M.pad.bind fun m => (m b)[j]?) = some true then none
  else ((M.attn.bind fun m => (m.rows (brow b h))[r]?).bind fun row => row[j]?).getD (some 0)

theorem maskAt_says (M : Masks F n H) (r : Nat) (b : Fin n) (h : Fin H) (j : Nat) :
    maskAt M (brow b h) r j = M.says r b h j := by
  have hb : (⟨(brow b h).val / H, Nat.div_lt_of_lt_mul (Nat.mul_comm n H ▸ (brow b h).isLt)⟩ : Fin n) = b := by
    apply Fin.ext
    show (b.val * H + h.val) / H = b.val
    rw [Nat.mul_comm, Nat.mul_add_div (by have := h.isLt; omega), Nat.div_eq_of_lt h.isLt, Nat.add_zero]
  unfold maskAt Masks.says
  rw [hb]
  obtain ⟨attn, pad⟩ := M
  have hrest : ∀ o : Option Bool, o ≠ some true → (match o with
      | some true => none
      | _ => match attn with
        | some m => match (m.rows (brow b h))[r]? with
          | some row => row[j]?.getD (some 0)
          | none => some 0
        | none => some 0) = ((attn.bind fun m => (m.rows (brow b h))[r]?).bind fun row => row[j]?).getD (some 0) := by
    intro o ho
    cases attn with
    | none => match o with
      | none => rfl
      | some false => rfl
      | some true => exact absurd rfl ho
    | some m =>
      simp only [Option.bind_some]
      cases (m.rows (brow b h))[r]? <;> (match o with
        | none => rfl
        | some false => rfl
        | some true => exact absurd rfl ho)
  cases pad with
  | none => exact hrest none (by simp)
  | some m =>
    simp only [Option.bind_some]
    by_cases hj : (m b)[j]? = some true
    · rw [if_pos hj, hj]
    · rw [if_neg hj]; exact hrest _ hj

theorem exists_brow (i : Fin (n * H)) : ∃ (b : Fin n) (h : Fin H), i = brow b h := by
  have hH : 0 < H := Nat.pos_of_ne_zero fun h => by have := i.isLt; simp [h] at this
  refine ⟨⟨i / H, Nat.div_lt_of_lt_mul (Nat.mul_comm n H ▸ i.isLt)⟩, ⟨i % H, Nat.mod_lt _ hH⟩, Fin.ext ?_⟩
  show i.val = i / H * H + i % H
  exact (Nat.div_add_mod' i.val H).symm

theorem keys_length (xs : List (Frame F n (H * D) kd vd)) (b : Fin n) : (keys p xs).length = (pairsOf p b xs).length := by
  unfold keys pairsOf
  simp only [List.length_append, List.length_map]
  congr 1
  · cases p.biasKV <;> rfl
  · by_cases h : p.zeroAttn = true
    · rw [if_pos h, if_pos h]; rfl
    · rw [if_neg h, if_neg h]; rfl

/-- Number of pairs of keys and values for a clip of `S` frames. -/
def pairCount (S : Nat) : Nat := S + p.biasKV.toList.length + (if p.zeroAttn then 1 else 0)

theorem keys_count (xs : List (Frame F n (H * D) kd vd)) : (keys p xs).length = pairCount p xs.length := by
  unfold keys pairCount
  simp only [List.length_append, List.length_map]
  congr 1
  · cases p.biasKV <;> rfl
  · by_cases h : p.zeroAttn = true
    · rw [if_pos h, if_pos h]; rfl
    · rw [if_neg h, if_neg h]; rfl

/-- Every query sees a pair. -/
def Masks.Sees (M : Masks F n H) (r S : Nat) : Prop := ∀ (b : Fin n) (h : Fin H), ∃ j < S, M.says r b h j ≠ none

theorem rowM_some (M : Masks F n H) (r : Nat) (x : Frame F n (H * D) kd vd) (xs : List (Frame F n (H * D) kd vd))
    (hv : M.Sees r (pairCount p xs.length)) :
    rowM p M r x xs = some (attendMaskedAll p (M.says r) xs x) := by
  unfold rowM
  simp only
  rw [if_neg]
  · rw [rowM_attend p (fun j i => maskAt M i r j) x xs]
    simp only [maskAt_says]
  · rintro ⟨i, hi⟩
    obtain ⟨b, h, rfl⟩ := exists_brow i
    obtain ⟨j, hj, hne⟩ := hv b h
    refine hne ?_
    rw [← maskAt_says]
    exact hi (fun i => maskAt M i r j) (List.mem_map.mpr ⟨j, List.mem_range.mpr (by rw [keys_count]; exact hj), rfl⟩)

end Nd
end Attn

section
variable {F : Type} [Field F] {n H D kd vd : Nat}

/-- **C80**: with masks of the documented shapes, and if every query sees something, `forward` of both modules computes
attention where scores are the usual ones plus the mask and hidden positions have weight 0. -/
theorem C80_forward (p : Nd.Params F n H D kd vd) (M : Nd.Masks F n H) (xs : List (Nd.Frame F n (H * D) kd vd))
    (ha : ∀ m, M.attn = some m → m.fits xs.length xs.length) (hp : ∀ m, M.pad = some m → ∀ b, (m b).length = xs.length)
    (hv : ∀ r < xs.length, M.Sees r (Nd.pairCount p xs.length)) :
    Nd.forwardM p M xs = .ok (xs.zipIdx.map fun x => some (Nd.attendMaskedAll p (M.says x.2) xs x.1)) := by
  have hc : Nd.checkMasks M xs.length xs.length = .ok () := by
    have h1 : Nd.checkPad M xs.length = .ok () := by
      unfold Nd.checkPad
      cases h : M.pad with
      | none => rfl
      | some m => simp only [if_pos (hp m h)]
    unfold Nd.checkMasks
    cases h : M.attn with
    | none => exact h1
    | some m => simp only [if_pos (ha m h)]; exact h1
  unfold Nd.forwardM
  rw [hc]
  simp only
  congr 1
  apply List.map_congr_left
  intro x hx
  refine Nd.rowM_some p M x.2 x.1 xs (hv x.2 ?_)
  have := List.snd_lt_of_mem_zipIdx hx
  omega

/-- Position `j` is hidden from query `r` of batch entry `b` by boolean masks. -/
def Spec.hides (attn : Option (List (List Bool))) (pad : Option (Fin n → List Bool)) (r : Nat) (b : Fin n) (j : Nat) : Bool :=
  (pad.bind fun m => (m b)[j]?) == some true || ((attn.bind fun m => m[r]?).bind fun row => row[j]?) == some true

/-- What remains of a clip. -/
def Spec.seenRows {X : Type} (attn : Option (List (List Bool))) (pad : Option (Fin n → List Bool)) (r : Nat) (b : Fin n)
    (xs : List X) : List X := (xs.zipIdx.filter fun x => !hides attn pad r b x.2).map Prod.fst

/-- Boolean masks. -/
@[reducible] def Spec.boolMasks (attn : Option (List (List Bool))) (pad : Option (Fin n → List Bool)) : Nd.Masks F n H :=
  ⟨attn.map .bool2, pad⟩

theorem Attn.Nd.says_bool (attn : Option (List (List Bool))) (pad : Option (Fin n → List Bool)) (r : Nat) (b : Fin n)
    (h : Fin H) (j : Nat) :
    (boolMasks attn pad : Nd.Masks F n H).says r b h j = if hides attn pad r b j then none else some 0 := by
  unfold Nd.Masks.says hides
  by_cases hp : (pad.bind fun m => (m b)[j]?) = some true
  · simp [hp]
  · have e : ((pad.bind fun m => (m b)[j]?) == some true) = false := by simpa using hp
    rw [if_neg hp, e, Bool.false_or]
    cases attn with
    | none => rfl
    | some m =>
      show (((m.map fun row => row.map (Nd.hide (F := F)))[r]?).bind fun row => row[j]?).getD (some 0) = _
      rw [List.getElem?_map]
      cases hr : m[r]? with
      | none => simp [hr]
      | some row =>
        simp only [Option.map_some, Option.bind_some, hr, List.getElem?_map]
        cases hj : row[j]? with
        | none => simp
        | some c => cases c <;> simp [Nd.hide]

theorem Attn.Nd.hides_out (attn : Option (List (List Bool))) (pad : Option (Fin n → List Bool)) (S : Nat)
    (ha : ∀ m, attn = some m → ∀ row ∈ m, row.length = S) (hp : ∀ m, pad = some m → ∀ b, (m b).length = S) (r : Nat) (b : Fin n) :
    ∀ j, S ≤ j → hides attn pad r b j = false := by
  intro j hj
  unfold hides
  rw [Bool.or_eq_false_iff]
  constructor
  · cases hpad : pad with
    | none => rfl
    | some m =>
      simp only [Option.bind_some]
      rw [List.getElem?_eq_none (by rw [hp m hpad b]; exact hj)]
      rfl
  · cases hat : attn with
    | none => rfl
    | some m =>
      simp only [Option.bind_some]
      cases hr : m[r]? with
      | none => rfl
      | some row =>
        simp only [Option.bind_some]
        rw [List.getElem?_eq_none (by rw [ha m hat row (List.mem_of_getElem? hr)]; exact hj)]
        rfl

theorem Attn.Nd.attend_seen (p : Nd.Params F n H D kd vd) (attn : Option (List (List Bool))) (pad : Option (Fin n → List Bool))
    (xs : List (Nd.Frame F n (H * D) kd vd)) (ha : ∀ m, attn = some m → ∀ row ∈ m, row.length = xs.length)
    (hp : ∀ m, pad = some m → ∀ b, (m b).length = xs.length) (r : Nat) (x : Nd.Frame F n (H * D) kd vd) (b : Fin n) :
    Nd.attendMaskedAll p ((boolMasks attn pad : Nd.Masks F n H).says r) xs x b = Nd.attendAll p (seenRows attn pad r b xs) x b := by
  have hout := hides_out attn pad xs.length ha hp r b
  funext e
  unfold Nd.attendMaskedAll Nd.attendAll
  have h1 : ((Nd.pairsOf p b xs).zipIdx.map fun kv => (kv.1, fun h => (boolMasks attn pad : Nd.Masks F n H).says r b h kv.2)) =
      ((Nd.pairsOf p b xs).zipIdx.map fun kv => (kv.1, hides attn pad r b kv.2)).map
        fun kv => (kv.1, fun _ : Fin H => if kv.2 then none else some (0 : F)) := by
    rw [List.map_map]
    apply List.map_congr_left
    intro kv _
    simp only [Function.comp, Attn.Nd.says_bool]
  rw [h1, Mha.attendMasked_bool]
  congr 1
  unfold Nd.pairsOf
  rw [List.append_assoc, List.append_assoc]
  generalize p.biasKV.toList ++ (if p.zeroAttn then [((fun _ => 0 : Fin (H * D) → F), (fun _ => 0 : Fin (H * D) → F))] else []) = extra
  rw [List.zipIdx_append, List.map_append, List.filter_append, List.map_append]
  congr 1
  · unfold seenRows
    simp only [List.zipIdx_map, List.map_map, List.filter_map, Function.comp_def, Prod.map]
    rfl
  · have : ∀ (l : List ((Fin (H * D) → F) × (Fin (H * D) → F))) (k : Nat), xs.length ≤ k →
        ((l.zipIdx k).map fun kv => (kv.1, hides attn pad r b kv.2)).filter (fun kv => !kv.2) =
          (l.zipIdx k).map fun kv => (kv.1, false) := by
      intro l
      induction l with
      | nil => intro k _; rfl
      | cons a l ih =>
        intro k hk
        simp [List.zipIdx_cons, hout k hk, ih (k + 1) (by omega)]
    rw [this extra _ (by simp)]
    rw [List.map_map]
    exact List.zipIdx_map_fst _ _

/-- **C80**, boolean masks: the output of a query is the attention over the frames that it sees, as if the hidden ones were
not there. -/
theorem C80_visible (p : Nd.Params F n H D kd vd) (attn : Option (List (List Bool))) (pad : Option (Fin n → List Bool))
    (xs : List (Nd.Frame F n (H * D) kd vd)) (ha : ∀ m, attn = some m → m.length = xs.length ∧ ∀ row ∈ m, row.length = xs.length)
    (hp : ∀ m, pad = some m → ∀ b, (m b).length = xs.length)
    (hv : ∀ r < xs.length, ∀ b, p.biasKV.isSome ∨ p.zeroAttn = true ∨ ∃ j < xs.length, hides attn pad r b j = false) :
    Nd.forwardM p (boolMasks attn pad) xs =
      .ok (xs.zipIdx.map fun x => some fun b => Nd.attendAll p (seenRows attn pad x.2 b xs) x.1 b) := by
  rw [C80_forward p (boolMasks attn pad) xs]
  · congr 1
    apply List.map_congr_left
    intro x _
    congr 1
    funext b
    exact Attn.Nd.attend_seen p attn pad xs (fun m h => (ha m h).2) hp x.2 x.1 b
  · intro m hm i
    cases hat : attn with
    | none => rw [hat] at hm; cases hm
    | some m' =>
      rw [hat] at hm
      cases hm
      obtain ⟨h1, h2⟩ := ha m' hat
      refine ⟨by simpa [Nd.AttnMask.rows] using h1, ?_⟩
      intro row hrow
      obtain ⟨row', h3, rfl⟩ := List.mem_map.mp hrow
      simpa using h2 row' h3
  · exact hp
  · intro r hr b h
    have hbig : ∀ j, xs.length ≤ j → (boolMasks attn pad : Nd.Masks F n H).says r b h j ≠ none := by
      intro j hj
      rw [Attn.Nd.says_bool, Attn.Nd.hides_out attn pad xs.length (fun m h => (ha m h).2) hp r b j hj]
      simp
    rcases hv r hr b with h1 | h1 | ⟨j, hj, h1⟩
    · refine ⟨xs.length, ?_, hbig _ (Nat.le_refl _)⟩
      unfold Nd.pairCount
      obtain ⟨kv, hkv⟩ := Option.isSome_iff_exists.mp h1
      simp [hkv]
      omega
    · refine ⟨xs.length, ?_, hbig _ (Nat.le_refl _)⟩
      unfold Nd.pairCount
      simp [h1]
    · refine ⟨j, ?_, ?_⟩
      · unfold Nd.pairCount; omega
      · rw [Attn.Nd.says_bool, h1]; simp

/-- **C80**, hidden frames have no influence: exchanging the frames that a query does not see leaves its output alone. -/
theorem C80_hidden (p : Nd.Params F n H D kd vd) (attn : Option (List (List Bool))) (pad : Option (Fin n → List Bool))
    (xs ys : List (Nd.Frame F n (H * D) kd vd)) (hl : ys.length = xs.length)
    (ha : ∀ m, attn = some m → ∀ row ∈ m, row.length = xs.length) (hp : ∀ m, pad = some m → ∀ b, (m b).length = xs.length)
    (r : Nat) (x : Nd.Frame F n (H * D) kd vd) (hv : (boolMasks attn pad : Nd.Masks F n H).Sees r (Nd.pairCount p xs.length))
    (b : Fin n) (hb : ∀ j, hides attn pad r b j = false → xs[j]? = ys[j]?) :
    ∃ y z, Nd.rowM p (boolMasks attn pad) r x xs = some y ∧ Nd.rowM p (boolMasks attn pad) r x ys = some z ∧ y b = z b := by
  refine ⟨_, _, Nd.rowM_some p _ r x xs hv, Nd.rowM_some p _ r x ys (by rw [hl]; exact hv), ?_⟩
  rw [Attn.Nd.attend_seen p attn pad xs ha hp, Attn.Nd.attend_seen p attn pad ys (by rw [hl]; exact ha) (by rw [hl]; exact hp)]
  have key : ∀ (xs ys : List (Nd.Frame F n (H * D) kd vd)) (k : Nat), ys.length = xs.length →
      (∀ j, hides attn pad r b (k + j) = false → xs[j]? = ys[j]?) →
      ((xs.zipIdx k).filter fun x => !hides attn pad r b x.2).map Prod.fst =
        ((ys.zipIdx k).filter fun x => !hides attn pad r b x.2).map Prod.fst := by
    intro xs
    induction xs with
    | nil => intro ys k hl _; rw [List.length_eq_zero_iff.mp hl]
    | cons x xs ih =>
      intro ys k hl h
      cases ys with
      | nil => cases hl
      | cons y ys =>
        have ih := ih ys (k + 1) (by simpa using hl) (fun j hj => by
          have := h (j + 1) (by rw [← hj]; congr 1; omega)
          simpa using this)
        simp only [List.zipIdx_cons]
        cases hk : hides attn pad r b k with
        | true =>
          rw [List.filter_cons_of_neg (by simp [hk]), List.filter_cons_of_neg (by simp [hk])]
          exact ih
        | false =>
          rw [List.filter_cons_of_pos (by simp [hk]), List.filter_cons_of_pos (by simp [hk]), List.map_cons, List.map_cons, ih]
          have := h 0 (by simpa using hk)
          simp only [List.getElem?_cons_zero, Option.some.injEq] at this
          rw [this]
  have : seenRows attn pad r b xs = seenRows attn pad r b ys := key xs ys 0 hl (by simpa using hb)
  rw [this]

/-- **C80**, single-output `forward`: the mask has one row. -/
theorem C80_one_partial (p : Nd.Params F n H D kd vd) (M : Nd.Masks F n H) (qi : Int) (xs : List (Nd.Frame F n (H * D) kd vd))
    (x : Nd.Frame F n (H * D) kd vd) (hx : pyGet xs qi = .ok x) (ha : ∀ m, M.attn = some m → m.fits 1 xs.length)
    (hp : ∀ m, M.pad = some m → ∀ b, (m b).length = xs.length) (hv : M.Sees 0 (Nd.pairCount p xs.length)) :
    Nd.forwardOneM p M qi xs = .ok [some (Nd.attendMaskedAll p (M.says 0) xs x)] := by
  have hc : Nd.checkMasks M 1 xs.length = .ok () := by
    have h1 : Nd.checkPad M xs.length = .ok () := by
      unfold Nd.checkPad
      cases h : M.pad with
      | none => rfl
      | some m => simp only [if_pos (hp m h)]
    unfold Nd.checkMasks
    cases h : M.attn with
    | none => exact h1
    | some m => simp only [if_pos (ha m h)]; exact h1
  unfold Nd.forwardOneM
  rw [hx]
  simp only
  rw [hc, Nd.rowM_some p M 0 x xs hv]

/-- **C80 refuted** for single-output `forward`: a mask of the documented shape (queries × keys) is refused, unless the clip
has one frame. -/
theorem C80_one_refuted (p : Nd.Params F n H D kd vd) (M : Nd.Masks F n H) (m : Nd.AttnMask F n H) (hm : M.attn = some m)
    (qi : Int) (xs : List (Nd.Frame F n (H * D) kd vd)) (x : Nd.Frame F n (H * D) kd vd) (hx : pyGet xs qi = .ok x)
    (hS : xs.length ≠ 1) (hn : 0 < n * H) (hf : m.fits xs.length xs.length) :
    Nd.forwardOneM p M qi xs = .error .runtime := by
  have hc : Nd.checkMasks M 1 xs.length = .error .runtime := by
    unfold Nd.checkMasks
    rw [hm]
    simp only
    rw [if_neg]
    intro h
    have h1 := (h ⟨0, hn⟩).1
    have h2 := (hf ⟨0, hn⟩).1
    omega
  unfold Nd.forwardOneM
  rw [hx]
  simp only
  rw [hc]

/-- **C80**, masks of other shapes are refused. -/
theorem C80_refuses (p : Nd.Params F n H D kd vd) (M : Nd.Masks F n H) (xs : List (Nd.Frame F n (H * D) kd vd)) :
    (∀ m, M.attn = some m → ¬ m.fits xs.length xs.length → Nd.forwardM p M xs = .error .runtime) ∧
    (∀ m, M.pad = some m → (∃ b, (m b).length ≠ xs.length) → ∃ e, Nd.forwardM p M xs = .error e) := by
  constructor
  · intro m hm hf
    have hc : Nd.checkMasks M xs.length xs.length = .error .runtime := by
      unfold Nd.checkMasks; rw [hm]; simp only [if_neg hf]
    unfold Nd.forwardM
    rw [hc]
  · intro m hm ⟨b, hb⟩
    have hpad : Nd.checkPad M xs.length = .error .assertion := by
      unfold Nd.checkPad; rw [hm]; simp only
      rw [if_neg (fun h => hb (h b))]
    have hc : ∃ e, Nd.checkMasks M xs.length xs.length = .error e := by
      unfold Nd.checkMasks
      cases M.attn with
      | none => exact ⟨_, hpad⟩
      | some m' =>
        by_cases h : m'.fits xs.length xs.length
        · exact ⟨_, by simp only [if_pos h]; exact hpad⟩
        · exact ⟨.runtime, by simp only [if_neg h]⟩
    obtain ⟨e, he⟩ := hc
    refine ⟨e, ?_⟩
    unfold Nd.forwardM
    rw [he]

end

/-! ### Steps and examples -/

/-- **C80**, steps: whatever masks a step is called with, its outputs are those of attention among all frames of the window. -/
theorem C80_steps {F : Type} [Field F] {n H D : Nat} (p : Nd.Params F n H D (H * D) (H * D))
    (w : Nd.Mat F (3 * (H * D)) (H * D)) (hp : p.proj = .packed w) (hz : p.zeroAttn = false) (hb : p.biasKV = none)
    (hN : 2 ≤ p.N) {h : List (Nd.Frame F n (H * D) (H * D) (H * D))} {i : (Nd.retro p).Inst} (hi : Reach (Nd.retro p) h i)
    (x : Nd.Frame F n (H * D) (H * D) (H * D)) (M : Nd.Masks F n H) :
    ∃ i', Nd.stepM p M i true x = .ok (if h.length + 1 < p.N then none
      else some (textbook p w (lastN p.N (h ++ [x]))), i') := by
  obtain ⟨i', h1, _⟩ := C64_retroactive p w hp hz hb hN hi x
  exact ⟨i', h1⟩

namespace Attn.Nd

/-- One batch entry, one head of size 1, identity projections, all weights equal. -/
def exMaskP : Params ℚ 1 1 1 1 1 where
  N := 2
  proj := .packed fun _ _ => 1
  inBias := none
  biasKV := none
  zeroAttn := false
  outW := fun _ _ => 1
  outB := none
  sqrt := fun _ => 1
  ex := fun _ => 1

/-- A frame. -/
def exMaskX (q : ℚ) : Frame ℚ 1 1 1 1 := ⟨fun _ _ => q, fun _ _ => q, fun _ _ => q⟩

/-- The first frame is hidden from both queries. -/
def exMaskM : Masks ℚ 1 1 := boolMasks (some [[true, false], [true, false]]) none

/-- The module that is called with these masks. -/
def retroM {F : Type} [Field F] {n H D kd vd : Nat} (p : Params F n H D kd vd) (M : Masks F n H) :=
  { retro p with step := stepM p M }

end Attn.Nd

/-- **C80 refuted** for steps: the masks of a step are accepted and without effect, where `forward` hides the first frame. -/
theorem C80_steps_refuted :
    (Nd.forwardM Nd.exMaskP Nd.exMaskM [Nd.exMaskX 1, Nd.exMaskX 3]).map (fun ys => ys.map (Option.map fun y => y 0 0)) =
      .ok [some 3, some 3] ∧
    (callSteps (Nd.retroM Nd.exMaskP Nd.exMaskM) (Nd.retro Nd.exMaskP).init [Nd.exMaskX 1, Nd.exMaskX 3]).map
      (fun r => r.1.map (Option.map (List.map fun m => m 0 0))) = .ok [none, some [2, 2]] := by
  constructor <;> decide +kernel

/-- The hypotheses of the theorems for this mask. -/
example : Nd.exMaskM.Sees 1 (Nd.pairCount Nd.exMaskP 2) ∧ hides (n := 1) (some [[true, false], [true, false]]) none 1 0 0 = true ∧
    hides (n := 1) (some [[true, false], [true, false]]) none 1 0 1 = false := by
  refine ⟨fun b h => ⟨1, by decide, ?_⟩, rfl, rfl⟩
  rw [show Nd.exMaskM.says 1 b h 1 = some 0 from Nd.says_bool _ _ 1 b h 1]
  simp

/-- The hidden frame is exchanged. -/
example : ∃ y z, Nd.rowM Nd.exMaskP Nd.exMaskM 1 (Nd.exMaskX 3) [Nd.exMaskX 1, Nd.exMaskX 3] = some y ∧
    Nd.rowM Nd.exMaskP Nd.exMaskM 1 (Nd.exMaskX 3) [Nd.exMaskX 7, Nd.exMaskX 3] = some z ∧ y 0 = z 0 := by
  refine C80_hidden Nd.exMaskP (some [[true, false], [true, false]]) none [Nd.exMaskX 1, Nd.exMaskX 3]
    [Nd.exMaskX 7, Nd.exMaskX 3] rfl ?_ (fun _ h => by cases h) 1 (Nd.exMaskX 3) ?_ 0 ?_
  · intro m h row hr; cases h; revert row; decide
  · refine fun b h => ⟨1, by decide, ?_⟩
    rw [show (boolMasks (some [[true, false], [true, false]]) none : Nd.Masks ℚ 1 1).says 1 b h 1 = some 0 from Nd.says_bool _ _ 1 b h 1]
    simp
  · intro j hj
    match j with
    | 0 => cases hj
    | 1 => rfl
    | j + 2 => rfl

/-- A mask of the documented shape, for single-output `forward`. -/
example : Nd.forwardOneM Nd.exMaskP Nd.exMaskM (-1) [Nd.exMaskX 1, Nd.exMaskX 3] = .error .runtime :=
  C80_one_refuted _ _ _ rfl (-1) _ (Nd.exMaskX 3) rfl (by decide) (by decide) (by decide)

/-- A mask of the wrong shape, for `forward`. -/
example : Nd.forwardM Nd.exMaskP Nd.exMaskM [Nd.exMaskX 1, Nd.exMaskX 3, Nd.exMaskX 4] = .error .runtime :=
  (C80_refuses _ _ _).1 _ rfl (by decide)

end CoInf
