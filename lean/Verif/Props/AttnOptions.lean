/-
C64 and C65, continued: `forward` of the attention modules with all options, and clips of different length.
-/
import Verif.Props.AttnNd
import Verif.Props.AttnLayout

set_option autoImplicit false

namespace CoInf
open Spec Attn

namespace Spec.Mha
variable {F : Type} [Field F] {H D m kd vd : Nat}

/-- `w x + b` for a matrix of any shape. -/
def affine' (w : Fin m → Fin kd → F) (b : Fin m → F) (x : Fin kd → F) (e : Fin m) : F := ∑ j, w e j * x j + b e

/-- `exp (⟨q, k⟩ / √D)` in head `h`. -/
def scoreOf (ex : F → F) (sqrtD : F) (h : Fin H) (q k : Fin (H * D) → F) : F :=
  ex ((∑ d : Fin D, q (feat h d) * k (feat h d)) / sqrtD)

/-- Attention of the query `q` over the pairs `kvs` of a key and a value, head by head, then projected. -/
def attend (ex : F → F) (sqrtD : F) (wo : Fin (H * D) → Fin (H * D) → F) (bo : Fin (H * D) → F)
    (kvs : List ((Fin (H * D) → F) × (Fin (H * D) → F))) (q : Fin (H * D) → F) (e : Fin (H * D)) : F :=
  (∑ h : Fin H, ∑ d : Fin D, wo e (feat h d) *
    ((kvs.map fun kv => scoreOf ex sqrtD h q kv.1 * kv.2 (feat h d)).sum /
      (kvs.map fun kv => scoreOf ex sqrtD h q kv.1).sum)) + bo e

end Spec.Mha

namespace Attn.Nd
variable {F : Type} [Field F] {n H D E kd vd : Nat}

/-- The matrix that is applied to queries: the first third of the packed one. -/
def Proj.query : Proj F E kd vd → Mat F E E
  | .packed w => fun e => w ⟨e, by omega⟩
  | .separate wq _ _ => wq

/-- The matrix that is applied to keys. -/
def Proj.key : Proj F E kd vd → Mat F E kd
  | .packed w => fun e => w ⟨E + e, by omega⟩
  | .separate _ wk _ => wk

/-- The matrix that is applied to values. -/
def Proj.value : Proj F E kd vd → Mat F E vd
  | .packed w => fun e => w ⟨2 * E + e, by omega⟩
  | .separate _ _ wv => wv

variable (p : Params F n H D kd vd)

/-- The projected query of batch entry `b`. -/
def queryOf (b : Fin n) (x : Frame F n (H * D) kd vd) : Fin (H * D) → F :=
  Mha.affine' p.proj.query (fun e => biasOf p.inBias ⟨e, by omega⟩) (x.query b)

/-- The pairs of keys and values of batch entry `b`: those of the frames, then the learned pair of `add_bias_kv`, then
zeros for `add_zero_attn`. -/
def pairsOf (b : Fin n) (xs : List (Frame F n (H * D) kd vd)) : List ((Fin (H * D) → F) × (Fin (H * D) → F)) :=
  (xs.map fun x => (Mha.affine' p.proj.key (fun e => biasOf p.inBias ⟨H * D + e, by omega⟩) (x.key b),
    Mha.affine' p.proj.value (fun e => biasOf p.inBias ⟨2 * (H * D) + e, by omega⟩) (x.value b))) ++
  p.biasKV.toList ++ (if p.zeroAttn then [(fun _ => 0, fun _ => 0)] else [])

/-- Multi-head attention of the query of `x` over the clip `xs`, for batch entry `b`. -/
def attendAll (xs : List (Frame F n (H * D) kd vd)) (x : Frame F n (H * D) kd vd) : Mat F n (H * D) := fun b =>
  Mha.attend p.ex (p.sqrt D) p.outW (biasOf p.outB) (pairsOf p b xs) (queryOf p b x)

/-! ### The proof -/

theorem qkv_apply (P : Proj F E kd vd) (B : Option (Fin (3 * E) → F)) (x : Frame F n E kd vd) (b : Fin n) (e : Fin E) :
    (qkv P B x).1 b e = Mha.affine' P.query (fun e => biasOf B ⟨e, by omega⟩) (x.query b) e ∧
    (qkv P B x).2.1 b e = Mha.affine' P.key (fun e => biasOf B ⟨E + e, by omega⟩) (x.key b) e ∧
    (qkv P B x).2.2 b e = Mha.affine' P.value (fun e => biasOf B ⟨2 * E + e, by omega⟩) (x.value b) e := by
  cases P with
  | packed w =>
    refine ⟨?_, ?_, ?_⟩
    · show linear _ _ _ _ _ = _
      rw [linear_apply, chunk_bias]; simp only [chunk0]; rfl
    · show linear _ _ _ _ _ = _
      rw [linear_apply, chunk_bias]; simp only [chunk1]; rfl
    · show linear _ _ _ _ _ = _
      rw [linear_apply, chunk_bias]; simp only [chunk2]; rfl
  | separate wq wk wv =>
    refine ⟨?_, ?_, ?_⟩
    · show linear _ _ _ _ _ = _
      rw [linear_apply, chunk_bias]; simp only [chunk0]; rfl
    · show linear _ _ _ _ _ = _
      rw [linear_apply, chunk_bias]; simp only [chunk1]; rfl
    · show linear _ _ _ _ _ = _
      rw [linear_apply, chunk_bias]; simp only [chunk2]; rfl

/-- A row of attention over pairs. -/
theorem attnRow_pairs {X Y B E : Type} [Fintype E] (c : Attn.Cfg F X Y B E) (q : B → E → F)
    (l : List ((B → E → F) × (B → E → F))) (i : B) (e : E) :
    attnRow c q (l.map Prod.fst) (l.map Prod.snd) i e =
      (l.map fun kv => c.ex (dot q kv.1 i) * kv.2 i e).sum / (l.map fun kv => c.ex (dot q kv.1 i)).sum := by
  rw [← row_eq]
  simp only [avRow, dRow, mix]
  have hd : ∀ l : List (B → F), l.sum i = (l.map fun a => a i).sum := by
    intro l; induction l with
    | nil => rfl
    | cons a l ih => simp [ih]
  have hv : ∀ l : List (B → E → F), l.sum i e = (l.map fun a => a i e).sum := by
    intro l; induction l with
    | nil => rfl
    | cons a l ih => simp [ih]
  rw [hv, hd]
  congr 1
  · simp only [List.map_map, List.zipWith_map, List.map_zipWith, Function.comp]
    rw [List.zipWith_self]
    rfl
  · rw [List.map_map, List.map_map]
    rfl

/-- Keys and values with their heads, in pairs. -/
def pairs (xs : List (Frame F n (H * D) kd vd)) : List (Mat F (n * H) D × Mat F (n * H) D) :=
  (xs.map fun x => ((cfg p).k x, (cfg p).v x)) ++ (p.biasKV.map fun b => (heads fun _ => b.1, heads fun _ => b.2)).toList ++
    (if p.zeroAttn then [(fun _ _ => 0, fun _ _ => 0)] else [])

theorem pairs_fst (xs : List (Frame F n (H * D) kd vd)) :
    keys p xs = (pairs p xs).map Prod.fst ∧ values p xs = (pairs p xs).map Prod.snd := by
  unfold keys values pairs
  constructor
  · rw [List.map_append, List.map_append, List.map_map]
    congr 1
    · congr 1
      cases p.biasKV <;> rfl
    · by_cases h : p.zeroAttn = true
      · rw [if_pos h, if_pos h]; rfl
      · rw [if_neg h, if_neg h]; rfl
  · rw [List.map_append, List.map_append, List.map_map]
    congr 1
    · congr 1
      cases p.biasKV <;> rfl
    · by_cases h : p.zeroAttn = true
      · rw [if_pos h, if_pos h]; rfl
      · rw [if_neg h, if_neg h]; rfl

/-- The pairs of a head, read entry by entry. -/
theorem pairs_read (xs : List (Frame F n (H * D) kd vd)) (b : Fin n) (h : Fin H) {α : Type}
    (f : (Fin D → F) → (Fin D → F) → α) :
    (pairs p xs).map (fun kv => f (kv.1 (brow b h)) (kv.2 (brow b h))) =
      (pairsOf p b xs).map fun kv => f (fun d => kv.1 (Mha.feat h d)) (fun d => kv.2 (Mha.feat h d)) := by
  unfold pairs pairsOf
  simp only [List.map_append, List.map_map]
  congr 1
  · congr 1
    · apply List.map_congr_left
      intro x _
      show f _ _ = f _ _
      congr 1
      · funext d
        show heads (qkv p.proj p.inBias x).2.1 _ _ = _
        rw [heads_apply]
        exact (qkv_apply _ _ _ _ _).2.1
      · funext d
        show heads (qkv p.proj p.inBias x).2.2 _ _ = _
        rw [heads_apply]
        exact (qkv_apply _ _ _ _ _).2.2
    · cases p.biasKV with
      | none => rfl
      | some kv =>
        show [f _ _] = [f _ _]
        congr 2
        · funext d; exact heads_apply (fun _ : Fin n => kv.1) b h d
        · funext d; exact heads_apply (fun _ : Fin n => kv.2) b h d
  · by_cases hz : p.zeroAttn = true
    · rw [if_pos hz, if_pos hz]; rfl
    · rw [if_neg hz, if_neg hz]; rfl

theorem row_attend (x : Frame F n (H * D) kd vd) (xs : List (Frame F n (H * D) kd vd)) :
    row p x xs = attendAll p xs x := by
  funext b e
  unfold row attendAll Mha.attend
  show linear p.outW p.outB _ b e = _
  rw [linear_apply, sum_feat]
  congr 1
  apply Finset.sum_congr rfl
  intro h _
  apply Finset.sum_congr rfl
  intro d _
  rw [unheads_apply, (pairs_fst p xs).1, (pairs_fst p xs).2, attnRow_pairs]
  have hs : ∀ k : Mat F (n * H) D, (cfg p).ex (dot (sq (cfg p) x) k (brow b h)) =
      p.ex ((∑ d : Fin D, queryOf p b x (Mha.feat h d) * k (brow b h) d) / p.sqrt D) := by
    intro k
    show p.ex _ = _
    congr 1
    unfold dot sq
    rw [Finset.sum_div]
    apply Finset.sum_congr rfl
    intro d _
    have : (cfg p).q x (brow b h) d = queryOf p b x (Mha.feat h d) := by
      show heads (qkv p.proj p.inBias x).1 _ _ = _
      rw [heads_apply]
      exact (qkv_apply _ _ _ _ _).1
    rw [this]
    show _ * (1 / p.sqrt D) * _ = _
    ring
  simp only [hs]
  have h1 := pairs_read p xs b h (fun k v => p.ex ((∑ d : Fin D, queryOf p b x (Mha.feat h d) * k d) / p.sqrt D) * v d)
  have h2 := pairs_read p xs b h (fun k _ => p.ex ((∑ d : Fin D, queryOf p b x (Mha.feat h d) * k d) / p.sqrt D))
  rw [h1, h2]
  rfl

end Attn.Nd

section
variable {F : Type} [Field F] {n H D kd vd : Nat}

/-- **C64**, `forward` with all options (packed or separate projections, biases, `add_bias_kv`, `add_zero_attn`): textbook
multi-head attention, where the learned key-value pair and the zero pair follow those of the clip.  Single-output
attention returns the row of its query alone if `single_output_forward`. -/
theorem C64_forward_options (p : Nd.Params F n H D kd vd) (xs : List (Nd.Frame F n (H * D) kd vd)) (qi : Int) :
    (∀ i, (Nd.retro p).fwd i xs = .ok ([xs.map (Nd.attendAll p xs)], i)) ∧
    (∀ i, (Nd.single p qi false).fwd i xs = .ok (xs.map (Nd.attendAll p xs), i)) ∧
    (∀ i x, pyGet xs qi = .ok x → (Nd.single p qi true).fwd i xs = .ok ([Nd.attendAll p xs x], i)) ∧
    (∀ i e, pyGet xs qi = .error e → (Nd.single p qi true).fwd i xs = .error e) := by
  refine ⟨fun i => ?_, fun i => ?_, fun i x hx => ?_, fun i e he => ?_⟩
  · show Except.ok ([xs.map fun x => Nd.row p x xs], i) = _
    simp only [Nd.row_attend]
  · show Except.ok (xs.map fun x => Nd.row p x xs, i) = _
    simp only [Nd.row_attend]
  · show Except.map _ (Except.map _ (pyGet xs qi)) = _
    rw [hx]
    show Except.ok ([Nd.row p x xs], i) = _
    rw [Nd.row_attend]
  · show Except.map _ (Except.map _ (pyGet xs qi)) = _
    rw [he]
    rfl

end

namespace Layout
variable {F S : Type} [Zero F]

/-- **C65**: `forward_steps` refuses a query, a key and a value clip of different length. -/
theorem C65_lengths (l : Lay) (hl : l.batchFirst = true ∨ l.embedSecond = false) {N Tq Tk Tv E : Nat} (core : Core F S)
    (q k v : Tensor F) (hq : q.shape = l.clip N Tq E) (hk : k.shape = l.clip N Tk E) (hv : v.shape = l.clip N Tv E)
    (h : ¬ (Tq = Tk ∧ Tq = Tv)) (s : S) : forwardSteps l core s q k v = .error .assertion := by
  obtain ⟨gq, q1, _⟩ := stepsIn_ok l hl q hq
  obtain ⟨gk, k1, _⟩ := stepsIn_ok l hl k hk
  obtain ⟨gv, v1, _⟩ := stepsIn_ok l hl v hv
  simp only [forwardSteps, q1, k1, v1, Layout.ok_bind, Tensor.of3_shape, List.headD_cons]
  exact if_neg h

end Layout

/-! ### Examples -/

/-- Two heads of one feature with separate projections of keys of three features, with a learned pair and a zero pair. -/
def exOpt : Nd.Params Rat 1 2 1 3 2 where
  N := 2
  proj := .separate (fun i j => if i = j then 1 else 0) (fun i j => i + j) (fun i j => 1 + i * j)
  inBias := some fun i => i
  biasKV := some (fun i => i, fun i => 2 * i)
  zeroAttn := true
  outW := fun i j => if i = j then 1 else 0
  outB := none
  sqrt := fun _ => 2
  ex := fun x => 1 + x * x

example : (Nd.pairsOf exOpt 0 [⟨fun _ _ => 1, fun _ _ => 1, fun _ _ => 1⟩]).length = 3 ∧
    ((Nd.retro exOpt).fwd none [⟨fun _ _ => 1, fun _ _ => 1, fun _ _ => 1⟩]).isOk ∧
    (Nd.check exOpt).isOk = false := ⟨rfl, rfl, rfl⟩

/-- Clips of three queries and two keys are refused. -/
example (core : Layout.Core Int Unit) :
    Layout.forwardSteps ⟨.single, true, false⟩ core () (Tensor.of3 1 3 1 fun _ _ _ => 1) (Tensor.of3 1 2 1 fun _ _ _ => 1)
      (Tensor.of3 1 2 1 fun _ _ _ => 1) = .error .assertion :=
  Layout.C65_lengths _ (.inl rfl) (Tq := 3) (Tk := 2) (Tv := 2) core _ _ _ rfl rfl rfl (by decide) ()

end CoInf
