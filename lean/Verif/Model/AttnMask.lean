/-
Masks of the attention modules: `forward(query, key, value, key_padding_mask, need_weights, attn_mask)` of
/repo/continual/multihead_attention/mha_base.py:302-372 and single_output_mha.py:268-300, and the steps, which take masks as
superfluous arguments (mha_base.py:430-478, `*args, **kwargs`).

The model is that of `Verif.Model.AttnNd` with masked scores.  Masks are read by torch's `multi_head_attention_forward`.
Self-attention of one clip: queries, keys and values are those of the same frames.
-/
import Verif.Model.AttnNd

set_option autoImplicit false

namespace CoInf.Attn
variable {F X Y B E : Type} [Field F] [Fintype E] (c : Cfg F X Y B E)

/-- `exp` of a score, where `none` is `-inf`. -/
def exm : Option F → F
  | none => 0
  | some a => c.ex a

/-- `F.softmax` of scores some of which are `-inf` (but not all of them, see `rowM`). -/
def softmaxM (as : List (B → Option F)) : List (B → F) :=
  as.map fun a => fun i => exm c (a i) / (as.map fun a' => exm c (a' i)).sum

/-- One row of `softmax(Q K^T + mask) V`. -/
def attnRowM (q : B → E → F) (ks vs : List (B → E → F)) (ms : List (B → Option F)) : B → E → F :=
  mix (softmaxM c (List.zipWith (fun k m => fun i => (m i).map fun m => dot q k i + m) ks ms)) vs

namespace Nd
variable {n H D kd vd : Nat}

/-- `attn_mask`: of booleans (`True` is hidden) or of numbers (`none` is `-inf`), for all of the batch or for each batch entry
and head. -/
inductive AttnMask (F : Type) (n H : Nat)
  | bool2 (m : List (List Bool))
  | float2 (m : List (List (Option F)))
  | bool3 (m : Fin (n * H) → List (List Bool))
  | float3 (m : Fin (n * H) → List (List (Option F)))

/-- A boolean as a number: `masked_fill(mask, float("-inf"))` of zeros. -/
def hide (b : Bool) : Option F := if b then none else some 0

/-- All masks as numbers per batch entry and head (2D masks are broadcast). -/
def AttnMask.rows : AttnMask F n H → Fin (n * H) → List (List (Option F))
  | .bool2 m, _ => m.map (·.map hide)
  | .float2 m, _ => m
  | .bool3 m, i => (m i).map (·.map hide)
  | .float3 m, i => m i

/-- The arguments `attn_mask` and `key_padding_mask` (a row of booleans for each batch entry). -/
structure Masks (F : Type) (n H : Nat) where
  attn : Option (AttnMask F n H)
  pad : Option (Fin n → List Bool)

/-- Shape check of `attn_mask`. -/
def AttnMask.fits (m : AttnMask F n H) (L S : Nat) : Prop := ∀ i, (m.rows i).length = L ∧ ∀ r ∈ m.rows i, r.length = S

instance (m : AttnMask F n H) (L S : Nat) : Decidable (m.fits L S) := by unfold AttnMask.fits; infer_instance

/-- The shape check of `key_padding_mask` for `S` keys. -/
def checkPad (M : Masks F n H) (S : Nat) : Except Err Unit :=
  match M.pad with
  | some m => if ∀ b, (m b).length = S then .ok () else .error .assertion
  | none => .ok ()

/-- The shape checks of torch for `L` queries and `S` keys: `attn_mask` (`RuntimeError`), then `key_padding_mask`
(`assert`). -/
def checkMasks (M : Masks F n H) (L S : Nat) : Except Err Unit :=
  match M.attn with
  | some m => if m.fits L S then checkPad M S else .error .runtime
  | none => checkPad M S

/-- The entry of the merged mask for query `r` and key `j` of batch entry and head `i`: `attn_mask` with zeros appended for
`bias_k` and the zero key, `-inf` where `key_padding_mask` (of batch entry `i / H`) is set. -/
def maskAt (M : Masks F n H) (i : Fin (n * H)) (r j : Nat) : Option F :=
  match (match M.pad with
    | some m => (m ⟨i / H, Nat.div_lt_of_lt_mul (Nat.mul_comm n H ▸ i.isLt)⟩)[j]?
    | none => none) with
  | some true => none
  | _ =>
    match M.attn with
    | some m => match (m.rows i)[r]? with
      | some row => row[j]?.getD (some 0)
      | none => some 0
    | none => some 0

variable (p : Params F n H D kd vd)

/-- The row of query `x` at position `r`: `none` if all scores of a batch entry and head are `-inf` (then torch returns
NaN). -/
def rowM (M : Masks F n H) (r : Nat) (x : Frame F n (H * D) kd vd) (xs : List (Frame F n (H * D) kd vd)) :
    Option (Mat F n (H * D)) :=
  let ms : List (Fin (n * H) → Option F) := (List.range (keys p xs).length).map fun j i => maskAt M i r j
  if ∃ i, ∀ m ∈ ms, m i = none then none
  else some ((cfg p).out (attnRowM (cfg p) (sq (cfg p) x) (keys p xs) (values p xs) ms))

/-- `forward` for all queries: `RetroactiveMultiheadAttention`, and `SingleOutputMultiheadAttention` without
`single_output_forward`. -/
def forwardM (M : Masks F n H) (xs : List (Frame F n (H * D) kd vd)) : Except Err (List (Option (Mat F n (H * D)))) :=
  match checkMasks M xs.length xs.length with
  | .error e => .error e
  | .ok _ => .ok (xs.zipIdx.map fun x => rowM p M x.2 x.1 xs)

/-- `forward` of `SingleOutputMultiheadAttention` with `single_output_forward`: the query is selected first
(single_output_mha.py:287-298), then there is one query, at position 0. -/
def forwardOneM (M : Masks F n H) (queryIndex : Int) (xs : List (Frame F n (H * D) kd vd)) :
    Except Err (List (Option (Mat F n (H * D)))) :=
  match pyGet xs queryIndex with
  | .error e => .error e
  | .ok x => match checkMasks M 1 xs.length with
    | .error e => .error e
    | .ok _ => .ok [rowM p M 0 x xs]

/-- `forward_step(query, key, value, update_state, attn_mask=...)` and the same with `key_padding_mask`: mha_base.py:430-478.
The keyword arguments are accepted and not used. -/
def stepM (_ : Masks F n H) (i : (retro p).Inst) (upd : Bool) (x : Frame F n (H * D) kd vd) := (retro p).step i upd x

end Nd
end CoInf.Attn
