/-
Multi-head attention with the batch axis, the projections and the heads written out:
/repo/continual/multihead_attention/mha_base.py, retroactive_mha.py and single_output_mha.py.

Simplifications
* Exact arithmetic over a field, `exp` and `sqrt` arbitrary functions, as in `Verif.Model.Attention`.
* A frame is the triple of the query, key and value matrices of a step (batch × features); a clip is a list of frames,
  whatever the order of the axes (`batch_first`, `embed_dim_second`: see `Verif.Model.AttnLayout`).
* `embed_dim` is `H * D`: both torch's constructor and mha_base.py:121-123 reject other embedding dimensions.
* Masks (which the steps never receive) and dropout are not modelled.
-/
import Verif.Model.Attention
import Mathlib.Data.Fintype.BigOperators

set_option autoImplicit false

namespace CoInf.Attn.Nd

/-- A matrix. -/
abbrev Mat (F : Type) (n m : Nat) := Fin n → Fin m → F

variable {F : Type} [Field F] {n H D E kd vd : Nat}

/-- `F.linear(x, w, b)` = `x wᵀ + b`. -/
def linear {o i : Nat} (w : Mat F o i) (b : Option (Fin o → F)) (x : Mat F n i) : Mat F n o :=
  fun r c => (∑ j, x r j * w c j) + (match b with | some b => b c | none => 0)

/-- Part `p` of `w.chunk(3)`. -/
def chunk3 {α : Type} (w : Fin (3 * E) → α) (p : Fin 3) : Fin E → α :=
  fun i => w ⟨p * E + i, by
    have := Nat.mul_le_mul_right E (Nat.succ_le_of_lt p.isLt)
    rw [Nat.succ_mul] at this
    omega⟩

/-- `x.view(-1, n * H, D)`, of one frame: mha_base.py:177-182.  Row-major: entry `(b, d)` is at position `b * D + d`. -/
def heads (x : Mat F n (H * D)) : Mat F (n * H) D := fun b d =>
  have hb : b.val * D + d.val < n * (H * D) := by
    have := Nat.mul_le_mul_right D (Nat.succ_le_of_lt b.isLt)
    rw [Nat.succ_mul] at this
    rw [← Nat.mul_assoc]
    omega
  x ⟨(b * D + d) / (H * D), Nat.div_lt_of_lt_mul (Nat.mul_comm n _ ▸ hb)⟩
    ⟨(b * D + d) % (H * D), Nat.mod_lt _ (Nat.pos_of_ne_zero fun h => by rw [h] at hb; omega)⟩

/-- `y.transpose(0, 1).contiguous().view(-1, n, H * D)`, of one frame: mha_base.py:220. -/
def unheads (y : Mat F (n * H) D) : Mat F n (H * D) := fun b e =>
  have hb : b.val * (H * D) + e.val < (n * H) * D := by
    have := Nat.mul_le_mul_right (H * D) (Nat.succ_le_of_lt b.isLt)
    rw [Nat.succ_mul] at this
    rw [Nat.mul_assoc]
    omega
  y ⟨(b * (H * D) + e) / D, Nat.div_lt_of_lt_mul (Nat.mul_comm _ D ▸ hb)⟩
    ⟨(b * (H * D) + e) % D, Nat.mod_lt _ (Nat.pos_of_ne_zero fun h => by have := e.isLt; simp [h] at this)⟩

/-- The weights of the in-projection.  torch's constructor makes one packed matrix if `kdim = vdim = embed_dim`
(`_qkv_same_embed_dim`), three matrices otherwise (then `in_proj_weight` is `None`). -/
inductive Proj (F : Type) (E : Nat) : Nat → Nat → Type
  | packed (w : Mat F (3 * E) E) : Proj F E E E
  | separate {kd vd : Nat} (wq : Mat F E E) (wk : Mat F E kd) (wv : Mat F E vd) : Proj F E kd vd

/-- `_qkv_same_embed_dim`. -/
def Proj.isPacked : Proj F E kd vd → Bool
  | .packed _ => true
  | .separate _ _ _ => false

/-- Query, key and value inputs of a step. -/
structure Frame (F : Type) (n E kd vd : Nat) where
  query : Mat F n E
  key : Mat F n kd
  value : Mat F n vd

/-- The in-projection: torch's `_in_projection_packed` (last branch; the others are `packedSelf` and `packedKV`) and
`_in_projection`, called in mha_base.py:135-164. -/
def qkv (p : Proj F E kd vd) (b : Option (Fin (3 * E) → F)) (x : Frame F n E kd vd) :
    Mat F n E × Mat F n E × Mat F n E :=
  match p, x with
  | .packed w, x =>
    (linear (chunk3 w 0) (b.map (chunk3 · 0)) x.query, linear (chunk3 w 1) (b.map (chunk3 · 1)) x.key,
      linear (chunk3 w 2) (b.map (chunk3 · 2)) x.value)
  | .separate wq wk wv, x =>
    (linear wq (b.map (chunk3 · 0)) x.query, linear wk (b.map (chunk3 · 1)) x.key,
      linear wv (b.map (chunk3 · 2)) x.value)

/-- `_in_projection_packed` if query, key and value are the same tensor: `linear(q, w, b).chunk(3, dim=-1)`. -/
def packedSelf (w : Mat F (3 * E) E) (b : Option (Fin (3 * E) → F)) (x : Mat F n E) :
    Mat F n E × Mat F n E × Mat F n E :=
  let y := linear w b x
  (fun r => chunk3 (y r) 0, fun r => chunk3 (y r) 1, fun r => chunk3 (y r) 2)

/-- `_in_projection_packed` if only key and value are the same tensor: `w.split([E, E * 2])`, and
`linear(k, w_kv, b_kv).chunk(2, dim=-1)`. -/
def packedKV (w : Mat F (3 * E) E) (b : Option (Fin (3 * E) → F)) (q k : Mat F n E) :
    Mat F n E × Mat F n E × Mat F n E :=
  let take : {α : Type} → (Fin (3 * E) → α) → Fin E → α := fun w i => w ⟨i, by omega⟩
  let rest : {α : Type} → (Fin (3 * E) → α) → Fin (2 * E) → α := fun w i => w ⟨E + i, by omega⟩
  let kv := linear (rest w) (b.map rest) k
  (linear (take w) (b.map take) q, fun r i => kv r ⟨i, by omega⟩, fun r i => kv r ⟨E + i, by omega⟩)

/-- Parameters of a `MultiheadAttention` module: mha_base.py:251-288.  `biasKV` is the pair `bias_k`, `bias_v` of
`add_bias_kv`. -/
structure Params (F : Type) (n H D kd vd : Nat) where
  N : Nat
  proj : Proj F (H * D) kd vd
  inBias : Option (Fin (3 * (H * D)) → F)
  biasKV : Option ((Fin (H * D) → F) × (Fin (H * D) → F))
  zeroAttn : Bool
  outW : Mat F (H * D) (H * D)
  outB : Option (Fin (H * D) → F)
  sqrt : Nat → F
  ex : F → F

variable (p : Params F n H D kd vd)

/-- Projections and reshapes around the attention of `Verif.Model.Attention`: mha_base.py:135-164, 177-182, 220-221.  The
scale is that of retroactive_mha.py:86, single_output_mha.py:87, where `E` is the size of a head. -/
def cfg : Cfg F (Frame F n (H * D) kd vd) (Mat F n (H * D)) (Fin (n * H)) (Fin D) where
  N := p.N
  q := fun x => heads (qkv p.proj p.inBias x).1
  k := fun x => heads (qkv p.proj p.inBias x).2.1
  v := fun x => heads (qkv p.proj p.inBias x).2.2
  scale := 1 / p.sqrt D
  ex := p.ex
  out := fun y => linear p.outW p.outB (unheads y)

/-- What raises in `multi_head_attention_forward_step`, whatever the input: mha_base.py:97 (`add_zero_attn`), 130-133 (key
and value of different sizes), 137-139 with `in_proj_weight = None` (`use_separate_proj_weight` and the three matrices are
never passed, 404-418), and the attention step itself if the key bias has been appended to the key of the step (166-171):
its key then has an axis too many (retroactive_mha.py:98, single_output_mha.py:94-95). -/
def check : Except Err Unit :=
  if p.zeroAttn then .error .assertion
  else if p.proj.isPacked then (if p.biasKV.isSome then .error .runtime else .ok ())
  else if kd = vd then .error .attribute
  else .error .assertion

/-- Keys and values of a clip in torch's `multi_head_attention_forward`: with `bias_k`, `bias_v` and a zero entry appended
if the module has them. -/
def keys (xs : List (Frame F n (H * D) kd vd)) : List (Mat F (n * H) D) :=
  xs.map (cfg p).k ++ (p.biasKV.map fun b => heads fun _ => b.1).toList ++ (if p.zeroAttn then [fun _ _ => 0] else [])

/-- See `keys`. -/
def values (xs : List (Frame F n (H * D) kd vd)) : List (Mat F (n * H) D) :=
  xs.map (cfg p).v ++ (p.biasKV.map fun b => heads fun _ => b.2).toList ++ (if p.zeroAttn then [fun _ _ => 0] else [])

/-- One row of torch's `multi_head_attention_forward`. -/
def row (x : Frame F n (H * D) kd vd) (xs : List (Frame F n (H * D) kd vd)) : Mat F n (H * D) :=
  (cfg p).out (attnRow (cfg p) (sq (cfg p) x) (keys p xs) (values p xs))

/-- `RetroactiveMultiheadAttention`. -/
@[reducible] def retroBase : Base (Frame F n (H * D) kd vd) (List (Mat F n (H * D))) where
  N := p.N
  S := RetroSt F (Fin (n * H)) (Fin D)
  dflt := retroDefault (cfg p)
  sdpa := fun s x => match check p with
    | .error e => .error e
    | .ok _ => retroSdpa (cfg p) s x
  fwd := fun xs => .ok [xs.map fun x => row p x xs]
  delay := (p.N : Int) - 1

/-- The module. -/
@[reducible] def retro : CoMod (.stream (Frame F n (H * D) kd vd)) (.stream (List (Mat F n (H * D)))) := (retroBase p).mod

/-- `SingleOutputMultiheadAttention`; `forward`: single_output_mha.py:268-300. -/
@[reducible] def singleBase (queryIndex : Int) (singleForward : Bool) :
    Base (Frame F n (H * D) kd vd) (Mat F n (H * D)) where
  N := p.N
  S := SingleSt F (Fin (n * H)) (Fin D)
  dflt := singleDefault (cfg p) queryIndex
  sdpa := fun s x => match check p with
    | .error e => .error e
    | .ok _ => singleSdpa (cfg p) s x
  fwd := fun xs => if singleForward then (pyGet xs queryIndex).map fun x => [row p x xs]
    else .ok (xs.map fun x => row p x xs)
  delay := nq p.N queryIndex

/-- The module. -/
@[reducible] def single (queryIndex : Int) (singleForward : Bool) :
    CoMod (.stream (Frame F n (H * D) kd vd)) (.stream (Mat F n (H * D))) := (singleBase p queryIndex singleForward).mod

end CoInf.Attn.Nd
