/-
`TransformerEncoder.build_from` and the choice of the activation in `TransformerEncoderLayerFactory`:
/repo/continual/transformer.py:472-476, 577-636.

Simplifications
* The layers of the torch encoder have the same hyper-parameters (`nn.TransformerEncoder` clones one layer), an
  activation without parameters, and biases; the final norm is a layer norm or absent.
* Tensors are values of an arbitrary type `V`; `Arch` says how the modules compute with them.
* A Python string is the list of its characters.
-/
import Verif.Model.Transformer

set_option autoImplicit false

namespace CoInf.EncoderBuild
open Transformer

abbrev Str := List Char

/-! ### String functions of Python -/

/-- `s.replace(pat, rep)` for a non-empty `pat`: occurrences from left to right that do not overlap.  `skip` characters
belong to the last occurrence. -/
def replaceGo (pat rep : Str) : Nat → Str → Str
  | _, [] => []
  | skip + 1, _ :: cs => replaceGo pat rep skip cs
  | 0, c :: cs =>
    if pat.isPrefixOf (c :: cs) then rep ++ replaceGo pat rep (pat.length - 1) cs else c :: replaceGo pat rep 0 cs

def replace (s : Str) (pat rep : String) : Str := replaceGo pat.toList rep.toList 0 s

/-- `a <= b`: lexicographic by code points. -/
def le : Str → Str → Bool
  | [], _ => true
  | _ :: _, [] => false
  | a :: as, b :: bs => a.toNat < b.toNat || (a.toNat == b.toNat && le as bs)

/-- Insertion before all elements that are not smaller. -/
def insertBy {A : Type} (key : A → Str) (a : A) : List A → List A
  | [] => [a]
  | b :: l => if le (key a) (key b) then a :: b :: l else b :: insertBy key a l

/-- `sorted(l, key=key)`, which is stable. -/
def sorted {A : Type} (key : A → Str) (l : List A) : List A := l.foldr (insertBy key) []

/-- `s.split(".")`. -/
def splitDots : Str → List Str
  | [] => [[]]
  | c :: cs =>
    if c = '.' then [] :: splitDots cs
    else match splitDots cs with
      | [] => [[c]]
      | p :: ps => (c :: p) :: ps

/-- `s.split(".")[-2:]`.  (`".".join` is injective on such lists.) -/
def lastTwo (s : Str) : List Str := (splitDots s).drop ((splitDots s).length - 2)

/-! ### Names of the parameters of the continual encoder -/

/-- Parameters of a module, tagged with what they are. -/
abbrev Named (R : Type) := List (R × Str)

/-- The parameters of a member called `name`, seen from its parent (`nn.Module.state_dict`). -/
def sub {R : Type} (name : String) (ps : Named R) : Named R := ps.map fun p => (p.1, name.toList ++ '.' :: p.2)

/-- `weight` and `bias` of `nn.Linear`, `nn.LayerNorm`. -/
def wb {R : Type} (w b : R) : Named R := [(w, "weight".toList), (b, "bias".toList)]

/-- Parameters of an encoder layer; the names of the roles are those of the local variables and members in
transformer.py:219-291. -/
inductive Slot where
  | in_proj_weight | in_proj_bias | out_proj_weight | out_proj_bias
  | linear1_weight | linear1_bias | linear2_weight | linear2_bias
  | norm1_weight | norm1_bias | norm2_weight | norm2_bias
  deriving DecidableEq, Repr

/-- `nn.MultiheadAttention` (the buffers are not persistent: single_output_mha.py:231-234, retroactive_mha.py:250-255). -/
def mha : Named Slot :=
  [(.in_proj_weight, "in_proj_weight".toList), (.in_proj_bias, "in_proj_bias".toList)] ++
  sub "out_proj" (wb .out_proj_weight .out_proj_bias)

/-- `ff`: transformer.py:238-263, 372-382. -/
def ff : Named Slot := sub "linear1" (wb .linear1_weight .linear1_bias) ++ sub "linear2" (wb .linear2_weight .linear2_bias)

/-- `SingleOutputTransformerEncoderLayer`: transformer.py:265-293; `Lambda` keeps its module as `fn` (closure.py), the
second member of `Residual` is called `1` (container.py:974-979). -/
def single : Named Slot :=
  sub "0" (sub "self_attn" mha) ++
  sub "1" (sub "norm1" (sub "fn" (wb .norm1_weight .norm1_bias)) ++ sub "_ff_block" (sub "1" ff) ++
    sub "norm2" (sub "fn" (wb .norm2_weight .norm2_bias)))

/-- `RetroactiveTransformerEncoderLayer`: transformer.py:384-406; `NaiveResidual` keeps its module as `fn` (139-141). -/
def retro : Named Slot :=
  sub "0" (sub "self_attn" mha) ++
  sub "1" (sub "fn" (sub "norm1" (wb .norm1_weight .norm1_bias) ++ sub "_ff_block" (sub "fn" ff) ++
    sub "norm2" (wb .norm2_weight .norm2_bias)))

/-- A parameter of the encoder: of a layer, or of the final norm. -/
inductive Place where
  | layer (i : Nat) (s : Slot)
  | finalWeight
  | finalBias
  deriving DecidableEq, Repr

def tag (i : Nat) (ps : Named Slot) : Named Place := ps.map fun p => (.layer i p.1, p.2)

/-- The parameters of `TransformerEncoder` with one or two layers: transformer.py:542-575. -/
def net (n : Nat) (norm : Bool) : Named Place :=
  sub "layers" (if n = 1 then sub "0" (tag 0 single) else sub "0" (tag 0 retro) ++ sub "1" (sub "fn" (tag 1 single))) ++
  if norm then sub "norm" (sub "fn" (wb .finalWeight .finalBias)) else []

/-! ### Transfer of the weights -/

/-- transformer.py:608-610 -/
def normalise (k : Str) : Str := replace (replace (replace k "fn." "") "_ff_block." "") ".0.self_attn" ".self_attn"

variable {V : Type}

/-- The dictionary comprehension of transformer.py:632: `net_keys[key_inds[i]]: weights[i]`; raises if there are too few
weights. -/
def pair (netKeys : List Str) : List (Str × Nat) → List (Str × V) → Except Err (List (Str × V))
  | [], _ => .ok []
  | _ :: _, [] => .error .index
  | m :: ms, r :: rs =>
    match pair netKeys ms rs with
    | .error e => .error e
    | .ok l => .ok ((netKeys.getD m.2 [], r.2) :: l)

/-- transformer.py:600-634 -/
def transfer (netKeys : List Str) (sd : List (Str × V)) : Except Err (List (Str × V)) :=
  let ms := sorted Prod.fst (netKeys.zipIdx.map fun k => (normalise k.1, k.2))
  let rs := sorted Prod.fst sd
  if (ms.zip rs).all fun p => lastTwo p.1.1 == lastTwo p.2.1 then pair netKeys ms rs
  else .error .assertion

/-! ### The encoder -/

variable {F X B E H : Type} [Field F] [Fintype E] [Add X] [Zero X]

/-- How the modules compute with their parameters, for the hyper-parameters at hand. -/
structure Arch (V F X B E H : Type) where
  attn : V → V → V → V → Attn.Cfg F X X B E
  linear1 : V → V → X → H
  linear2 : V → V → H → X
  norm : V → V → X → X

/-- A layer with the parameters `w`, attention over `N` tokens. -/
def mkLayer (A : Arch V F X B E H) (act : H → H) (N : Nat) (w : Slot → V) : Layer F X B E where
  attn := { A.attn (w .in_proj_weight) (w .in_proj_bias) (w .out_proj_weight) (w .out_proj_bias) with N := N }
  norm1 := A.norm (w .norm1_weight) (w .norm1_bias)
  norm2 := A.norm (w .norm2_weight) (w .norm2_bias)
  ff := fun x => A.linear2 (w .linear2_weight) (w .linear2_bias) (act (A.linear1 (w .linear1_weight) (w .linear1_bias) x))

/-- What a callable is for the automatic conversion (convert.py:227-246): a function defined in Python (`types.FunctionType`,
such as `nn.functional.relu`), a function of torch that is written in C++ (such as `torch.tanh`, and `nn.functional.gelu` since
torch 1.12), an object of a class in `NAIVE_MAPPING` (such as `nn.GELU()`), or anything else that can be called, for instance
a `functools.partial` or a module of a class of one's own. -/
inductive Callable where
  | python | builtin | listed | other
  deriving DecidableEq, Repr

/-- `Sequential.add_module` of `ff` in the single-output layer (transformer.py:238-263, container.py:135-142): what is not
continual is converted; convert.py:237 asserts that the type is registered, which `FunctionType` is (convert.py:275). -/
def Callable.adopted : Callable → Except Err Unit
  | .python => .ok ()
  | .listed => .ok ()
  | .builtin => .error .assertion
  | .other => .error .assertion

/-- The argument `activation` of the factory. -/
inductive Activation (H : Type) where
  | fn (k : Callable) (f : H → H)
  | name (s : String)

/-- transformer.py:472-476; `relu` is `nn.functional.relu`, the functions of torch are parameters here.  Another string
reaches `continual` in single-output layers and `Lambda` in retroactive ones, which both assert that it is something else. -/
def resolve (relu : H → H) : Activation H → Except Err (Callable × (H → H))
  | .fn k f => .ok (k, f)
  | .name "relu" => .ok (.python, relu)
  | .name "gelu" => .ok (.python, relu)
  | .name _ => .error .assertion

/-- `TransformerEncoder(TransformerEncoderLayerFactory(...), num_layers)` with parameters `get`.  Encoders contain a
single-output layer for all numbers of layers (transformer.py:548-562), which converts the activation; the retroactive layer
takes all callables (`Lambda`, transformer.py:376). -/
def construct (A : Arch V F X B E H) (relu : H → H) (activation : Activation H) (N : Nat) (n : Nat) (norm : Bool)
    (get : Place → V) : Except Err (CoMod (.stream X) (.stream X)) :=
  match resolve relu activation with
  | .error e => .error e
  | .ok (k, act) =>
    match k.adopted with
    | .error e => .error e
    | .ok _ => encoder (fun i => mkLayer A act N fun s => get (.layer i s)) n
      (if norm then some (A.norm (get .finalWeight) (get .finalBias)) else none)

/-- What `build_from` sees of a torch encoder. -/
structure TorchEncoder (V H : Type) where
  numLayers : Nat
  kind : Callable
  activation : H → H
  normFirst : Bool
  norm : Bool
  stateDict : List (String × V)

/-- The value of a parameter after `net.load_state_dict(new_sd)`; `init` are the values of the new object. -/
def loaded (ps : Named Place) (sd : List (Str × V)) (init : Place → V) (p : Place) : V :=
  match ps.lookup p with
  | none => init p
  | some k => (sd.lookup k).getD (init p)

/-- `TransformerEncoder.build_from(trans_enc, sequence_len)`: transformer.py:577-636.  The new object is constructed
before the weights are transferred; `load_state_dict` is strict. -/
def buildFrom (A : Arch V F X B E H) (relu : H → H) (t : TorchEncoder V H) (N : Nat) (init : Place → V) :
    Except Err (CoMod (.stream X) (.stream X)) :=
  if t.numLayers = 0 then .error .index
  else
    match construct A relu (.fn t.kind t.activation) N t.numLayers t.norm init with
    | .error e => .error e
    | .ok _ =>
      let ps := net t.numLayers t.norm
      match transfer (ps.map Prod.snd) (t.stateDict.map fun e => (e.1.toList, e.2)) with
      | .error e => .error e
      | .ok sd =>
        if (ps.map Prod.snd).all fun k => (sd.lookup k).isSome then
          construct A relu (.fn t.kind t.activation) N t.numLayers t.norm (loaded ps sd init)
        else .error .runtime

end CoInf.EncoderBuild
