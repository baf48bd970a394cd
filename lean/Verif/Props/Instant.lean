/-
C11, C37: what modules without memory and encoders report.
-/
import Verif.Props.EncoderBlock
import Verif.Model.Parallel
import Verif.Model.Rnn

set_option autoImplicit false

namespace CoInf
open Spec Transformer

/-- What a module that answers every call at once, and encoders with windows of `N` tokens, are to report. -/
structure Spec.Reports {I O : Sig} (m : CoMod I O) (n : Nat) : Prop where
  rf : m.rf = n
  stride : m.stride = 1
  padding : m.padding = 0
  delay : m.delay = (n : Int) - 1

/-- **C11**, `Broadcast`, `Reduce` the last member of encoders and recurrent modules: the reported delay is zero and the stride one,
and every step of the first three that gets all its frames returns one (for recurrent modules: `C30`). -/
theorem C11_instant {X Y Z : Type} :
    (∀ n, Reports (Broadcast.mod X n) 1 ∧ ∀ i u x o j, (Broadcast.mod X n).step i u x = .ok (o, j) → o.isSome) ∧
    (∀ (r : Reducer Y Z) (f : List Y → Z) (n : Nat), ReduceOk r f n → Reports (Reduce.mod r) 1 ∧
      ∀ i u (ys : List Y), ys.length = n → (Reduce.mod r).step i u (ys.map some) = .ok (some (f ys), i)) ∧
    (Reports (squeezeLast X) 1 ∧ ∀ i u x o j, (squeezeLast X).step i u x = .ok (o, j) → o.isSome) ∧
    ∀ (S : Type) (c : Rnn.Cfg X S), Reports (Rnn.mod c) 1 := by
  refine ⟨fun n => ⟨⟨rfl, rfl, rfl, rfl⟩, ?_⟩, fun r f n hr => ⟨⟨rfl, rfl, rfl, rfl⟩, ?_⟩, ⟨⟨rfl, rfl, rfl, rfl⟩, ?_⟩,
    fun S c => ⟨rfl, rfl, rfl, rfl⟩⟩
  · intro i u x o j h
    cases n with
    | none => cases h
    | some n => cases h; rfl
  · intro i u ys hl
    have e : allSome (ys.map some) = some ys := by
      clear hl
      induction ys with
      | nil => rfl
      | cons y ys ih => simp [allSome, ih]
    show (nonempty r.frame (ys.map some)).map _ = _
    rw [nonempty, e]
    show ((r.frame ys).map some).map _ = _
    rw [hr.frame ys hl]
    rfl
  · intro i u x o j h
    have h' : (squeeze x).map (fun y => (some y, i)) = .ok (o, j) := h
    cases hs : squeeze x with
    | error e => rw [hs] at h'; cases h'
    | ok y => rw [hs] at h'; cases h'; rfl

variable {F X B E : Type} [Field F] [Fintype E] [AddCommGroup X]

/-- **C37**, encoders of one or two layers report the window of the first layer as receptive field, and the number of tokens
before the first prediction as delay. -/
theorem C37_geometry (mk : Nat → Layer F X B E) (n : Int) (norm : Option (X → X)) {m} (h : encoder mk n norm = .ok m)
    (hN : 2 ≤ (mk 0).attn.N) : Reports m (mk 0).attn.N := by
  have e1 : ∀ (m : CoMod (.stream X) (.stream X)) k, 1 ≤ k → Reports m k → Reports (withNorm m norm) k := by
    intro m k hk hm
    obtain ⟨a, b, c, d⟩ := hm
    cases norm <;> constructor <;> simp [withNorm, Chain.geos, Chain.rfOf, Chain.strideOf, Chain.paddingOf, a, b, c]
  have hN' : (mk 0).attn.N - 2 + 2 = (mk 0).attn.N := by omega
  rw [encoder, if_neg (by omega)] at h
  split at h
  · cases h
    refine e1 _ _ (by omega) ⟨?_, ?_, ?_, ?_⟩ <;>
      simp [Chain.geos, Chain.rfOf, Chain.strideOf, Chain.paddingOf, Transformer.residual]
    all_goals omega
  · split at h
    · split at h <;> cases h
    · cases h
      refine e1 _ _ (by omega) ⟨?_, ?_, ?_, ?_⟩ <;>
        simp [Chain.geos, Chain.rfOf, Chain.strideOf, Chain.paddingOf, hN']

/-- **C37**, the same in any context. -/
theorem C37_geometry_in (g : CallMode.Ctx) (p1 p2 : Layer F X B E) (hN : 2 ≤ p1.attn.N) :
    Reports (twoLayersIn g p1 p2) p1.attn.N := by
  have hN' : p1.attn.N - 2 + 2 = p1.attn.N := by omega
  constructor <;> simp [Chain.geos, Chain.rfOf, Chain.strideOf, Chain.paddingOf, hN']

/-- An encoder of two layers over three tokens reports a delay of two. -/
example (p : Layer ℚ ℚ Unit (Fin 1)) (h : p.attn.N = 3) :
    ∃ m, encoder (fun _ => p) 2 none = .ok m ∧ m.delay = 2 := by
  obtain ⟨m, hm⟩ : ∃ m, encoder (fun _ => p) 2 none = .ok m :=
    ⟨_, by unfold encoder; rw [if_neg (by show ¬ p.attn.N = 0; omega), if_neg (by decide), if_neg (by decide)]⟩
  exact ⟨m, hm, by rw [(C37_geometry _ _ _ hm (by show 2 ≤ p.attn.N; omega)).delay]; show (p.attn.N : Int) - 1 = 2; omega⟩

end CoInf
