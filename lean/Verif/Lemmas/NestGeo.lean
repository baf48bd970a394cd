/-
The geometry attributes of nested `Sequential`s; registration of members.
-/
import Verif.Lemmas.Nest
import Verif.Lemmas.Geometry
import Verif.Model.Append
import Std.Data.String.ToNat

set_option autoImplicit false

namespace CoInf

namespace Chain

theorem geos_append : ∀ {I J O : Sig} (c : Chain I J) (d : Chain J O),
    (c.append d).geos = c.geos ++ d.geos
  | _, _, _, .single _, _ => rfl
  | _, _, _, .cons _ c, d => by
    simp only [append, geos, geos_append c d, List.cons_append]

theorem rfOf_pos : ∀ {gs : List Geo}, gs ≠ [] → (∀ g ∈ gs, 1 ≤ g.rf) → 1 ≤ rfOf gs
  | [], h, _ => absurd rfl h
  | [g], _, h => h g (by simp)
  | g :: g' :: gs, _, h => by
    have ih := rfOf_pos (gs := g' :: gs) (by simp) fun x hx => h x (List.mem_cons_of_mem _ hx)
    rw [rfOf_cons g (by simp)]
    have h1 := h g (by simp)
    have : g.stride * 1 ≤ g.stride * rfOf (g' :: gs) := Nat.mul_le_mul_left _ ih
    omega

theorem strideOf_append : ∀ (gs hs : List Geo), strideOf (gs ++ hs) = strideOf gs * strideOf hs
  | [], hs => by simp [strideOf]
  | g :: gs, hs => by
    rw [List.cons_append, strideOf_cons, strideOf_cons, strideOf_append gs hs, Nat.mul_assoc]

theorem paddingOf_append : ∀ {gs hs : List Geo}, gs ≠ [] → hs ≠ [] →
    paddingOf (gs ++ hs) = paddingOf gs + paddingOf hs * strideOf gs
  | [], _, h, _ => absurd rfl h
  | [g], hs, _, h => by
    rw [List.singleton_append, paddingOf_cons g h]
    simp [paddingOf, strideOf]
  | g :: g' :: gs, hs, _, h => by
    rw [List.cons_append, paddingOf_cons g (by simp), paddingOf_append (by simp) h, paddingOf_cons g (by simp),
      strideOf_cons g]
    ring

theorem rfOf_append : ∀ {gs hs : List Geo}, gs ≠ [] → hs ≠ [] → (∀ g ∈ gs, 1 ≤ g.rf) → (∀ g ∈ hs, 1 ≤ g.rf) →
    rfOf (gs ++ hs) = strideOf gs * rfOf hs + rfOf gs - strideOf gs
  | [], _, h, _, _, _ => absurd rfl h
  | [g], hs, _, h, _, _ => by
    rw [List.singleton_append, rfOf_cons g h]
    simp [rfOf, strideOf]
  | g :: g' :: gs, hs, _, h, h1, h2 => by
    have h1' : ∀ x ∈ g' :: gs, 1 ≤ x.rf := fun x hx => h1 x (List.mem_cons_of_mem _ hx)
    rw [List.cons_append, rfOf_cons g (by simp), rfOf_append (by simp) h h1' h2, rfOf_cons g (gs := g' :: gs) (by simp),
      strideOf_cons g]
    obtain ⟨R, hR⟩ : ∃ R, rfOf hs = R + 1 := ⟨rfOf hs - 1, by have := rfOf_pos h h2; omega⟩
    obtain ⟨r, hr⟩ : ∃ r, rfOf (g' :: gs) = r + 1 :=
      ⟨rfOf (g' :: gs) - 1, by have := rfOf_pos (gs := g' :: gs) (by simp) h1'; omega⟩
    obtain ⟨q, hq⟩ : ∃ q, g.rf = q + 1 := ⟨g.rf - 1, by have := h1 g (by simp); omega⟩
    rw [hR, hr, hq]
    generalize strideOf (g' :: gs) = S
    have e1 : S * (R + 1) + (r + 1) - S = S * R + r + 1 := by rw [Nat.mul_add]; omega
    rw [e1]
    have e2 : g.stride * (S * R + r + 1) + (q + 1) - g.stride = g.stride * (S * R) + g.stride * r + q + 1 := by
      rw [Nat.mul_add, Nat.mul_add]; omega
    have e3 : g.stride * (r + 1) + (q + 1) - g.stride = g.stride * r + q + 1 := by
      rw [Nat.mul_add]; omega
    rw [e2, e3, Nat.mul_add, Nat.mul_assoc]
    omega

end Chain

open Chain

mutual
theorem Nest.geo : ∀ {I O : Sig} (n : Nest I O), (∀ g ∈ n.leaves.geos, 1 ≤ g.rf) →
    n.build.rf = rfOf n.leaves.geos ∧ n.build.stride = strideOf n.leaves.geos ∧
    n.build.padding = paddingOf n.leaves.geos
  | _, _, .mod m, _ => by simp [Nest.build, Nest.leaves, geos, rfOf, strideOf, paddingOf]
  | _, _, .seq c, h => by
    simp only [Nest.build, Nest.leaves] at h ⊢
    exact c.geo h
theorem NestChain.geo : ∀ {I O : Sig} (c : NestChain I O), (∀ g ∈ c.leaves.geos, 1 ≤ g.rf) →
    rfOf c.build.geos = rfOf c.leaves.geos ∧ strideOf c.build.geos = strideOf c.leaves.geos ∧
    paddingOf c.build.geos = paddingOf c.leaves.geos
  | _, _, .single n, h => by
    simp only [NestChain.build, NestChain.leaves] at h ⊢
    obtain ⟨h1, h2, h3⟩ := n.geo h
    refine ⟨?_, ?_, ?_⟩
    · rw [← h1]; simp [geos, rfOf]
    · rw [← h2]; simp [geos, strideOf]
    · rw [← h3]; simp [geos, paddingOf]
  | _, _, .cons n c, h => by
    simp only [NestChain.build, NestChain.leaves] at h ⊢
    rw [geos_append] at h ⊢
    have hn := fun g hg => h g (List.mem_append_left _ hg)
    have hc := fun g hg => h g (List.mem_append_right _ hg)
    obtain ⟨h1, h2, h3⟩ := n.geo hn
    obtain ⟨k1, k2, k3⟩ := c.geo hc
    rw [rfOf_append (geos_ne_nil _) (geos_ne_nil _) hn hc, strideOf_append,
      paddingOf_append (geos_ne_nil _) (geos_ne_nil _)]
    simp only [geos]
    rw [rfOf_cons _ (geos_ne_nil _), strideOf_cons, paddingOf_cons _ (geos_ne_nil _)]
    rw [h1, h2, h3, k1, k2, k3]
    exact ⟨rfl, rfl, rfl⟩
end

namespace Modules
variable {α : Type 1}

theorem add_new {d : Modules α} {name : String} (m : α) (h : name ∉ d.map Prod.fst) :
    d.add name m = d ++ [(name, m)] := if_neg h

theorem toString_inj {m n : Nat} (h : toString m = toString n) : m = n := Nat.repr_injective h

theorem positional_aux (args : List α) : ∀ (n : Nat) (d : Modules α), d.length = n →
    (∀ i, n ≤ i → toString i ∉ d.map Prod.fst) →
    (args.zipIdx n).foldl (fun d e => d.add (toString e.2) e.1) d =
      d ++ (args.zipIdx n).map (fun e => (toString e.2, e.1)) := by
  induction args with
  | nil => intro n d _ _; simp
  | cons a args ih =>
    intro n d hl hd
    rw [List.zipIdx_cons, List.foldl_cons, List.map_cons]
    simp only
    rw [add_new a (hd n (Nat.le_refl _)), ih (n + 1) (d ++ [(toString n, a)]) (by simp [hl])]
    · simp
    · intro i hi hm
      rw [List.map_append, List.mem_append] at hm
      rcases hm with hm | hm
      · exact hd i (by omega) hm
      · simp only [List.map_cons, List.map_nil, List.mem_singleton] at hm
        have := toString_inj hm
        omega

theorem positional_eq (args : List α) :
    positional args = args.zipIdx.map fun e => (toString e.2, e.1) := by
  have := positional_aux args 0 [] rfl (by simp)
  simpa [positional] using this

theorem positional_length (args : List α) : (positional args).length = args.length := by
  simp [positional_eq]

theorem positional_members (args : List α) : (positional args).members = args := by
  rw [positional_eq]
  simp [members, List.map_map, Function.comp_def]

theorem positional_snoc (args : List α) (a : α) :
    positional (args ++ [a]) = (positional args).append a := by
  unfold append
  rw [positional_length, positional, List.zipIdx_append, List.foldl_append]
  simp [positional]

theorem named_aux (dict : List (String × α)) : ∀ (d : Modules α), (∀ e ∈ dict, e.1 ∉ d.map Prod.fst) →
    (dict.map Prod.fst).Nodup → dict.foldl (fun d e => d.add e.1 e.2) d = d ++ dict := by
  induction dict with
  | nil => intro d _ _; simp
  | cons e dict ih =>
    intro d hd hn
    rw [List.map_cons, List.nodup_cons] at hn
    rw [List.foldl_cons, add_new e.2 (hd e (by simp)), ih _ _ hn.2]
    · simp
    · intro e' he' hm
      rw [List.map_append, List.mem_append] at hm
      rcases hm with hm | hm
      · exact hd e' (List.mem_cons_of_mem _ he') hm
      · simp only [List.map_cons, List.map_nil, List.mem_singleton] at hm
        exact hn.1 (hm ▸ List.mem_map_of_mem he')

theorem named_eq {dict : List (String × α)} (h : (dict.map Prod.fst).Nodup) : named dict = dict := by
  have := named_aux dict [] (by simp) h
  simpa [named] using this

end Modules
end CoInf
