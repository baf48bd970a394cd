import Verif.Lemmas.Net
import Verif.Lemmas.Observe
import Verif.Spec.Contract

set_option autoImplicit false

namespace CoInf
open Spec
variable {X Y Z : Type}

theorem Spec.Implements.mono {m : CoMod (.stream X) (.stream Y)} {φ : List X → List Y} (H : Implements m φ)
    {a b : List X} (h : a <+: b) : φ a <+: φ b := by
  obtain ⟨c, rfl⟩ := h
  obtain ⟨i, hi⟩ := H.exists_reach a
  obtain ⟨R, S⟩ := H
  by_cases hc : c = []
  · simp [hc]
  · obtain ⟨ys, i', _, h2, _⟩ := (Implements.reach ⟨R, S⟩).steps true c hc hi
    exact ⟨ys, h2.symm⟩

theorem BroadcastReduce.fwdAll_ahead {xs : List X} :
    ∀ {ms : List (CoMod (.stream X) (.stream Y))} {φs : List (List X → List Y)},
    List.Forall₂ Ahead ms φs → ∀ {yss i}, BroadcastReduce.fwdAll ms (init ms) xs = .ok (yss, i) →
      List.Forall₂ (fun φ ys => φ xs <+: ys) φs yss := by
  intro ms φs H
  induction H with
  | nil => intro yss i h; cases h; exact .nil
  | cons h1 _ ih =>
    intro yss i h
    obtain ⟨y, i1, ys, i2, k1, k2, rfl⟩ := fwdAll_cons_ok h
    exact .cons (h1 k1) (ih k2)

theorem atTime_prefix {cs ds : List (List Y)} (H : List.Forall₂ (fun c d => c <+: d) cs ds) {t : Nat}
    (h : ∀ c ∈ cs, t < c.length) : atTime cs t = atTime ds t := by
  induction H with
  | nil => rfl
  | @cons c d cs ds h1 _ ih =>
    have ht : t < c.length := h c (by simp)
    have hd : d[t]? = c[t]? := by
      obtain ⟨r, rfl⟩ := h1
      rw [List.getElem?_append_left ht]
    have := ih fun c hc => h c (by simp [hc])
    simp only [atTime] at *
    simp only [List.filterMap_cons, hd, this]

theorem zipReduce_prefix (f : List Y → Z) {cs ds : List (List Y)} (hne : cs ≠ []) (H : List.Forall₂ (fun c d => c <+: d) cs ds)
    {T U : Nat} (hc : ∀ c ∈ cs, c.length = T) (hd : ∀ d ∈ ds, d.length = U) :
    zipReduce f cs <+: zipReduce f ds := by
  have hne' : ds ≠ [] := by
    rintro rfl; exact hne (List.eq_nil_of_length_eq_zero H.length_eq)
  rw [zipReduce_eq f hne hc, zipReduce_eq f hne' hd]
  have hTU : T ≤ U := by
    cases H with
    | nil => exact absurd rfl hne
    | @cons c d _ _ h _ =>
      have h1 := hc c (by simp)
      have h2 := hd d (by simp)
      have := h.length_le
      omega
  obtain ⟨e, rfl⟩ := Nat.exists_eq_add_of_le hTU
  rw [List.range_add, List.map_append]
  have : (List.range T).map (fun t => f (atTime cs t)) = (List.range T).map (fun t => f (atTime ds t)) := by
    apply List.map_congr_left
    intro t ht
    rw [atTime_prefix H (fun c hcc => by rw [hc c hcc]; exact List.mem_range.1 ht)]
  rw [this]
  exact List.prefix_append _ _

theorem net_ahead {k : Cls} {m : CoMod (.stream X) (.stream Y)} {φ} (h : Net k m φ) (hk : 2 ≤ k.pad) :
    Ahead m φ := by
  induction h with
  | @conv k X Y _ _ c h =>
    intro xs ys i0 hf
    have hf : (Conv.forward c xs).map (fun ys => (ys, (Conv.mod c).init)) = .ok (ys, i0) := hf
    cases hfc : Conv.forward c xs with
    | error e => rw [hfc] at hf; cases hf
    | ok zs =>
      rw [hfc] at hf; cases hf
      obtain ⟨hne, rfl⟩ := Conv.forward_eq c (h.mode (by omega)) hfc
      exact streamOut_prefix_clipOut _ _ _ _ _ hne
  | @convRound k X Y _ _ _ c h => exact absurd h.pad (by omega)
  | @pool k X Y c h =>
    intro xs ys i0 hf
    have hf : (Pool.forward c xs).map (fun ys => (ys, (Pool.mod c).init)) = .ok (ys, i0) := hf
    cases hfc : Pool.forward c xs with
    | error e => rw [hfc] at hf; cases hf
    | ok zs =>
      rw [hfc] at hf; cases hf
      obtain ⟨hne, rfl⟩ := Pool.forward_eq c (poolOk h) (h.mode (by omega)) hfc
      exact streamOut_prefix_clipOut _ _ _ _ _ hne
  | @delay k X c h =>
    intro xs ys i0 hf
    have hs := h (Or.inr (by omega))
    cases hf
    simp only [Delay.forward, delayed, delayLead, hs]
    simpa using List.take_prefix _ _
  | @rnn k V S c h =>
    intro xs ys i0 hf
    obtain ⟨_, rfl, _⟩ := Rnn.fwd_eq c hf
    exact List.prefix_rfl
  | @skip k X n h h' => intro xs ys i0 hf; cases hf; exact List.prefix_rfl
  | @pointwise k X Y f => intro xs ys i0 hf; cases hf; exact List.prefix_rfl
  | @lambda k X Y c f h =>
    intro xs ys i0 hf
    have hf : (Lambda.forward c xs).map (fun ys => (ys, ())) = .ok (ys, i0) := hf
    cases xs with
    | nil =>
      simp
    | cons a t =>
      rw [h.fwd.eq _ (by simp)] at hf
      cases hf; exact List.prefix_rfl
  | @stepping k X Y g f s p h hg =>
    intro xs ys i0 hf
    have hf : (g xs).map (fun ys => (ys, ())) = .ok (ys, i0) := hf
    cases xs with
    | nil => simp
    | cons a t =>
      rw [h.eq _ (by simp)] at hf
      cases hf; exact List.prefix_rfl
  | @single k X Y m φ _ ih => exact fun {xs ys i0} hf => ih hk hf
  | @cons k X Y Z m c φ ψ _ hc2 ih1 ih2 =>
    have hfront : 2 ≤ k.front.pad := by
      unfold Cls.front; simp only; split <;> omega
    intro xs zs i0 hf
    obtain ⟨ys, j1, j2, h1, h2, _⟩ := Sequential.fwd_inv (i1 := m.init) (i2 := c.init) hf
    exact ((net_facts hc2).impl.mono (ih1 hfront h1)).trans (ih2 hk h2)
  | @reduce k X Y Z n r f ms φs hn hnet hr hal hgeo hpad ih =>
    intro xs zs i0 hf
    obtain ⟨yss, h1, h2⟩ := BroadcastReduce.fwd_ok hf
    have H := BroadcastReduce.fwdAll_ahead (forall₂_ofFn (R := fun m φ => Ahead m φ) fun j => ih j hk) h1
    have hfa : BroadcastReduce.FwdAligned (List.ofFn ms) := by
      intro m hm m' hm' xs ys ys' a b h1 h2
      obtain ⟨i, rfl⟩ := List.mem_ofFn.1 hm
      obtain ⟨j, rfl⟩ := List.mem_ofFn.1 hm'
      exact hpad hk i j h1 h2
    obtain ⟨T, hT⟩ := BroadcastReduce.fwdAligned_lengths hfa h1
    have hl : yss.length = n := by rw [BroadcastReduce.fwdAll_length h1]; simp
    have := hr.clip yss T hl hT
    rw [this] at h2; cases h2
    refine zipReduce_prefix f ?_ (cs := List.ofFn fun j => φs j xs) ?_ (T := (φs ⟨0, hn⟩ xs).length) ?_ hT
    · intro h0
      have := congrArg List.length h0
      simp at this; omega
    · have : (List.ofFn fun j => φs j xs) = (List.ofFn φs).map (· xs) := by rw [List.map_ofFn]; rfl
      rw [this, List.forall₂_map_left_iff]
      exact H
    · intro c hc
      obtain ⟨j, rfl⟩ := List.mem_ofFn.1 hc
      exact hal _ _ _

end CoInf
