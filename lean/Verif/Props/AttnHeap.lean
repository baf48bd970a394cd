/-
Properties C27, C28 and C29 for the attention modules, whose `stride_index` is changed in place.
-/
import Verif.Lemmas.AttnHeap
import Verif.Lemmas.Retro
import Verif.Props.Attention

set_option autoImplicit false

namespace CoInf
open Spec Attn
variable {F X O Y B E : Type} [Field F] [Fintype E]

/-- **C28**, attention: every script of public calls returns what it returns with immutable states. -/
theorem C28_attention (b : Base X O) (cs : List (Call (.stream X))) :
    (AttnHeap.calls b (AttnHeap.World.new b) (cs.map ofCall)).1 = (calls b.mod b.mod.init cs).1 :=
  AttnHeap.calls_val cs (fun _ hp => by cases hp)

/-- **C27**, attention: after any calls `pre` such that the module has started to return tensors (the next `forward_step`
would return one), `s = m.get_state()`, any calls `mid`, `m.set_state(s)`: all further public calls return what they would
have returned instead of `get_state`.  Missing: checkpoints taken while the module is still filling up, for which the claim
is false (`C27_attention_refuted`). -/
theorem C27_attention_partial (b : Base X O) (pre mid : List (Heap.HCall X)) (fut : List (Call (.stream X))) :
    let w := (AttnHeap.calls b (AttnHeap.World.new b) pre).2
    let cp := Heap.HCall.save :: mid ++ [.restore w.kept.length]
    (∃ x y w1, AttnHeap.call b w (.step true x) = .ok (.frame (some y), w1)) →
    (∀ r ∈ (AttnHeap.calls b w cp).1, ∀ e, r ≠ .raised e) →
    (AttnHeap.calls b (AttnHeap.calls b w cp).2 (fut.map ofCall)).1 = (AttnHeap.calls b w (fut.map ofCall)).1 := by
  intro w cp hx hf
  have hw : AttnHeap.WValid w := (AttnHeap.calls_le pre (w := AttnHeap.World.new b) ⟨fun p hp => (by cases hp), fun s hs => (by cases hs)⟩).1
  have h1 : AttnHeap.call b w .save = .ok (.done, { w with kept := w.kept ++ [w.obj] }) := rfl
  have hw1 := (AttnHeap.call_le .save hw h1)
  -- the calls in between do not raise
  have hcp : AttnHeap.calls b w cp = (.done :: (AttnHeap.calls b { w with kept := w.kept ++ [w.obj] } (mid ++ [.restore w.kept.length])).1,
      (AttnHeap.calls b { w with kept := w.kept ++ [w.obj] } (mid ++ [.restore w.kept.length])).2) := by
    simp only [cp, List.cons_append, AttnHeap.calls, h1]
  rw [hcp] at hf
  generalize hww : ({ w with kept := w.kept ++ [w.obj] } : AttnHeap.World b) = w1 at *
  have hmid : ∀ r ∈ (AttnHeap.calls b w1 mid).1, ∀ e, r ≠ .raised e := by
    have aux : ∀ (cs ds : List (Heap.HCall X)) (v : AttnHeap.World b),
        (∀ r ∈ (AttnHeap.calls b v (cs ++ ds)).1, ∀ e, r ≠ .raised e) → ∀ r ∈ (AttnHeap.calls b v cs).1, ∀ e, r ≠ .raised e := by
      intro cs ds
      induction cs with
      | nil => intro v _ r hr; cases hr
      | cons c cs ih =>
        intro v h
        simp only [List.cons_append, AttnHeap.calls] at h ⊢
        cases hc : AttnHeap.call b v c with
        | error e => rw [hc] at h; exact h
        | ok q =>
          obtain ⟨q, v'⟩ := q
          rw [hc] at h
          intro r hr
          rcases List.mem_cons.1 hr with rfl | hr
          · exact h _ (by simp)
          · exact ih v' (fun r hr => h r (by simp [hr])) r hr
    exact aux mid _ w1 (fun r hr => hf r (List.mem_cons_of_mem _ hr))
  have hv1 : AttnHeap.WValid w1 := hw1.1
  have hle := AttnHeap.calls_le mid hv1
  have happ := AttnHeap.calls_append mid [.restore w.kept.length] hmid
  generalize hv2 : (AttnHeap.calls b w1 mid).2 = w2 at *
  have hkept : w2.kept[w.kept.length]? = some w.obj := by
    obtain ⟨t, ht⟩ := hle.2.2
    rw [← ht, ← hww]
    simp
  have hobj1 : w1.mem = w.mem := by rw [← hww]
  cases ho : w.obj with
  | none =>
    exfalso
    have : AttnHeap.call b w2 (.restore w.kept.length) = .error .type := by simp only [AttnHeap.call, hkept, ho]
    refine hf (.raised .type) ?_ .type rfl
    rw [happ]
    simp [AttnHeap.calls, this]
  | some st =>
    have hr : AttnHeap.call b w2 (.restore w.kept.length) = .ok (.done, { w2 with obj := some st }) := by
      simp only [AttnHeap.call, hkept, ho]
    have hfin : (AttnHeap.calls b w cp).2 = { w2 with obj := some st } := by
      rw [hcp, happ]
      simp [AttnHeap.calls, hr]
    rw [hfin]
    have hval2 : AttnHeap.Valid w2.mem (some st) := (ho ▸ hw.1 : AttnHeap.Valid w.mem (some st)).mono (hobj1 ▸ hle.2.1)
    rw [AttnHeap.calls_val fut (w := { w2 with obj := some st }) hval2, AttnHeap.calls_val fut hw.1]
    symm
    apply AttnHeap.near_calls
    rw [ho]
    have hst : st.2 < w.mem.length := hw.1 st ho
    have hge : -1 ≤ w.mem.getD st.2 0 := by
      obtain ⟨x, y, w3, hx⟩ := hx
      simp only [AttnHeap.call, AttnHeap.step, ho, AttnHeap.pstep, AttnHeap.start] at hx
      cases hs : b.sdpa st.1 x with
      | error e => rw [hs] at hx; cases hx
      | ok q =>
        rw [hs] at hx
        simp only at hx
        by_contra hlt
        have hlt : w.mem.getD st.2 0 < -1 := by omega
        rw [if_pos (by omega : w.mem.getD st.2 0 < 0), AttnHeap.getD_set_self hst, if_pos (by omega)] at hx
        cases hx
    have hle2 : AttnHeap.Le w.mem w2.mem := hobj1 ▸ hle.2.1
    simp only [AttnHeap.val, Option.map_some]
    rcases hle2.2 st.2 hst hge with e | ⟨e, e'⟩
    · rw [e]; exact .inl rfl
    · rw [e, e']; exact .inr ⟨_, rfl, rfl⟩

/-- **C27** is false for attention modules of length at least three that are still filling up.  (`b` is any attention module
that streams some function `g` of its window, as both kinds do.)  A checkpoint is taken after the first frame, the module
runs until its window is full, and the checkpoint is put back: the next step returns a tensor, although the module is back
at its first frame; without the checkpoint it returns `None`. -/
theorem C27_attention_refuted {b : Base X O} {Inv : List X → b.S → Prop} {g : List X → O} (H : b.Ok Inv g) (hN : 3 ≤ b.N)
    (x z : X) (ys : List X) (hy : ys.length = b.N - 1) :
    (∃ c o, (AttnHeap.calls b (AttnHeap.World.new b)
      [.step true x, .save, .steps false true ys, .restore 0, .step true z]).1 =
        [.frame none, .done, .clip c, .done, .frame (some o)]) ∧
    (AttnHeap.calls b (AttnHeap.World.new b) [.step true x, .step true z]).1 = [.frame none, .frame none] := by
  have r0 : Attn.Rel b Inv [] none := rfl
  obtain ⟨o1, ⟨s1, i1⟩, a1, a2, a3⟩ := pstep_ok H x r0
  have ho : ∀ {h : List X} {y : X} {o : Option O}, slide b.N 1 g (h ++ [y]) = slide b.N 1 g h ++ o.toList →
      h.length + 1 < b.N → o = none := by
    intro h y o e hlt
    rw [slide_one, if_neg (by omega)] at e
    have := List.append_cancel_left e
    cases o with
    | none => rfl
    | some o => simp at this
  have ho1 : o1 = none := ho a2 (by simp; omega)
  subst ho1
  have hi1 : i1 = 1 - (b.N : Int) := by
    have := a3.2.2
    simp only [List.nil_append, List.length_singleton] at this
    rw [if_pos (by omega)] at this
    simpa using this
  subst hi1
  -- the first step with memory
  have v0 : AttnHeap.Valid (b := b) [] none := fun _ hp => by cases hp
  have p1 := AttnHeap.pstep_val x v0
  cases hp : AttnHeap.pstep b x none [] with
  | error e => rw [hp] at p1; simp only [AttnHeap.val, Option.map_none] at p1; rw [a1] at p1; cases p1
  | ok q =>
    obtain ⟨o, ⟨t1, ad⟩, m1⟩ := q
    rw [hp] at p1
    obtain ⟨p1, p2, -, -, p3, -⟩ := p1
    have had : ad = 0 := p3 rfl
    subst had
    simp only [AttnHeap.val, Option.map_none, a1, Option.map_some] at p1
    injection p1 with p1
    injection p1 with e1 e2
    injection e2 with e2
    injection e2 with e2 e3
    subst e1 e2
    have c1 : AttnHeap.call b (AttnHeap.World.new b) (.step true x) = .ok (.frame none, ⟨some (s1, 0), [], m1⟩) := by
      simp [AttnHeap.call, AttnHeap.step, AttnHeap.World.new, hp]
    constructor
    · -- the run in between
      have q1 := AttnHeap.loop_val ys p2
      obtain ⟨zs, t, l1, l2, l3, l4⟩ := loop_ok H ys a3
      have hval : AttnHeap.val m1 (some (s1, 0)) = some (s1, 1 - (b.N : Int)) := by
        simp only [AttnHeap.val, Option.map_some, ← e3]
      rw [hval, l1] at q1
      cases hl : AttnHeap.loop b (some (s1, 0)) m1 ys with
      | error e => rw [hl] at q1; cases q1
      | ok q =>
        obtain ⟨zs', s2, m2⟩ := q
        rw [hl] at q1
        obtain ⟨q1, q2, q3, -⟩ := q1
        injection q1 with q1
        injection q1 with f1 f2
        subst f1
        -- the shared cell ends at zero
        have aux : ∀ (ys : List X) (s : AttnHeap.St b) (m : AttnHeap.Cells) zs s2 m2,
            AttnHeap.Valid m (some s) → AttnHeap.loop b (some s) m ys = .ok (zs, s2, m2) → ∃ t, s2 = some (t, s.2) := by
          intro ys
          induction ys with
          | nil => intro s m zs s2 m2 _ h; cases h; exact ⟨s.1, rfl⟩
          | cons y ys ih =>
            intro s m zs s2 m2 hv h
            simp only [AttnHeap.loop] at h
            have pv := AttnHeap.pstep_val y hv
            cases hq : AttnHeap.pstep b y (some s) m with
            | error e => rw [hq] at h; cases h
            | ok q =>
              obtain ⟨o, s', m'⟩ := q
              rw [hq] at h pv
              simp only at h
              cases hq2 : AttnHeap.loop b (some s') m' ys with
              | error e => rw [hq2] at h; cases h
              | ok q =>
                obtain ⟨os, s3, m3⟩ := q
                rw [hq2] at h
                cases h
                obtain ⟨t, ht⟩ := ih s' m' _ _ _ pv.2.1 hq2
                exact ⟨t, by rw [ht, pv.2.2.2.1 s rfl]⟩
        obtain ⟨t2, ht2⟩ := aux ys _ _ _ _ _ p2 hl
        subst ht2
        have hm2 : m2.getD 0 0 = 0 := by
          rw [f2] at l3
          have := l3.2.2
          rw [if_neg (by simp; omega)] at this
          exact this
        have hne : ys.isEmpty = false := by
          cases ys with
          | nil => simp at hy; omega
          | cons => rfl
        -- the last step
        obtain ⟨o3, s3, u1, -, -⟩ := H.step z a3.2.1
        refine ⟨optList zs, o3, ?_⟩
        have c2 : AttnHeap.call b ⟨some (s1, 0), [], m1⟩ .save = .ok (.done, ⟨some (s1, 0), [some (s1, 0)], m1⟩) := rfl
        have c3 : AttnHeap.call b ⟨some (s1, 0), [some (s1, 0)], m1⟩ (.steps false true ys) =
            .ok (.clip (optList zs), ⟨some (t2, 0), [some (s1, 0)], m2⟩) := by
          simp [AttnHeap.call, AttnHeap.steps, hl, hne]
        have c4 : AttnHeap.call b ⟨some (t2, 0), [some (s1, 0)], m2⟩ (.restore 0) =
            .ok (.done, ⟨some (s1, 0), [some (s1, 0)], m2⟩) := rfl
        have c5 : AttnHeap.call b ⟨some (s1, 0), [some (s1, 0)], m2⟩ (.step true z) =
            .ok (.frame (some o3), ⟨some (s3, 0), [some (s1, 0)], m2⟩) := by
          simp only [AttnHeap.call, AttnHeap.step, AttnHeap.pstep, AttnHeap.start, u1, hm2]
          simp [-List.getD_eq_getElem?_getD, hm2]
        simp only [AttnHeap.calls, c1, c2, c3, c4, c5]
    · obtain ⟨o3, s3, u1, u2, u3⟩ := pstep_ok H z a3
      have hno : o3 = none := ho u2 (by simp; omega)
      subst hno
      have hval : AttnHeap.val m1 (some (s1, 0)) = some (s1, 1 - (b.N : Int)) := by
        simp only [AttnHeap.val, Option.map_some, ← e3]
      have p5 := AttnHeap.pstep_val z p2
      rw [hval, u1] at p5
      cases hq : AttnHeap.pstep b z (some (s1, 0)) m1 with
      | error e => rw [hq] at p5; cases p5
      | ok q =>
        obtain ⟨o, s4, m4⟩ := q
        rw [hq] at p5
        have p6 := p5.1
        injection p6 with p6
        injection p6 with f1 f2
        subst f1
        have c2 : AttnHeap.call b ⟨some (s1, 0), [], m1⟩ (.step true z) = .ok (.frame none, ⟨some s4, [], m4⟩) := by
          simp [AttnHeap.call, AttnHeap.step, hq]
        simp only [AttnHeap.calls, c1, c2]

/-- Both kinds of attention modules are instances. -/
example (c : Cfg F X Y B E) (hN : 3 ≤ c.N) (x z : X) (ys : List X) (hy : ys.length = c.N - 1) :
    (∃ cl o, (AttnHeap.calls (retroBase c) (AttnHeap.World.new (retroBase c))
      [.step true x, .save, .steps false true ys, .restore 0, .step true z]).1 =
        [.frame none, .done, .clip cl, .done, .frame (some o)]) ∧
    (AttnHeap.calls (singleBase c (-1) true) (AttnHeap.World.new (singleBase c (-1) true)) [.step true x, .step true z]).1 =
        [.frame none, .frame none] :=
  ⟨(C27_attention_refuted (retro_ok c (by omega)) hN x z ys hy).1,
    (C27_attention_refuted (single_ok c true (by omega) (by simp [nq]) (by simp [nq]; omega)) hN x z ys hy).2⟩

/-- **C29**, attention, the part that holds: on a state whose stride index is not negative, `_forward_step` changes nothing
and gives the same result when it is called again. -/
theorem C29_attention_partial (b : Base X O) (x : X) (s : b.S) (a : Nat) (h : AttnHeap.Cells) (hn : 0 ≤ h.getD a 0)
    {o t h'} (hp : AttnHeap.pstep b x (some (s, a)) h = .ok (o, t, h')) :
    h' = h ∧ AttnHeap.pstep b x (some (s, a)) h' = .ok (o, t, h') := by
  have : h' = h := by
    simp only [AttnHeap.pstep, AttnHeap.start] at hp
    cases hs : b.sdpa s x with
    | error e => rw [hs] at hp; cases hp
    | ok q =>
      rw [hs] at hp
      simp only at hp
      rw [if_neg (by omega : ¬ h.getD a 0 < 0)] at hp
      cases hp; rfl
  subst this
  exact ⟨rfl, hp⟩

/-- **C29** is false for attention: with a state whose stride index is -2 (one frame is missing besides the one passed), the
first call of `_forward_step` returns `None` and changes the state it was given, so that the second call with the same
arguments returns a tensor. -/
theorem C29_attention_refuted (b : Base X O) (x : X) (s : b.S) (a : Nat) (h : AttnHeap.Cells) (hn : h.getD a 0 = -2)
    {y : O} {s' : b.S} (hs : b.sdpa s x = .ok (y, s')) :
    ∃ h' h'', AttnHeap.pstep b x (some (s, a)) h = .ok (none, (s', a), h') ∧ h'.getD a 0 = -1 ∧
      AttnHeap.pstep b x (some (s, a)) h' = .ok (some y, (s', a), h'') := by
  have ha : a < h.length := by
    by_contra hc
    rw [List.getD_eq_getElem?_getD, List.getElem?_eq_none (by omega)] at hn
    simp at hn
  have e1 : (h.set a (-2 + 1)).getD a 0 = -1 := AttnHeap.getD_set_self ha _
  have e2 : ((h.set a (-2 + 1)).set a (-1 + 1)).getD a 0 = 0 := AttnHeap.getD_set_self (by simpa using ha) _
  refine ⟨h.set a (-2 + 1), (h.set a (-2 + 1)).set a (-1 + 1), ?_, e1, ?_⟩
  · simp only [AttnHeap.pstep, AttnHeap.start, hs, hn]
    rw [if_pos (show (-2 : Int) < 0 by decide), e1, if_pos (show (-1 : Int) < 0 by decide)]
  · simp only [AttnHeap.pstep, AttnHeap.start, hs, e1]
    rw [if_pos (show (-1 : Int) < 0 by decide), e2, if_neg (show ¬ (0 : Int) < 0 by decide)]

example : ∃ (s : (retroBase exAttn).S) (y : List ℚ) (s' : (retroBase exAttn).S),
    Attn.pstep (retroBase exAttn) 1 none = .ok (none, some (s, -2)) ∧ (retroBase exAttn).sdpa s 5 = .ok (y, s') := by
  have H := retro_ok exAttn (by decide)
  obtain ⟨o, ⟨s, i⟩, h1, h2, h3⟩ := pstep_ok H (1 : ℚ) (h := []) (i := none) rfl
  obtain ⟨y, s', k, _⟩ := H.step 5 h3.2.1
  refine ⟨s, y, s', ?_, k⟩
  rw [h1]
  have hi : i = -2 := by
    have := h3.2.2
    simpa [exAttn, retroBase] using this
  subst hi
  rw [slide_one, if_neg (by decide)] at h2
  have := List.append_cancel_left h2
  cases o with
  | none => rfl
  | some o => simp at this

end CoInf
