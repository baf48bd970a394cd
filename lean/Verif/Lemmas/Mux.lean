import Verif.Lemmas.Checkpoint
import Verif.Spec.Mux

set_option autoImplicit false

namespace CoInf.Heap
open Spec
variable {X Y V : Type} {ip : Bool} {H : HLeaf X Y V} {L : Leaf X Y} {fwd : List X → Except Err (List Y)}
  {eI : List V × H.A → L.Inst} {eS : List V × H.A → L.St}

theorem put_self {α : Type} (f : Nat → α) (k : Nat) (a : α) : put f k a k = a := if_pos rfl

theorem put_ne {α : Type} (f : Nat → α) {k j : Nat} (a : α) (h : j ≠ k) : put f k a j = f j := if_neg h

theorem mine_cons {α : Type} (k j : Nat) (a : α) (es : List (Nat × α)) :
    mine k ((j, a) :: es) = if j = k then a :: mine k es else mine k es := by
  unfold mine
  by_cases h : j = k <;> simp [h]

/-- A public call depends on the object only through `get_state`. -/
theorem vcall_get (hset : ∀ (st : L.St) a b, L.set st a = L.set st b) (hclean : ∀ a b, L.clean a = L.clean b)
    (c : Call (.stream X)) {v v' : L.Inst} (hg : L.get v = L.get v') :
    match vcall L fwd ⟨v, []⟩ (ofCall c), vcall L fwd ⟨v', []⟩ (ofCall c) with
    | .error e, .error e' => e = e'
    | .ok (o, w), .ok (o', w') => o = o' ∧ L.get w.obj = L.get w'.obj
    | _, _ => False := by
  have hsave : ∀ u s, L.get (L.save u s v) = L.get (L.save u s v') := by
    intro u s
    unfold Leaf.save
    cases u with
    | false => exact hg
    | true => cases s with
      | none => exact hg
      | some st => simp only [if_true]; rw [hset st v v']
  cases c with
  | step u x =>
    simp only [ofCall, vcall, Leaf.forwardStep, bind, Except.bind, pure, Except.pure, hg]
    cases L.pstep x (L.get v') with
    | error e => rfl
    | ok p => exact ⟨rfl, hsave u p.2⟩
  | steps p u xs =>
    simp only [ofCall, vcall, Leaf.forwardSteps, bind, Except.bind, pure, Except.pure, hg]
    cases L.loop (L.get v') xs with
    | error e => rfl
    | ok q =>
      cases p with
      | false => exact ⟨rfl, hsave u q.2⟩
      | true =>
        simp only [if_true]
        cases L.endPads xs with
        | error e => rfl
        | ok pads =>
          have hp : L.padState (L.save u q.2 v) q.2 = L.padState (L.save u q.2 v') q.2 := by
            unfold Leaf.padState; rw [hsave]
          simp only [hp]
          cases L.loop (L.padState (L.save u q.2 v') q.2) pads with
          | error e => rfl
          | ok q2 => exact ⟨rfl, hsave u q.2⟩
  | clean => exact ⟨rfl, by simp only; rw [hclean v v']⟩
  | fwd xs =>
    simp only [ofCall, vcall]
    cases fwd xs with
    | error e => rfl
    | ok ys => exact ⟨rfl, hg⟩

/-- A public call on an object: new tensors of the call are kept by everybody else. -/
theorem call_local (M : Models ip H L fwd eI eS) {h : Mem V} {i : H.Inst} {v : L.Inst} (r : ObjRel eI h i v)
    (c : Call (.stream X)) :
    match vcall L fwd ⟨v, []⟩ (ofCall c) with
    | .error e => hcall H ⟨i, [], h⟩ (ofCall c) = .error e
    | .ok (o, v') => ∃ ho w', hcall H ⟨i, [], h⟩ (ofCall c) = .ok (ho, w') ∧ ObjRel eI w'.mem w'.obj v'.obj ∧
      h.length ≤ w'.mem.length ∧ (∀ q < h.length, q ≠ i.1 → read w'.mem q = read h q) ∧
      (h.length ≤ w'.obj.1 ∨ w'.obj.1 = i.1) ∧
      ∀ h', (∀ q < w'.mem.length, h.length ≤ q → q ≠ w'.obj.1 → read h' q = read w'.mem q) → look H h' ho = o := by
  cases c with
  | step u x =>
    have hs := step_spec M r u x
    simp only [ofCall, vcall, hcall]
    cases hf : L.forwardStep v u x with
    | error e => rw [hf] at hs; simp only at hs; simp only [hs]
    | ok q =>
      obtain ⟨o, v'⟩ := q
      rw [hf] at hs
      obtain ⟨ov, i', h', k1, k2, k3, k4⟩ := hs
      simp only [k1]
      refine ⟨.frame ov, _, rfl, k2, k3.1, fun q hq hn => k3.2.1 q hq (.inr hn), k3.2.2, fun h'' hk => ?_⟩
      cases ov with
      | none => simp only at k4; subst k4; rfl
      | some w' =>
        obtain ⟨y, rfl, ⟨z, z1, z2⟩, z3, z4, z5⟩ := k4
        have e : View.read h'' w' = some z := by
          rw [← z1]
          unfold View.read
          rw [hk _ z4 z3 fun he => z5 (by rw [he]; rfl)]
        simp [look, e, z2]
  | steps p u xs =>
    have hs := steps_spec M r p u xs
    simp only [ofCall, vcall, hcall]
    cases hf : L.forwardSteps v p u xs with
    | error e => rw [hf] at hs; simp only at hs; simp only [hs]
    | ok q =>
      obtain ⟨o, v'⟩ := q
      rw [hf] at hs
      obtain ⟨oa, i', h', k1, k2, k3, k4⟩ := hs
      simp only [k1]
      refine ⟨.clip oa, _, rfl, k2, k3.1, fun q hq hn => k3.2.1 q hq (.inr hn), k3.2.2, fun h'' hk => ?_⟩
      cases oa with
      | none => simp only at k4; subst k4; rfl
      | some a =>
        obtain ⟨ys, rfl, z1, z2, z3, z4⟩ := k4
        simp only [look, Option.map_some]
        rw [hk a z3 z2 (Ne.symm z4), z1]
  | clean =>
    simp only [ofCall, vcall, hcall, HLeaf.clean, alloc]
    refine ⟨_, _, rfl, ⟨by simp, ?_⟩, by simp, fun q hq _ => ?_, .inl (Nat.le_refl _), fun _ _ => rfl⟩
    · simp only [M.clean, read_alloc]
    · simp only [read_append_lt hq]
  | fwd xs =>
    simp only [ofCall, vcall, hcall, M.fwd]
    cases fwd xs with
    | error e => rfl
    | ok ys => exact ⟨_, _, rfl, r, Nat.le_refl _, fun _ _ _ => rfl, .inr rfl, fun _ _ => rfl⟩

/-- The states of the streams stand for objects of their own (as far as `get_state` shows them), in separate tensors. -/
structure Apart (eS : List V × H.A → L.St) (st : Nat → Option (Nat × H.A)) (h : Mem V) (v : Nat → Option L.St) : Prop where
  val : ∀ k, v k = absS eS h (st k)
  valid : ∀ k a, (st k).map Prod.fst = some a → a < h.length
  apart : ∀ k j a, (st k).map Prod.fst = some a → (st j).map Prod.fst = some a → k = j

/-- Everything that no stream uses is still there. -/
def Rest {A : Type} (st : Nat → Option (Nat × A)) (h h' : Mem V) : Prop :=
  h.length ≤ h'.length ∧ ∀ q < h.length, (∀ k, (st k).map Prod.fst ≠ some q) → read h' q = read h q

/-- Replacing the state of one stream, after an operation that wrote to the buffer of that stream only. -/
theorem Apart.put {st : Nat → Option (Nat × H.A)} {h h' : Mem V} {v : Nat → Option L.St} (r : Apart eS st h v) (k : Nat)
    (s' : Option (Nat × H.A)) (t' : Option L.St) (hle : h.length ≤ h'.length)
    (hk : ∀ q < h.length, (st k).map Prod.fst ≠ some q → read h' q = read h q) (hv : t' = absS eS h' s')
    (ho : ∀ a, s'.map Prod.fst = some a → a < h'.length ∧ (h.length ≤ a ∨ (st k).map Prod.fst = some a)) :
    Apart eS (Spec.put st k s') h' (Spec.put v k t') := by
  have hne : ∀ j, j ≠ k → ∀ a, (st j).map Prod.fst = some a → s'.map Prod.fst ≠ some a := by
    intro j hj a ha hs
    rcases (ho a hs).2 with hh | hh
    · have := r.valid j a ha; omega
    · exact hj (r.apart j k a ha hh)
  refine ⟨fun j => ?_, fun j a ha => ?_, fun j j' a ha ha' => ?_⟩
  · by_cases hj : j = k
    · subst hj; rw [put_self, put_self, hv]
    · rw [put_ne _ _ hj, put_ne _ _ hj, r.val j]
      unfold absS
      cases hs : st j with
      | none => rfl
      | some s =>
        have hs1 : (st j).map Prod.fst = some s.1 := by rw [hs]; rfl
        have : read h' s.1 = read h s.1 := hk _ (r.valid j _ hs1) fun he => hj (r.apart j k _ hs1 he)
        simp only [Option.map_some, this]
  · by_cases hj : j = k
    · subst hj; rw [put_self] at ha; exact (ho a ha).1
    · rw [put_ne _ _ hj] at ha; exact Nat.lt_of_lt_of_le (r.valid j a ha) hle
  · by_cases hj : j = k <;> by_cases hj' : j' = k
    · rw [hj, hj']
    · subst hj
      rw [put_self] at ha; rw [put_ne _ _ hj'] at ha'
      exact absurd ha (hne j' hj' a ha')
    · subst hj'
      rw [put_self] at ha'; rw [put_ne _ _ hj] at ha
      exact absurd ha' (hne j hj a ha)
    · rw [put_ne _ _ hj] at ha; rw [put_ne _ _ hj'] at ha'
      exact r.apart _ _ a ha ha'

/-- What `get_state` returned has rows. -/
def Full {A : Type} (st : Nat → Option (Nat × A)) (h : Mem V) : Prop :=
  ∀ k a, (st k).map Prod.fst = some a → 0 < (read h a).length

theorem serve1_spec (M : Models ip H L fwd eI eS) (hset : ∀ (st : L.St) a b, L.set st a = L.set st b)
    {w : Server H} {v : Nat → L.Inst} (r : Apart eS w.state w.mem (fun k => L.get (v k))) (fl : Full w.state w.mem) (k : Nat)
    (c : Call (.stream X)) :
    match vcall L fwd ⟨v k, []⟩ (ofCall c) with
    | .error e => serve1 H w k c = .error e
    | .ok (o, v') => ∃ ho w', serve1 H w k c = .ok (ho, w') ∧
      Apart eS w'.state w'.mem (fun j => L.get (put v k v'.obj j)) ∧ Full w'.state w'.mem ∧ Rest w.state w.mem w'.mem ∧
      (∀ q < w.mem.length, (∀ k, (w.state k).map Prod.fst ≠ some q) → ∀ k, (w'.state k).map Prod.fst ≠ some q) ∧
      ∀ h', Rest w'.state w'.mem h' → look H h' ho = o := by
  -- the object after `set_state` or `clean_state`
  obtain ⟨i, h, v0, e0, e1, e2, e3, e4, e5⟩ : ∃ i h v0, resume H w k = (i, h) ∧ ObjRel eI h i v0 ∧ L.get (v k) = L.get v0 ∧ w.mem.length ≤ h.length ∧
      (∀ q < w.mem.length, read h q = read w.mem q) ∧
      ((w.state k).map Prod.fst = some i.1 ∨ w.mem.length ≤ i.1) := by
    have hval := r.val k
    unfold resume
    cases hs : w.state k with
    | some s =>
      have hs1 : (w.state k).map Prod.fst = some s.1 := by rw [hs]; rfl
      refine ⟨s, w.mem, _, rfl, ⟨r.valid k _ hs1, rfl⟩, ?_, Nat.le_refl _, fun _ _ => rfl, .inl rfl⟩
      rw [hs] at hval
      rw [M.get, if_pos (fl k _ hs1)]
      exact hval
    | none =>
      refine ⟨_, _, _, rfl, ⟨by simp [HLeaf.clean, alloc], rfl⟩, ?_, by simp [HLeaf.clean, alloc], fun q hq => ?_,
        .inr (by simp [HLeaf.clean, alloc])⟩
      · rw [hs] at hval
        rw [M.get]
        simp only [HLeaf.clean, alloc, read_alloc]
        exact hval
      · simp only [HLeaf.clean, alloc, read_append_lt hq]
  have hvc := vcall_get (fwd := fwd) hset (fun a b => by rw [M.clean, M.clean]) c e2
  have hcl := call_local M e1 c
  unfold serve1
  rw [e0]
  simp only
  cases hv : vcall L fwd ⟨v k, []⟩ (ofCall c) with
  | error e =>
    cases hv0 : vcall L fwd ⟨v0, []⟩ (ofCall c) with
    | error e' =>
      rw [hv, hv0] at hvc
      rw [hv0] at hcl
      simp only at hvc hcl
      simp only [hcl, hvc]
    | ok p => rw [hv, hv0] at hvc; exact absurd hvc id
  | ok p =>
    obtain ⟨o, v'⟩ := p
    cases hv0 : vcall L fwd ⟨v0, []⟩ (ofCall c) with
    | error e' => rw [hv, hv0] at hvc; exact absurd hvc id
    | ok p0 =>
      obtain ⟨o0, v0'⟩ := p0
      rw [hv, hv0] at hvc
      rw [hv0] at hcl
      obtain ⟨rfl, hg⟩ := hvc
      obtain ⟨ho, w', k1, k2, k3, k4, k5, k6⟩ := hcl
      rw [k1]
      -- the state of stream `k` afterwards
      have own : ∀ a, (H.get w'.obj w'.mem).map Prod.fst = some a → a = w'.obj.1 ∧ 0 < (read w'.mem a).length := by
        intro a ha
        rcases get_cases H w'.obj w'.mem with ⟨g1, g2⟩ | ⟨g1, g2⟩
        · rw [g1] at ha
          cases ha
          exact ⟨rfl, g2⟩
        · rw [g1] at ha; cases ha
      have addr : w.mem.length ≤ w'.obj.1 ∨ (w.state k).map Prod.fst = some w'.obj.1 := by
        rcases k5 with k5 | k5
        · exact .inl (Nat.le_trans e3 k5)
        · rcases e5 with e5 | e5
          · exact .inr (by rw [k5]; exact e5)
          · exact .inl (by omega)
      have keep : ∀ q < w.mem.length, (w.state k).map Prod.fst ≠ some q → read w'.mem q = read w.mem q := by
        intro q hq hn
        rw [k4 q (Nat.lt_of_lt_of_le hq e3), e4 q hq]
        rintro rfl
        rcases e5 with e5 | e5
        · exact hn e5
        · omega
      have ap := r.put k (H.get w'.obj w'.mem) (L.get v0'.obj) (Nat.le_trans e3 k3) keep (get_abs M k2) (by
        intro a ha
        obtain ⟨rfl, _⟩ := own a ha
        exact ⟨k2.1, addr⟩)
      have hput : (fun j => L.get (put v k v'.obj j)) = put (fun j => L.get (v j)) k (L.get v0'.obj) := by
        funext j
        by_cases hj : j = k
        · subst hj; rw [put_self, put_self, hg]
        · rw [put_ne _ _ hj, put_ne _ _ hj]
      refine ⟨ho, _, rfl, by rw [hput]; exact ap, ?_, ⟨Nat.le_trans e3 k3, fun q hq hn => keep q hq (hn k)⟩, ?_, ?_⟩
      · intro j a ha
        by_cases hj : j = k
        · subst hj
          simp only [put_self] at ha
          exact (own a ha).2
        · simp only [put_ne _ _ hj] at ha
          have := keep a (r.valid j a ha) fun hh => hj (r.apart j k a ha hh)
          simp only [this]
          exact fl j a ha
      · intro q hq hn j
        by_cases hj : j = k
        · subst hj
          simp only [put_self]
          intro hh
          obtain ⟨rfl, _⟩ := own q hh
          rcases addr with ad | ad
          · omega
          · exact hn j ad
        · simp only [put_ne _ _ hj]
          exact hn j
      · intro h' hr
        refine k6 h' fun q hq hq' hne => hr.2 q hq fun j => ?_
        by_cases hj : j = k
        · subst hj
          simp only [put_self]
          intro hh
          exact hne (own q hh).1
        · simp only [put_ne _ _ hj]
          intro hh
          have := r.valid j q hh
          omega

/-- No call of the stream raises, on an object of its own. -/
def Calm (rs : List (CallRes (.stream Y))) : Prop := ∀ r ∈ rs, ∀ e, r ≠ .raised e

/-- Whatever states an object keeps: public calls do not look at them. -/
theorem vcalls_kept (v : L.Inst) (ks : List (Option L.St)) (cs : List (Call (.stream X))) :
    (vcalls L fwd ⟨v, ks⟩ (cs.map ofCall)).1 = (vcalls L fwd ⟨v, []⟩ (cs.map ofCall)).1 := by
  induction cs generalizing v with
  | nil => rfl
  | cons c cs ih =>
    simp only [List.map_cons, vcalls]
    cases c with
    | step u x =>
      simp only [ofCall, vcall]
      cases L.forwardStep v u x with
      | error e => rfl
      | ok p => simp only; rw [ih]
    | steps p u xs =>
      simp only [ofCall, vcall]
      cases L.forwardSteps v p u xs with
      | error e => rfl
      | ok p => simp only; rw [ih]
    | clean => simp only [ofCall, vcall]; rw [ih]
    | fwd xs =>
      simp only [ofCall, vcall]
      cases fwd xs with
      | error e => rfl
      | ok p => simp only; rw [ih]

theorem serve_spec (M : Models ip H L fwd eI eS) (hset : ∀ (st : L.St) a b, L.set st a = L.set st b) :
    ∀ (es : List (Nat × Call (.stream X))) {w : Server H} {v : Nat → L.Inst},
      Apart eS w.state w.mem (fun k => L.get (v k)) → Full w.state w.mem →
      (∀ k, Calm (vcalls L fwd ⟨v k, []⟩ ((mine k es).map ofCall)).1) →
      (∀ k, (mine k (serve H w es).1).map (look H (serve H w es).2.mem) = (vcalls L fwd ⟨v k, []⟩ ((mine k es).map ofCall)).1) ∧
      Rest w.state w.mem (serve H w es).2.mem := by
  intro es
  induction es with
  | nil => intro w v _ _ _; exact ⟨fun k => rfl, Nat.le_refl _, fun _ _ _ => rfl⟩
  | cons e es ih =>
    obtain ⟨k, c⟩ := e
    intro w v r fl hc
    have h1 := serve1_spec M hset r fl k c
    have hck := hc k
    rw [mine_cons, if_pos rfl, List.map_cons, vcalls] at hck
    cases hv : vcall L fwd ⟨v k, []⟩ (ofCall c) with
    | error e =>
      rw [hv] at hck
      exact absurd rfl (hck (.raised e) (by simp) e)
    | ok p =>
      obtain ⟨o, v'⟩ := p
      rw [hv] at h1 hck
      simp only at hck
      obtain ⟨ho, w', s1, s2, s3, s4, s5, s6⟩ := h1
      have hv' : v' = ⟨v'.obj, v'.kept⟩ := rfl
      have hc' : ∀ j, Calm (vcalls L fwd ⟨put v k v'.obj j, []⟩ ((mine j es).map ofCall)).1 := by
        intro j
        by_cases hj : j = k
        · subst hj
          rw [put_self]
          intro a ha
          refine hck a (List.mem_cons_of_mem _ ?_)
          rw [hv', vcalls_kept]
          exact ha
        · rw [put_ne _ _ hj]
          have := hc j
          rw [mine_cons, if_neg (Ne.symm hj)] at this
          exact this
      obtain ⟨i1, i2⟩ := ih s2 s3 hc'
      have hrest : Rest w.state w.mem (serve H w' es).2.mem := by
        refine ⟨Nat.le_trans s4.1 i2.1, fun q hq hn => ?_⟩
        rw [i2.2 q (Nat.lt_of_lt_of_le hq s4.1) (s5 q hq hn), s4.2 q hq hn]
      simp only [serve, s1]
      refine ⟨fun j => ?_, hrest⟩
      rw [mine_cons, mine_cons]
      by_cases hj : j = k
      · subst hj
        rw [if_pos rfl, if_pos rfl, List.map_cons, List.map_cons, vcalls, hv, i1 j, put_self, s6 _ i2]
        simp only
        conv_rhs => rw [hv', vcalls_kept]
      · rw [if_neg (Ne.symm hj), if_neg (Ne.symm hj), i1 j, put_ne _ _ hj]

theorem served_spec (M : Models ip H L fwd eI eS) (hset : ∀ (st : L.St) a b, L.set st a = L.set st b)
    (es : List (Nat × Call (.stream X))) (hc : ∀ k, Calm (vcalls L fwd ⟨L.init, []⟩ ((mine k es).map ofCall)).1) (k : Nat) :
    served H es k = (vcalls L fwd ⟨L.init, []⟩ ((mine k es).map ofCall)).1 := by
  refine (serve_spec M hset es (w := Server.new H) (v := fun _ => L.init) ⟨fun j => ?_, ?_, ?_⟩ ?_ hc).1 k
  · rw [M.init, M.get]; rfl
  · intro j a ha; cases ha
  · intro j j' a ha; cases ha
  · intro j a ha; cases ha

/-- Functional stepping with values. -/
def vthread (L : Leaf X Y) : Option L.St → List X → Except Err (List (Option Y))
  | _, [] => .ok []
  | s, x :: xs => match L.pstep x s with
    | .error e => .error e
    | .ok (o, s') => match vthread L s' xs with
      | .error e => .error e
      | .ok os => .ok (o :: os)

theorem threads_spec (M : Models ip H L fwd eI eS) : ∀ (es : List (Nat × X)) {st : Nat → Option (Nat × H.A)} {h : Mem V}
    {v : Nat → Option L.St}, Apart eS st h v → (∀ k, ∃ os, vthread L (v k) (mine k es) = .ok os) →
    ∃ os h', threads H st h es = .ok (os, h') ∧ Rest st h h' ∧
      ∀ k, vthread L (v k) (mine k es) = .ok ((mine k os).map fun o => (o.bind (View.read h')).bind H.frame) := by
  intro es
  induction es with
  | nil => intro st h v _ _; exact ⟨[], h, rfl, ⟨Nat.le_refl _, fun _ _ _ => rfl⟩, fun _ => rfl⟩
  | cons e es ih =>
    obtain ⟨k, x⟩ := e
    intro st h v r hc
    have hp := M.pstep x (st k) h (fun s hs => r.valid k _ (by rw [hs]; rfl))
    rw [show (st k).map (fun st => eS (read h st.1, st.2)) = v k from (r.val k).symm] at hp
    unfold StepOk at hp
    obtain ⟨osk, hck⟩ := hc k
    rw [mine_cons, if_pos rfl, vthread] at hck
    cases hv : L.pstep x (v k) with
    | error e => rw [hv] at hck; cases hck
    | ok p =>
      obtain ⟨o, t⟩ := p
      rw [hv] at hp hck
      obtain ⟨rr, k1, k2, _, k4, k5, k6⟩ := hp
      simp only at hck
      have keep : ∀ q < h.length, (st k).map Prod.fst ≠ some q → read rr.mem q = read h q := fun q hq hn =>
        k4.2 q hq (.inr (.inl hn))
      have own : ∀ a, rr.state.map Prod.fst = some a → a < rr.mem.length ∧ (h.length ≤ a ∨ (st k).map Prod.fst = some a) := by
        intro a ha
        cases hs : rr.state with
        | none => rw [hs] at ha; cases ha
        | some s =>
          rw [hs] at ha
          cases ha
          exact k5 s hs
      have ap := r.put k rr.state t k4.1 keep k2 own
      have hc' : ∀ j, ∃ os, vthread L (put v k t j) (mine j es) = .ok os := by
        intro j
        by_cases hj : j = k
        · subst hj
          rw [put_self]
          cases hv2 : vthread L t (mine j es) with
          | error e => rw [hv2] at hck; cases hck
          | ok os => exact ⟨os, rfl⟩
        · rw [put_ne _ _ hj]
          have := hc j
          rw [mine_cons, if_neg (Ne.symm hj)] at this
          exact this
      obtain ⟨os, h', t1, t2, t3⟩ := ih ap hc'
      refine ⟨(k, rr.out) :: os, h', ?_, ?_, fun j => ?_⟩
      · simp only [threads, thread1, k1, t1]
      · refine ⟨Nat.le_trans k4.1 t2.1, fun q hq hn => ?_⟩
        rw [t2.2 q (Nat.lt_of_lt_of_le hq k4.1), keep q hq (hn k)]
        intro j
        by_cases hj : j = k
        · subst hj
          rw [put_self]
          intro hh
          rcases (own q hh).2 with hh' | hh'
          · omega
          · exact hn j hh'
        · rw [put_ne _ _ hj]; exact hn j
      · rw [mine_cons, mine_cons]
        by_cases hj : j = k
        · subst hj
          have t3j := t3 j
          rw [put_self] at t3j
          rw [if_pos rfl, if_pos rfl, vthread, hv]
          simp only
          rw [t3j]
          simp only [List.map_cons]
          congr 2
          cases ho : rr.out with
          | none => rw [ho] at k6; simp only at k6; rw [k6]; rfl
          | some u =>
            rw [ho] at k6
            obtain ⟨⟨z, z1, z2⟩, z3, z4, z5, z6⟩ := k6
            have e : View.read h' u = some z := by
              rw [← z1]
              unfold View.read
              rw [t2.2 _ z5]
              intro j'
              by_cases hj' : j' = j
              · subst hj'
                rw [put_self]
                cases hs : rr.state with
                | none => simp
                | some s => simpa using z6 s hs
              · rw [put_ne _ _ hj']
                intro hh
                have := r.valid j' _ hh
                omega
            simp only [Option.bind_some, e, z2]
        · have t3j := t3 j
          rw [put_ne _ _ hj] at t3j
          rw [if_neg (Ne.symm hj), if_neg (Ne.symm hj), t3j]

end CoInf.Heap
