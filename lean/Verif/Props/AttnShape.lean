/-
C125: attention refuses queries, keys and values of other batch sizes.
-/
import Verif.Model.AttnShape

set_option autoImplicit false

namespace CoInf
open AttnShape
open Shape (EMod play)

variable {A B C V S O : Type}

/-- Query, key and value have `n` entries each. -/
def Spec.OfSize (n : Nat) (f : Frame A B C) : Prop := f.query.length = n ∧ f.key.length = n ∧ f.value.length = n

instance (n : Nat) (f : Frame A B C) : Decidable (Spec.OfSize n f) := by unfold Spec.OfSize; infer_instance

/-- The results for the frames that satisfy `p`. -/
def Spec.picked {X R : Type} (p : X → Prop) [DecidablePred p] (xs : List X) (rs : List R) : List R :=
  ((xs.zip rs).filter fun z => p z.1).map Prod.snd

/-- Frames that satisfy `p` are the only ones to be accepted and to change the object, as long as its state satisfies `P`. -/
structure Spec.Refuses {X Y : Type} (M : EMod X Y) (P : M.Inst → Prop) (p q : X → Prop) : Prop where
  keep : ∀ i x, P i → p x → P (M.step i true x).2
  refuse : ∀ i u x, P i → ¬ p x → q x → ∃ e, M.step i u x = (.error e, i)

open Spec

theorem Spec.Refuses.plays {X Y : Type} {M : EMod X Y} {P : M.Inst → Prop} {p q : X → Prop} [DecidablePred p] (h : Refuses M P p q)
    (xs : List X) (hq : ∀ x ∈ xs, q x) : ∀ i, P i →
    picked p xs (play M i xs) = play M i (xs.filter fun x => p x) ∧
      ∀ r ∈ picked (fun x => ¬ p x) xs (play M i xs), ∃ e, r = .error e := by
  induction xs with
  | nil => intro i _; simp [picked, play]
  | cons x xs ih =>
    intro i hi
    have ih := ih fun y hy => hq y (by simp [hy])
    by_cases hp : p x
    · obtain ⟨a, b⟩ := ih _ (h.keep i x hi hp)
      simp only [picked] at a b
      simp only [picked, play, List.zip_cons_cons, List.filter_cons, hp, decide_true, not_true, decide_false, if_true,
        List.map_cons, a]
      exact ⟨trivial, by simpa using b⟩
    · obtain ⟨e, he⟩ := h.refuse i true x hi hp (hq x (by simp))
      obtain ⟨a, b⟩ := ih i hi
      simp only [picked] at a b
      simp only [picked, play, List.zip_cons_cons, List.filter_cons, hp, decide_false, not_false_eq_true, decide_true, if_true,
        List.map_cons, he, a]
      refine ⟨by simpa using a, ?_⟩
      intro r hr
      rcases List.mem_cons.1 hr with rfl | hr
      · exact ⟨e, rfl⟩
      · exact b r hr

namespace AttnShape

theorem rows_length {X : Type} {H : Nat} (p : X → Fin H → V) (xs : List X) : (rows p xs).length = xs.length * H := by
  induction xs with
  | nil => simp [rows]
  | cons x xs ih =>
    simp only [rows, List.flatMap_cons, List.length_append, List.length_ofFn, List.length_cons] at ih ⊢
    rw [ih, Nat.succ_mul, Nat.add_comm]

theorem view_mat {xs ys : List V} {r : Nat} (h : view xs r = .ok (.mat ys)) : ys = xs ∧ xs.length = r := by
  unfold view at h
  split at h
  · cases h
  · rename_i hr
    split at h
    · rename_i h1
      cases h
      refine ⟨rfl, ?_⟩
      have := Nat.div_add_mod xs.length r
      rw [h1] at this
      simp only [not_or, not_not] at hr
      omega
    · cases h

theorem filterMap_range (xs : List V) : ∀ k, k ≤ xs.length → (List.range k).filterMap (fun j => xs[j]?) = xs.take k
  | 0, _ => by simp
  | k + 1, h => by
    rw [List.range_succ, List.filterMap_append, filterMap_range xs k (by omega), List.take_add_one]
    simp [List.getElem?_eq_getElem (show k < xs.length by omega)]

theorem view_cube {xs : List V} {zs : List (List V)} {r : Nat} (h : view xs r = .ok (.cube zs)) :
    zs.length = r ∧ 0 < r ∧ xs.length ≠ r ∧ ∀ z ∈ zs, r = 1 → z = xs := by
  unfold view at h
  split at h
  · cases h
  · rename_i hr
    simp only [not_or, not_not] at hr
    split at h
    · cases h
    · rename_i h1
      cases h
      refine ⟨by simp, by omega, ?_, ?_⟩
      · intro he
        exact h1 (by rw [he]; exact Nat.div_self (by omega))
      · intro z hz h2
        subst h2
        simp only [List.range_one, List.map_cons, List.map_nil, List.mem_singleton] at hz
        subst hz
        simp only [Nat.div_one, Nat.mul_one, Nat.add_zero]
        rw [filterMap_range xs _ (le_refl _), List.take_length]

theorem assignRow_ok {n : Nat} {xs ys : List V} (h : Shape.assignRow n xs = .ok ys) :
    ys.length = n ∧ (xs.length = n ∨ xs.length = 1) := by
  unfold Shape.assignRow at h
  split at h
  · rename_i hl
    cases h
    exact ⟨hl, .inl hl⟩
  · split at h
    · cases h
      exact ⟨by simp, .inr rfl⟩
    · cases h

theorem runRows_length {r : Row V S O} : ∀ {ss : List S} {q k v : List V} {os : List O} {ss' : List S}, q.length = ss.length →
    k.length = ss.length → v.length = ss.length → runRows r ss q k v = .ok (os, ss') → ss'.length = ss.length
  | [], q, k, v, os, ss', _, _, _, h => by
    unfold runRows at h
    cases h
    rfl
  | s :: ss, q :: qs, k :: ks, v :: vs, os, ss', h1, h2, h3, h => by
    unfold runRows at h
    split at h
    · cases h
    · split at h
      · cases h
      · rename_i hr
        cases h
        have := runRows_length (by simpa using h1) (by simpa using h2) (by simpa using h3) hr
        simp [this]
  | _ :: _, [], _, _, _, _, h1, _, _, _ => by simp at h1
  | _ :: _, _ :: _, [], _, _, _, _, h2, _, _ => by simp at h2
  | _ :: _, _ :: _, _ :: _, [], _, _, _, _, h3, _ => by simp at h3

/-- What `retroSdpa` accepts. -/
theorem retroSdpa_ok {r : Row V S O} {ss ss' : List S} {q : List V} {k v : Ten V} {os : List O}
    (h : retroSdpa r ss q k v = .ok (os, ss')) : ∃ ks vs, k = .mat ks ∧ v = .mat vs ∧ ks.length = ss.length ∧
      q.length = ss.length ∧ vs.length = ss.length ∧ ss'.length = ss.length := by
  unfold retroSdpa at h
  split at h
  · rename_i ks vs
    split at h
    · rename_i hl
      exact ⟨ks, vs, rfl, rfl, hl.1, hl.2.1, hl.2.2, runRows_length hl.2.1 hl.1 hl.2.2 h⟩
    · cases h
  · cases h

/-- What `singleSdpa` accepts. -/
theorem singleSdpa_ok {older : Bool} {r : Row V S O} {ss ss' : List S} {q : List V} {k v : Ten V} {os : List O}
    (h : singleSdpa older r ss q k v = .ok (os, ss')) : (∃ ks, assign ss.length k = .ok ks) ∧ (∃ vs, assign ss.length v = .ok vs) ∧
      (q.length = ss.length ∨ older = true ∧ q.length = 1) ∧ ss'.length = ss.length := by
  have ha : ∀ {t : Ten V} {ys}, assign ss.length t = .ok ys → ys.length = ss.length := by
    intro t ys h
    unfold assign at h
    split at h
    · exact (assignRow_ok h).1
    · exact (assignRow_ok h).1
    · cases h
  unfold singleSdpa at h
  split at h
  · rename_i ks vs hk hv
    refine ⟨⟨_, hk⟩, ⟨_, hv⟩, ?_⟩
    split at h
    · rename_i ho
      split at h
      · rename_i qs hq
        have hq' := assignRow_ok (by simpa [assign] using hq)
        exact ⟨hq'.2.imp id fun e => ⟨ho, e⟩, runRows_length hq'.1 (ha hk) (ha hv) h⟩
      · cases h
    · split at h
      · rename_i hq
        exact ⟨.inl hq, runRows_length hq (ha hk) (ha hv) h⟩
      · cases h
  · cases h
  · cases h

/-- The object of a running stream with `n` entries. -/
def Running (c : Cfg A B C V S O) (n : Nat) : Option (List S × Int) → Prop
  | none => False
  | some st => st.1.length = n * c.H

/-- What `pstep` accepts. -/
theorem pstep_ok {c : Cfg A B C V S O} {sdpa : List S → List V → Ten V → Ten V → Except Err (List O × List S)} {f : Frame A B C}
    {s : Option (List S × Int)} {n : Nat} (hs : Running c n s ∨ s = none ∧ n = f.query.length) {o st}
    (h : pstep c sdpa f s = .ok (o, st)) : ∃ ss k v os, ss.length = n * c.H ∧ f.key.length = f.value.length ∧
      view (rows c.k f.key) (f.query.length * c.H) = .ok k ∧ view (rows c.v f.value) (f.query.length * c.H) = .ok v ∧
      sdpa ss (rows c.q f.query) k v = .ok (os, st.1) := by
  unfold pstep at h
  split at h
  · cases h
  · rename_i ss idx he
    have hl : ss.length = n * c.H := by
      rcases hs with hs | ⟨hs, hn⟩
      · cases s with
        | none => exact hs.elim
        | some st => simp only [Except.ok.injEq] at he; rw [he] at hs; exact hs
      · subst hs
        cases hi : c.row.init with
        | error e => simp only [hi] at he; cases he
        | ok z => simp only [hi] at he; cases he; simp [hn]
    split at h
    · cases h
    · rename_i hkv
      split at h
      · rename_i k v hk hv
        split at h
        · cases h
        · rename_i os ss' hr
          cases h
          exact ⟨ss, k, v, os, hl, by omega, hk, hv, hr⟩
      · cases h
      · cases h

theorem retro_size {c : Cfg A B C V S O} (hH : 0 < c.H) {f : Frame A B C} {s : Option (List S × Int)} {n : Nat}
    (hs : Running c n s ∨ s = none ∧ n = f.query.length) {o st} (h : pstep c (retroSdpa c.row) f s = .ok (o, st)) :
    OfSize n f ∧ st.1.length = n * c.H := by
  obtain ⟨ss, k, v, os, hl, hkv, hk, hv, hr⟩ := pstep_ok hs h
  obtain ⟨ks, vs, rfl, rfl, h1, h2, h3, h4⟩ := retroSdpa_ok hr
  obtain ⟨rfl, hk2⟩ := view_mat hk
  rw [rows_length] at h1 h2 hk2
  rw [hl] at h1 h2 h4
  have e1 := Nat.eq_of_mul_eq_mul_right hH h1
  have e2 := Nat.eq_of_mul_eq_mul_right hH h2
  exact ⟨⟨e2, e1, by omega⟩, h4⟩

theorem assign_size {n H a b : Nat} {xs ks : List V} {k : Ten V} (hH : 0 < H) (hb : xs.length = b * H) (ha : a = n)
    (hk : view xs (a * H) = .ok k) (h : assign (n * H) k = .ok ks) : b = n := by
  subst ha
  cases k with
  | mat ys =>
    obtain ⟨rfl, e⟩ := view_mat hk
    exact Nat.eq_of_mul_eq_mul_right hH (hb.symm.trans e)
  | cube zs =>
    obtain ⟨h1, h2, h3, h4⟩ := view_cube hk
    match zs, h with
    | [], h => rw [← h1] at h2; simp at h2
    | [z], h =>
      simp only [List.length_cons, List.length_nil, Nat.zero_add] at h1
      have := h4 z (by simp) h1.symm
      subst this
      rcases (assignRow_ok (show Shape.assignRow (a * H) z = .ok ks from h)).2 with e | e
      · exact absurd e h3
      · exact absurd (e.trans h1) h3
    | _ :: _ :: _, h => cases h

/-- In a single-output module that remembers queries, with one head, a query of one entry is something else than refused. -/
def Ambiguous (c : Cfg A B C V S O) (older : Bool) (n : Nat) (f : Frame A B C) : Prop :=
  older = true ∧ c.H = 1 ∧ n ≠ 1 ∧ f.query.length = 1

theorem single_size {c : Cfg A B C V S O} {older : Bool} (hH : 0 < c.H) {f : Frame A B C} {s : Option (List S × Int)} {n : Nat}
    (hs : Running c n s ∨ s = none ∧ n = f.query.length) (ha : ¬ Ambiguous c older n f) {o st}
    (h : pstep c (singleSdpa older c.row) f s = .ok (o, st)) : OfSize n f ∧ st.1.length = n * c.H := by
  obtain ⟨ss, k, v, os, hl, hkv, hk, hv, hr⟩ := pstep_ok hs h
  obtain ⟨⟨ks, h1⟩, ⟨vs, h2⟩, h3, h4⟩ := singleSdpa_ok hr
  rw [hl] at h1 h2 h3 h4
  rw [rows_length] at h3
  have hq : f.query.length = n := by
    rcases h3 with h3 | ⟨h3, h5⟩
    · exact Nat.eq_of_mul_eq_mul_right hH h3
    · have h6 := Nat.eq_one_of_mul_eq_one_right h5
      have h7 := Nat.eq_one_of_mul_eq_one_left h5
      refine Classical.byContradiction fun hn => ha ⟨h3, h7, ?_, h6⟩
      omega
  have hb := assign_size hH (rows_length _ _) hq hk h1
  exact ⟨⟨hq, hb, by omega⟩, h4⟩

/-- From the sizes `pstep` accepts to the calls of `forward_step`. -/
theorem refuses (c : Cfg A B C V S O) (sdpa : List S → List V → Ten V → Ten V → Except Err (List O × List S)) (n : Nat)
    (q : Frame A B C → Prop) (h : ∀ s f o st, Running c n s → q f → pstep c sdpa f s = .ok (o, st) → OfSize n f ∧ st.1.length = n * c.H)
    (hq : ∀ f, OfSize n f → q f) :
    Refuses (X := Frame A B C) (Y := List O) ⟨Option (List S × Int), none, step c sdpa⟩ (Running c n) (OfSize n) q where
  keep := by
    intro i f hi hf
    show Running c n (step c sdpa i true f).2
    unfold step
    cases hp : pstep c sdpa f i with
    | error e => exact hi
    | ok r => exact (h i f r.1 r.2 hi (hq f hf) hp).2
  refuse := by
    intro i u f hi hf hqf
    show ∃ e, step c sdpa i u f = (.error e, i)
    unfold step
    cases hp : pstep c sdpa f i with
    | error e => exact ⟨e, rfl⟩
    | ok r => exact absurd (h i f r.1 r.2 hi hqf hp).1 hf

theorem step_ok {c : Cfg A B C V S O} {sdpa : List S → List V → Ten V → Ten V → Except Err (List O × List S)} {f : Frame A B C}
    {i : Option (List S × Int)} {o} (h : (step c sdpa i true f).1 = .ok o) :
    ∃ st, pstep c sdpa f i = .ok (o, st) ∧ (step c sdpa i true f).2 = some st := by
  unfold step at h ⊢
  cases hp : pstep c sdpa f i with
  | error e => rw [hp] at h; cases h
  | ok r => rw [hp] at h; cases h; exact ⟨r.2, rfl, rfl⟩

end AttnShape

/-- Both kinds of attention modules, and the frames for which they are claimed to refuse other sizes. -/
inductive Spec.Attention (c : Cfg A B C V S O) : EMod (Frame A B C) (List O) → (Nat → Frame A B C → Prop) → Prop
  | retro : Attention c (retro c) fun _ _ => True
  | single (older : Bool) :
    Attention c (single c older) fun n f => older = true → c.H = 1 → f.query.length = 1 → n = 1

namespace AttnShape

theorem Spec_sizes {c : Cfg A B C V S O} {M : EMod (Frame A B C) (List O)} {q : Nat → Frame A B C → Prop} (hM : Attention c M q) :
    ∃ sdpa, M = ⟨Option (List S × Int), none, step c sdpa⟩ ∧ (∀ n f, OfSize n f → q n f) ∧
      ∀ n s f o st, 0 < c.H → (Running c n s ∧ q n f ∨ s = none ∧ n = f.query.length) → pstep c sdpa f s = .ok (o, st) →
        OfSize n f ∧ st.1.length = n * c.H := by
  cases hM with
  | retro =>
    exact ⟨retroSdpa c.row, rfl, fun _ _ _ => trivial, fun n s f o st hH hs h => retro_size hH (hs.imp And.left id) h⟩
  | single older =>
    refine ⟨singleSdpa older c.row, rfl, fun n f hf _ _ h => by rw [← hf.1, h], fun n s f o st hH hs h =>
      single_size hH (hs.imp And.left id) ?_ h⟩
    rintro ⟨h1, h2, h3, h4⟩
    rcases hs with hs | hs
    · exact h3 (hs.2 h1 h2 h4)
    · omega

end AttnShape

/-- **C125**: query, key and value of the first accepted frame have the same number `n` of entries.  From then on every frame whose query,
key or value has another number of entries is answered by an exception and leaves the module as it was: the
results for frames of `n` entries are those of the stream without the other frames.

What is missing: a query of one entry while `n ≠ 1` is not refused by a single-output module with one head that remembers queries,
see `C125_single_entry_refuted`. -/
theorem C125_refused_partial {c : Cfg A B C V S O} {M : EMod (Frame A B C) (List O)} {q : Nat → Frame A B C → Prop}
    (hM : Attention c M q) (hH : 0 < c.H) (f0 : Frame A B C) (o : Option (List O)) (h0 : (M.step M.init true f0).1 = .ok o)
    (fs : List (Frame A B C)) (hq : ∀ f ∈ fs, q f0.query.length f) :
    OfSize f0.query.length f0 ∧
      picked (OfSize f0.query.length) fs (play M (M.step M.init true f0).2 fs) =
        play M (M.step M.init true f0).2 (fs.filter fun f => OfSize f0.query.length f) ∧
      ∀ r ∈ picked (fun f => ¬ OfSize f0.query.length f) fs (play M (M.step M.init true f0).2 fs), ∃ e, r = .error e := by
  obtain ⟨sdpa, rfl, hsz, hp⟩ := Spec_sizes hM
  obtain ⟨st, h1, h2⟩ := step_ok h0
  obtain ⟨h3, h4⟩ := hp _ _ _ _ _ hH (.inr ⟨rfl, rfl⟩) h1
  refine ⟨h3, ?_⟩
  refine (refuses c sdpa f0.query.length (q f0.query.length) (fun s f o st hs hf h => hp _ _ _ _ _ hH (.inl ⟨hs, hf⟩) h)
    (hsz _)).plays fs hq _ ?_
  show Running c _ (step c sdpa none true f0).2
  rw [h2]
  exact h4

/-- **C125**: before the first accepted frame, a frame whose query, key and value do not have the same number of entries is answered by
an exception, and leaves the module as it was. -/
theorem C125_first {c : Cfg A B C V S O} {M : EMod (Frame A B C) (List O)} {q : Nat → Frame A B C → Prop}
    (hM : Attention c M q) (hH : 0 < c.H) (f0 : Frame A B C) (u : Bool) (h : ¬ OfSize f0.query.length f0) :
    ∃ e, M.step M.init u f0 = (.error e, M.init) := by
  obtain ⟨sdpa, rfl, hsz, hp⟩ := Spec_sizes hM
  show ∃ e, step c sdpa none u f0 = (.error e, none)
  unfold step
  cases hp' : pstep c sdpa f0 none with
  | error e => exact ⟨e, rfl⟩
  | ok r => exact absurd (hp _ _ _ _ _ hH (.inr ⟨rfl, rfl⟩) hp').1 h

/-! ### What is accepted -/

namespace AttnShape

theorem runRows_spec (r : Row V S O) : ∀ (ss : List S) (q k v : List V) (os : List O) (ss' : List S), q.length = ss.length →
    k.length = ss.length → v.length = ss.length → os.length = ss.length → ss'.length = ss.length →
    (∀ (j : Nat) s a b d o s', ss[j]? = some s → q[j]? = some a → k[j]? = some b → v[j]? = some d → os[j]? = some o → ss'[j]? = some s' →
      r.step s a b d = .ok (o, s')) → runRows r ss q k v = .ok (os, ss')
  | [], q, k, v, os, ss', h1, h2, h3, h4, h5, _ => by
    have e1 := List.eq_nil_of_length_eq_zero h4
    have e2 := List.eq_nil_of_length_eq_zero h5
    subst e1 e2
    unfold runRows
    rfl
  | s :: ss, q :: qs, k :: ks, v :: vs, o :: os, s' :: ss', h1, h2, h3, h4, h5, h => by
    unfold runRows
    rw [h 0 s q k v o s' rfl rfl rfl rfl rfl rfl, runRows_spec r ss qs ks vs os ss' (by simpa using h1) (by simpa using h2)
      (by simpa using h3) (by simpa using h4) (by simpa using h5) (fun j => h (j + 1))]
  | _ :: _, [], _, _, _, _, h1, _, _, _, _, _ => by simp at h1
  | _ :: _, _ :: _, [], _, _, _, _, h2, _, _, _, _ => by simp at h2
  | _ :: _, _ :: _, _ :: _, [], _, _, _, _, h3, _, _, _ => by simp at h3
  | _ :: _, _ :: _, _ :: _, _ :: _, [], _, _, _, _, h4, _, _ => by simp at h4
  | _ :: _, _ :: _, _ :: _, _ :: _, _ :: _, [], _, _, _, _, h5, _ => by simp at h5

theorem view_self {xs : List V} {r : Nat} (hr : 0 < r) (h : xs.length = r) : view xs r = .ok (.mat xs) := by
  unfold view
  rw [if_neg (by rw [h, Nat.mod_self]; simp; omega), if_pos (by rw [h, Nat.div_self hr])]

theorem assignRow_self (xs : List V) {n : Nat} (h : xs.length = n) : Shape.assignRow n xs = .ok xs := by
  unfold Shape.assignRow
  rw [if_pos h]

theorem rows_get {X : Type} {H : Nat} (p : X → Fin H → V) : ∀ (xs : List X) (j : Nat) (h : Fin H),
    (rows p xs)[j * H + h]? = xs[j]?.map fun x => p x h
  | [], j, h => by simp [rows]
  | x :: xs, 0, h => by
    simp only [rows, List.flatMap_cons]
    rw [List.getElem?_append_left (by simp [h.isLt])]
    simp [h.isLt]
  | x :: xs, j + 1, h => by
    have := rows_get p xs j h
    simp only [rows, List.flatMap_cons] at this ⊢
    rw [List.getElem?_append_right (by rw [List.length_ofFn, Nat.succ_mul]; omega), List.length_ofFn,
      show (j + 1) * H + h.val - H = j * H + h.val by rw [Nat.succ_mul]; omega, this]
    simp

end AttnShape

/-- Every row, that is every head `h` of every entry `j`, steps on its own: from state `ss[j * H + h]`, on the projected query, key and
value of entry `j`. -/
def Spec.RowsStep (c : Cfg A B C V S O) (ss : List S) (f : Frame A B C) (os : List O) (ss' : List S) : Prop :=
  ∀ (j : Nat) (h : Fin c.H) a b d s o s', f.query[j]? = some a → f.key[j]? = some b → f.value[j]? = some d →
    ss[j * c.H + h]? = some s → os[j * c.H + h]? = some o → ss'[j * c.H + h]? = some s' →
    c.row.step s (c.q a h) (c.k b h) (c.v d h) = .ok (o, s')

namespace AttnShape

theorem runRows_frame {c : Cfg A B C V S O} {f : Frame A B C} {n : Nat} (hf : OfSize n f) {ss ss' : List S} {os : List O}
    (h1 : ss.length = n * c.H) (h2 : os.length = n * c.H) (h3 : ss'.length = n * c.H) (h : RowsStep c ss f os ss') :
    runRows c.row ss (rows c.q f.query) (rows c.k f.key) (rows c.v f.value) = .ok (os, ss') := by
  refine runRows_spec _ _ _ _ _ _ _ (by rw [rows_length, hf.1, h1]) (by rw [rows_length, hf.2.1, h1])
    (by rw [rows_length, hf.2.2, h1]) (by omega) (by omega) fun i s a b d o s' e1 e2 e3 e4 e5 e6 => ?_
  have hi : i < n * c.H := by rw [← h1]; exact (List.getElem?_eq_some_iff.1 e1).1
  have hH : 0 < c.H := Nat.pos_of_ne_zero fun e => by rw [e] at hi; omega
  obtain ⟨j, t, ht, rfl⟩ : ∃ j t, t < c.H ∧ i = j * c.H + t :=
    ⟨i / c.H, i % c.H, Nat.mod_lt _ hH, by rw [Nat.mul_comm]; exact (Nat.div_add_mod _ _).symm⟩
  have r1 := (rows_get c.q f.query j ⟨t, ht⟩).symm.trans e2
  have r2 := (rows_get c.k f.key j ⟨t, ht⟩).symm.trans e3
  have r3 := (rows_get c.v f.value j ⟨t, ht⟩).symm.trans e4
  obtain ⟨x, g1, rfl⟩ := Option.map_eq_some_iff.1 r1
  obtain ⟨y, g2, rfl⟩ := Option.map_eq_some_iff.1 r2
  obtain ⟨z, g3, rfl⟩ := Option.map_eq_some_iff.1 r3
  exact h j ⟨t, ht⟩ x y z s o s' g1 g2 g3 e1 e5 e6

theorem retro_frame {c : Cfg A B C V S O} {n : Nat} {f : Frame A B C} (hf : OfSize n f) {ss ss' : List S} {os : List O}
    (h1 : ss.length = n * c.H) (h2 : os.length = n * c.H) (h3 : ss'.length = n * c.H) (h : RowsStep c ss f os ss') :
    retroSdpa c.row ss (rows c.q f.query) (.mat (rows c.k f.key)) (.mat (rows c.v f.value)) = .ok (os, ss') := by
  unfold retroSdpa
  simp only []
  rw [if_pos ⟨by rw [rows_length, hf.2.1, h1], by rw [rows_length, hf.1, h1], by rw [rows_length, hf.2.2, h1]⟩]
  exact runRows_frame hf h1 h2 h3 h

theorem single_frame {c : Cfg A B C V S O} (older : Bool) {n : Nat} {f : Frame A B C} (hf : OfSize n f) {ss ss' : List S} {os : List O}
    (h1 : ss.length = n * c.H) (h2 : os.length = n * c.H) (h3 : ss'.length = n * c.H) (h : RowsStep c ss f os ss') :
    singleSdpa older c.row ss (rows c.q f.query) (.mat (rows c.k f.key)) (.mat (rows c.v f.value)) = .ok (os, ss') := by
  unfold singleSdpa
  simp only [assign]
  rw [assignRow_self (rows c.q f.query) (by rw [rows_length, hf.1, h1]), assignRow_self (rows c.k f.key) (by rw [rows_length, hf.2.1, h1]),
    assignRow_self (rows c.v f.value) (by rw [rows_length, hf.2.2, h1])]
  simp only []
  have := runRows_frame hf h1 h2 h3 h
  cases older
  · simp only [Bool.false_eq_true, if_false]
    rw [if_pos (by rw [rows_length, hf.1, h1]), this]
  · simp only [if_true, this]

theorem step_frame {c : Cfg A B C V S O} {sdpa : List S → List V → Ten V → Ten V → Except Err (List O × List S)} (hH : 0 < c.H)
    {n : Nat} (hn : 0 < n) {f : Frame A B C} (hf : OfSize n f) {ss ss' : List S} {os : List O}
    (hs : sdpa ss (rows c.q f.query) (.mat (rows c.k f.key)) (.mat (rows c.v f.value)) = .ok (os, ss')) (idx : Int) :
    step c sdpa (some (ss, idx)) true f =
      (.ok (if idx + 1 < 0 then none else some os), some (ss', if idx < 0 then idx + 1 else idx)) := by
  have hv : 0 < f.query.length * c.H := by rw [hf.1]; exact Nat.mul_pos hn hH
  unfold step pstep
  simp only []
  rw [if_neg (by rw [hf.2.1, hf.2.2]; simp), view_self hv (by rw [rows_length, hf.1, hf.2.1]),
    view_self hv (by rw [rows_length, hf.1, hf.2.2])]
  simp only [hs, if_true]
  by_cases hx : idx < 0
  · simp [hx]
  · simp [hx, show ¬ idx + 1 < 0 by omega]

theorem step_first {c : Cfg A B C V S O} {sdpa : List S → List V → Ten V → Ten V → Except Err (List O × List S)}
    {n : Nat} {f : Frame A B C} (hf : OfSize n f) {s0 : S} (hi : c.row.init = .ok s0) {o}
    (ho : (step c sdpa (some (List.replicate (n * c.H) s0, -(c.N : Int))) true f).1 = .ok o) :
    step c sdpa none true f = step c sdpa (some (List.replicate (n * c.H) s0, -(c.N : Int))) true f := by
  have hp : pstep c sdpa f none = pstep c sdpa f (some (List.replicate (n * c.H) s0, -(c.N : Int))) := by
    unfold pstep
    simp only [hi, Except.map, hf.1]
  obtain ⟨st, h1, -⟩ := step_ok ho
  unfold step
  rw [hp, h1]
  rfl

end AttnShape

/-- **C125**: a frame whose query, key and value have `n ≥ 1` entries, as the state has, is accepted.  Every head of every entry steps
on its own state and its own projected query, key and value.  The result is there once `sequence_len` frames have come. -/
theorem C125_accepted (c : Cfg A B C V S O) (hH : 0 < c.H) {n : Nat} (hn : 0 < n) (f : Frame A B C) (hf : OfSize n f)
    (ss ss' : List S) (os : List O) (h1 : ss.length = n * c.H) (h2 : os.length = n * c.H) (h3 : ss'.length = n * c.H)
    (h : RowsStep c ss f os ss') (idx : Int) :
    (retro c).step (some (ss, idx)) true f =
      (.ok (if idx + 1 < 0 then none else some os), some (ss', if idx < 0 then idx + 1 else idx)) ∧
    ∀ older, (single c older).step (some (ss, idx)) true f =
      (.ok (if idx + 1 < 0 then none else some os), some (ss', if idx < 0 then idx + 1 else idx)) :=
  ⟨step_frame hH hn hf (retro_frame hf h1 h2 h3 h) idx, fun older => step_frame hH hn hf (single_frame older hf h1 h2 h3 h) idx⟩

/-- **C125**: the first frame is accepted if the state of the class, for its number of entries, accepts it, and gives the same result. -/
theorem C125_first_state (c : Cfg A B C V S O) {n : Nat} (f : Frame A B C) (hf : OfSize n f) (s0 : S) (hi : c.row.init = .ok s0)
    (o : Option (List O)) :
    (((retro c).step (some (List.replicate (n * c.H) s0, -(c.N : Int))) true f).1 = .ok o →
      (retro c).step (retro c).init true f = (retro c).step (some (List.replicate (n * c.H) s0, -(c.N : Int))) true f) ∧
    ∀ older, ((single c older).step (some (List.replicate (n * c.H) s0, -(c.N : Int))) true f).1 = .ok o →
      (single c older).step (single c older).init true f =
        (single c older).step (some (List.replicate (n * c.H) s0, -(c.N : Int))) true f :=
  ⟨step_first hf hi, fun _ => step_first hf hi⟩

/-! ### Chunks -/

/-- `forward_step` on one frame after the other until one raises: the outputs, and the object afterwards. -/
def Spec.stepwise {X Y : Type} (M : EMod X Y) : M.Inst → List X → Except Err (List Y × M.Inst)
  | i, [] => .ok ([], i)
  | i, x :: xs => match M.step i true x with
    | (.error e, _) => .error e
    | (.ok o, j) => match Spec.stepwise M j xs with
      | .error e => .error e
      | .ok (os, k) => .ok (o.toList ++ os, k)

/-- Either all of it happens, or there is an exception and nothing has changed; the object is kept if it is not to be updated. -/
def Spec.allOrNothing {Y I : Type} (u : Bool) (i : I) : Except Err (List Y × I) → Except Err (Option (List Y)) × I
  | .error e => (.error e, i)
  | .ok (ys, j) => (.ok (if ys.isEmpty then none else some ys), if u then j else i)

/-- The frames of clips of query, key and value. -/
def Spec.frames : List (List A) → List (List B) → List (List C) → List (Frame A B C)
  | q :: qs, k :: ks, v :: vs => ⟨q, k, v⟩ :: Spec.frames qs ks vs
  | _, _, _ => []

namespace AttnShape

theorem loop_eq (c : Cfg A B C V S O) (sdpa : List S → List V → Ten V → Ten V → Except Err (List O × List S)) :
    ∀ (fs : List (Frame A B C)) (i : Option (List S × Int)),
      loop c sdpa fs i = stepwise (X := Frame A B C) (Y := List O) ⟨Option (List S × Int), none, step c sdpa⟩ i fs
  | [], i => rfl
  | f :: fs, i => by
    unfold loop stepwise
    simp only [step]
    cases pstep c sdpa f i with
    | error e => rfl
    | ok r =>
      simp only [if_true]
      rw [loop_eq c sdpa fs (some r.2)]
      cases stepwise (X := Frame A B C) (Y := List O) ⟨Option (List S × Int), none, step c sdpa⟩ (some r.2) fs <;> rfl

theorem frames_eq : ∀ (qs : List (List A)) (ks : List (List B)) (vs : List (List C)),
    List.zipWith (fun q (kv : List B × List C) => (⟨q, kv.1, kv.2⟩ : Frame A B C)) qs (ks.zip vs) = frames qs ks vs
  | [], _, _ => by simp [frames]
  | _ :: _, [], _ => by simp [frames]
  | _ :: _, _ :: _, [] => by simp [frames]
  | q :: qs, k :: ks, v :: vs => by simp [frames, frames_eq qs ks vs]

theorem loop_some (c : Cfg A B C V S O) (sdpa : List S → List V → Ten V → Ten V → Except Err (List O × List S)) :
    ∀ (fs : List (Frame A B C)) (i : Option (List S × Int)) os s, loop c sdpa fs i = .ok (os, s) → (fs ≠ [] ∨ i ≠ none) → s ≠ none
  | [], i, os, s, h, hi => by
    cases h
    exact hi.resolve_left (by simp)
  | f :: fs, i, os, s, h, _ => by
    unfold loop at h
    split at h
    · cases h
    · split at h
      · cases h
      · rename_i hr
        cases h
        exact loop_some c sdpa fs _ _ _ hr (.inr (by simp))

theorem steps_eq (c : Cfg A B C V S O) (sdpa : List S → List V → Ten V → Ten V → Except Err (List O × List S))
    (i : Option (List S × Int)) (u : Bool) (hu : u = true ∨ i ≠ none) (qs : List (List A)) (ks : List (List B)) (vs : List (List C))
    (h0 : qs ≠ []) (h1 : ks.length = qs.length) (h2 : vs.length = qs.length) :
    steps c sdpa i u qs ks vs =
      allOrNothing u i (stepwise (X := Frame A B C) (Y := List O) ⟨Option (List S × Int), none, step c sdpa⟩ i (frames qs ks vs)) := by
  have hf : frames qs ks vs ≠ [] := by
    match qs, ks, vs, h0, h1, h2 with
    | [], _, _, h, _, _ => exact absurd rfl h
    | _ :: _, [], _, _, h, _ => simp at h
    | _ :: _, _ :: _, [], _, _, h => simp at h
    | _ :: _, _ :: _, _ :: _, _, _, _ => simp [frames]
  unfold steps
  rw [if_neg (by omega), if_neg (by omega), frames_eq, loop_eq]
  cases hl : stepwise (X := Frame A B C) (Y := List O) ⟨Option (List S × Int), none, step c sdpa⟩ i (frames qs ks vs) with
  | error e => rfl
  | ok r =>
    obtain ⟨os, j⟩ := r
    have hj := loop_some c sdpa _ _ _ _ ((loop_eq c sdpa _ _).trans hl) (.inl hf)
    obtain ⟨q, qs, rfl⟩ := List.exists_cons_of_ne_nil h0
    have he : (if os.isEmpty then if (q :: qs).isEmpty then Except.error Err.unbound else Except.ok none else Except.ok (some os)) =
        (Except.ok (if os.isEmpty then none else some os) : Except Err (Option (List (List O)))) := by
      cases os <;> simp
    cases j with
    | none => exact absurd rfl hj
    | some j =>
      cases u with
      | true => simp only [he, if_true, allOrNothing]
      | false =>
        cases i with
        | none => simp at hu
        | some i => simp only [he, allOrNothing]

/-- If a frame of the chunk is refused, so is the chunk. -/
theorem stepwise_refused {X Y : Type} {M : EMod X Y} {P : M.Inst → Prop} {p q : X → Prop} (h : Refuses M P p q) : ∀ (xs : List X) (i : M.Inst),
    P i → (∀ x ∈ xs, q x) → (∃ x ∈ xs, ¬ p x) → ∃ e, stepwise M i xs = .error e
  | [], _, _, _, hx => by simp at hx
  | x :: xs, i, hi, hq, hx => by
    unfold stepwise
    by_cases hp : p x
    · have hk := h.keep i x hi hp
      cases hs : M.step i true x with
      | mk r j =>
        rw [hs] at hk
        cases r with
        | error e => exact ⟨e, rfl⟩
        | ok o =>
          obtain ⟨e, he⟩ := stepwise_refused h xs j hk (fun y hy => hq y (by simp [hy])) (by
            obtain ⟨y, hy, hn⟩ := hx
            rcases List.mem_cons.1 hy with rfl | hy
            · exact absurd hp hn
            · exact ⟨y, hy, hn⟩)
          exact ⟨e, by simp only [he]⟩
    · obtain ⟨e, he⟩ := h.refuse i true x hi hp (hq x (by simp))
      exact ⟨e, by rw [he]⟩

end AttnShape

/-- **C125**: `forward_steps` does the calls of `forward_step` in turn, or nothing: if one of them raises, it raises and leaves the module as
it was.  With `update_state=False` the module stays as it was in any case. -/
theorem C125_steps (c : Cfg A B C V S O) (i : Option (List S × Int)) (u : Bool) (hu : u = true ∨ i ≠ none)
    (qs : List (List A)) (ks : List (List B)) (vs : List (List C)) (h0 : qs ≠ []) (h1 : ks.length = qs.length)
    (h2 : vs.length = qs.length) :
    retroSteps c i u qs ks vs = allOrNothing u i (stepwise (retro c) i (frames qs ks vs)) ∧
    ∀ older, singleSteps c older i u qs ks vs = allOrNothing u i (stepwise (single c older) i (frames qs ks vs)) :=
  ⟨steps_eq c _ i u hu qs ks vs h0 h1 h2, fun _ => steps_eq c _ i u hu qs ks vs h0 h1 h2⟩

/-- **C125**: clips of query, key and value with different numbers of frames raise and leave the module as it was. -/
theorem C125_steps_lengths (c : Cfg A B C V S O) (i : Option (List S × Int)) (u : Bool)
    (qs : List (List A)) (ks : List (List B)) (vs : List (List C)) (h : ks.length ≠ qs.length ∨ vs.length ≠ qs.length) :
    retroSteps c i u qs ks vs = (.error .assertion, i) ∧ ∀ older, singleSteps c older i u qs ks vs = (.error .assertion, i) := by
  have key : ∀ sdpa, steps c sdpa i u qs ks vs = (.error .assertion, i) := by
    intro sdpa
    unfold steps
    by_cases h1 : qs.length ≠ ks.length
    · rw [if_pos h1]
    · rw [if_neg h1, if_pos (by omega)]
  exact ⟨key _, fun _ => key _⟩

/-- **C125**: in a stream of batch size `n`, a chunk in which query, key or value have another batch size raises and leaves the
module as it was (but for the frames of `C125_single_entry_refuted`). -/
theorem C125_steps_refused_partial (c : Cfg A B C V S O) (hH : 0 < c.H) {n : Nat} (ss : List S) (hl : ss.length = n * c.H) (idx : Int)
    (u : Bool) (qs : List (List A)) (ks : List (List B)) (vs : List (List C)) (h : ∃ f ∈ frames qs ks vs, ¬ OfSize n f) :
    (∃ e, retroSteps c (some (ss, idx)) u qs ks vs = (.error e, some (ss, idx))) ∧
    ∀ older, (∀ f ∈ frames qs ks vs, older = true → c.H = 1 → f.query.length = 1 → n = 1) →
      ∃ e, singleSteps c older (some (ss, idx)) u qs ks vs = (.error e, some (ss, idx)) := by
  have key : ∀ (sdpa : List S → List V → Ten V → Ten V → Except Err (List O × List S)) (q : Frame A B C → Prop),
      (∀ s f o st, Running c n s → q f → pstep c sdpa f s = .ok (o, st) → OfSize n f ∧ st.1.length = n * c.H) →
      (∀ f, OfSize n f → q f) → (∀ f ∈ frames qs ks vs, q f) →
      ∃ e, steps c sdpa (some (ss, idx)) u qs ks vs = (.error e, some (ss, idx)) := by
    intro sdpa q hp hsz hq
    by_cases h1 : qs.length = ks.length ∧ qs.length = vs.length
    · have h0 : qs ≠ [] := by
        rintro rfl
        obtain ⟨f, hf, -⟩ := h
        simp [frames] at hf
      obtain ⟨e, he⟩ := stepwise_refused (refuses c sdpa n q hp hsz)
        (frames qs ks vs) (some (ss, idx)) hl hq h
      rw [steps_eq c sdpa _ u (.inr (by simp)) qs ks vs h0 h1.1.symm h1.2.symm, he]
      exact ⟨e, rfl⟩
    · refine ⟨.assertion, ?_⟩
      unfold steps
      by_cases h2 : qs.length ≠ ks.length
      · rw [if_pos h2]
      · rw [if_neg h2, if_pos (by omega)]
  exact ⟨key _ (fun _ => True) (fun s f o st hs _ h => retro_size hH (.inl hs) h) (fun _ _ => trivial) fun _ _ => trivial,
    fun older hq => key _ (fun f => older = true → c.H = 1 → f.query.length = 1 → n = 1)
      (fun s f o st hs ha h => single_size hH (.inl hs) (fun ⟨e1, e2, e3, e4⟩ => e3 (ha e1 e2 e4)) h)
      (fun f hf _ _ e => by rw [← hf.1, e]) hq⟩

/-! ### What is neither refused nor right -/

namespace AttnShape

theorem rows_one {X : Type} {H : Nat} (hH : H = 1) (p : X → Fin H → V) (x : X) (n : Nat) :
    rows p (List.replicate n x) = List.replicate n (p x ⟨0, by omega⟩) := by
  subst hH
  induction n with
  | zero => rfl
  | succ n ih =>
    simp only [rows, List.replicate_succ, List.flatMap_cons] at ih ⊢
    rw [ih]
    simp [List.ofFn_succ]

theorem assign_mat (n : Nat) (xs : List V) : assign n (.mat xs) = Shape.assignRow n xs := rfl

theorem assign_one (n : Nat) (x : V) : Shape.assignRow n [x] = .ok (List.replicate n x) := by
  unfold Shape.assignRow
  by_cases h : [x].length = n
  · rw [if_pos h, ← h]; rfl
  · rw [if_neg h]

theorem view_one (xs : List V) (h : xs.length ≠ 1) : view xs 1 = .ok (.cube [xs]) := by
  unfold view
  rw [if_neg (by simp [Nat.mod_one]), if_neg (by simpa using h)]
  congr 2
  simp only [List.range_one, List.map_cons, List.map_nil, Nat.div_one, Nat.mul_one, Nat.add_zero]
  rw [filterMap_range xs _ (le_refl _), List.take_length]

end AttnShape

/-- What **C125** does not say: a query of a single entry, in a stream of `n ≥ 2` entries, is not refused by a single-output module
with one head that remembers queries.  It is taken for `n` copies of the entry; key and value may have a single
entry too, taken likewise, or `n` entries. -/
theorem C125_single_entry_refuted (c : Cfg A B C V S O) (hH : c.H = 1) {n : Nat} (hn : 2 ≤ n) (ss : List S) (hl : ss.length = n)
    (idx : Int) (u : Bool) (a : A) :
    (∀ b d, (single c true).step (some (ss, idx)) u ⟨[a], [b], [d]⟩ =
      (single c true).step (some (ss, idx)) u ⟨List.replicate n a, List.replicate n b, List.replicate n d⟩) ∧
    ∀ bs ds, bs.length = n → ds.length = n → (single c true).step (some (ss, idx)) u ⟨[a], bs, ds⟩ =
      (single c true).step (some (ss, idx)) u ⟨List.replicate n a, bs, ds⟩ := by
  have r1 : ∀ {X : Type} (p : X → Fin c.H → V) (x : X), rows p [x] = [p x ⟨0, by omega⟩] := fun p x => rows_one hH p x 1
  have key : ∀ bs ds bs' ds', (∃ k v ks, view (rows c.k bs) 1 = .ok k ∧ view (rows c.v ds) 1 = .ok v ∧ assign n k = .ok ks ∧
      ∃ vs, assign n v = .ok vs ∧ rows c.k bs' = ks ∧ rows c.v ds' = vs) → bs.length = ds.length → bs'.length = n → ds'.length = n →
      (single c true).step (some (ss, idx)) u ⟨[a], bs, ds⟩ =
        (single c true).step (some (ss, idx)) u ⟨List.replicate n a, bs', ds'⟩ := by
    rintro bs ds bs' ds' ⟨k, v, ks, hk, hv, hks, vs, hvs, rfl, rfl⟩ he h1 h2
    show step c _ _ _ _ = step c _ _ _ _
    unfold step pstep
    simp only [List.length_cons, List.length_nil, List.length_replicate, Nat.zero_add, hH, Nat.mul_one, h1, h2, he]
    rw [hk, hv, view_self (xs := rows c.k bs') (r := n) (by omega) (by rw [rows_length, hH, h1, Nat.mul_one]),
      view_self (xs := rows c.v ds') (r := n) (by omega) (by rw [rows_length, hH, h2, Nat.mul_one])]
    simp only [singleSdpa, hl, hks, hvs, assign_mat, r1, rows_one hH, if_true, assign_one]
    rw [assignRow_self (rows c.k bs') (by rw [rows_length, hH, h1, Nat.mul_one]),
      assignRow_self (rows c.v ds') (by rw [rows_length, hH, h2, Nat.mul_one]),
      assignRow_self (List.replicate n _) (by simp)]
    simp
  refine ⟨fun b d => key _ _ _ _ ⟨.mat (rows c.k [b]), .mat (rows c.v [d]), _, ?_, ?_, ?_, _, ?_, rfl, rfl⟩ rfl (by simp) (by simp),
    fun bs ds h1 h2 => key _ _ _ _ ⟨.cube [rows c.k bs], .cube [rows c.v ds], _, ?_, ?_, ?_, _, ?_, rfl, rfl⟩ (by omega) h1 h2⟩
  · exact view_self (by omega) (by rw [rows_length, hH]; rfl)
  · exact view_self (by omega) (by rw [rows_length, hH]; rfl)
  · rw [r1, rows_one hH]; exact assign_one n _
  · rw [r1, rows_one hH]; exact assign_one n _
  · exact view_one _ (by rw [rows_length, hH]; omega)
  · exact view_one _ (by rw [rows_length, hH]; omega)
  · exact assignRow_self _ (by rw [rows_length, hH]; omega)
  · exact assignRow_self _ (by rw [rows_length, hH]; omega)

/-! ### Examples -/

namespace AttnShape

/-- Attention with `H` heads over two tokens: tokens are numbers, the exponential is `1 + x`. -/
def exHeads (H : Nat) : Cfg ℚ ℚ ℚ (Unit → ℚ) (Attn.SingleSt ℚ Unit Unit) (Unit → ℚ) where
  H := H
  N := 2
  q := fun x h _ => x + h.val
  k := fun x h _ => x - h.val
  v := fun x _ _ => x
  row := singleRow 2 0 1 (1 + ·)

/-- The retroactive module. -/
def exRetroHeads (H : Nat) : Cfg ℚ ℚ ℚ (Unit → ℚ) (Attn.RetroSt ℚ Unit Unit) (List (Unit → ℚ)) where
  H := H
  N := 2
  q := fun x h _ => x + h.val
  k := fun x h _ => x - h.val
  v := fun x _ _ => x
  row := retroRow 2 1 (1 + ·)

/-- What can be printed of a result. -/
def exSee {O : Type} : Except Err (Option (List O)) → String
  | .ok none => "none"
  | .ok (some os) => s!"{os.length}"
  | .error .assertion => "AssertionError"
  | .error .runtime => "RuntimeError"
  | .error _ => "other"

/-- Frames of self-attention. -/
def exSelf (xs : List ℚ) : Frame ℚ ℚ ℚ := ⟨xs, xs, xs⟩

/-- Two frames of two entries, then queries, keys and values of all kinds, then two entries again. -/
def exFrames : List (Frame ℚ ℚ ℚ) :=
  [exSelf [1, 2], exSelf [3, 4], exSelf [5], exSelf [5, 6, 7], ⟨[1, 2], [3], [4]⟩, ⟨[1, 2], [3, 4], [5]⟩, ⟨[1], [3, 4], [5, 6]⟩,
    exSelf [], exSelf [8, 9]]

end AttnShape

/-- Two heads: `C125_refused_partial` applies to all frames. -/
example : (play (retro (exRetroHeads 2)) none exFrames).map exSee =
      ["none", "4", "RuntimeError", "RuntimeError", "RuntimeError", "AssertionError", "RuntimeError", "RuntimeError", "4"] ∧
    (play (single (exHeads 2) true) none exFrames).map exSee =
      ["none", "4", "RuntimeError", "RuntimeError", "RuntimeError", "AssertionError", "RuntimeError", "RuntimeError", "4"] := by
  decide +kernel

/-- One head: two frames with a query of a single entry are not refused. -/
example : (play (single (exHeads 1) true) none exFrames).map exSee =
    ["none", "2", "2", "RuntimeError", "RuntimeError", "AssertionError", "2", "RuntimeError", "2"] := by
  decide +kernel

/-- The hypotheses of `C125_refused_partial` for this stream. -/
example : ∃ o, ((single (exHeads 2) true).step (single (exHeads 2) true).init true (exSelf [1, 2])).1 = .ok o := ⟨none, rfl⟩

example : ∀ f ∈ exFrames, true = true → (exHeads 2).H = 1 → f.query.length = 1 → (exSelf [1, 2]).query.length = 1 := by
  intro f _ _ h
  simp [exHeads] at h

/-- A frame that `C125_first` is about. -/
example : ¬ OfSize 2 (⟨[1, 2], [3], [4]⟩ : Frame ℚ ℚ ℚ) := by decide

/-- Rows that step on their own (`C125_accepted`): two heads, two entries; a row returns query times key plus its state, and adds the
value to its state. -/
example : RowsStep (⟨2, 1, fun x h => x + h.val, fun x h => x * h.val, fun x _ => x,
      ⟨.ok 0, fun s q k v => .ok (q * k + s, s + v)⟩⟩ : Cfg Nat Nat Nat Nat Nat Nat)
    [10, 20, 30, 40] ⟨[1, 2], [3, 4], [5, 6]⟩ [10, 26, 30, 52] [15, 25, 36, 46] := by
  intro j h a b d s o s' e1 e2 e3 e4 e5 e6
  match j, h with
  | 0, ⟨0, _⟩ => cases e1; cases e2; cases e3; cases e4; cases e5; cases e6; rfl
  | 0, ⟨1, _⟩ => cases e1; cases e2; cases e3; cases e4; cases e5; cases e6; rfl
  | 1, ⟨0, _⟩ => cases e1; cases e2; cases e3; cases e4; cases e5; cases e6; rfl
  | 1, ⟨1, _⟩ => cases e1; cases e2; cases e3; cases e4; cases e5; cases e6; rfl
  | _ + 2, _ => cases e1

/-- The first frame of the example above finds the state of the class (`C125_first_state`). -/
example : ∃ s0 o, (exHeads 2).row.init = .ok s0 ∧
    ((single (exHeads 2) true).step (some (List.replicate (2 * 2) s0, -2)) true (exSelf [1, 2])).1 = .ok o := ⟨_, none, rfl, rfl⟩

/-- Clips of two frames for `C125_steps`, `C125_steps_lengths` and `C125_steps_refused_partial`: accepted, one key too many, keys of batch size
one. -/
example : exSee (retroSteps (exRetroHeads 2) none true [[1, 2], [3, 4]] [[1, 2], [3, 4]] [[1, 2], [3, 4]]).1 = "1" ∧
    exSee (retroSteps (exRetroHeads 2) none true [[1, 2], [3, 4]] [[1, 2], [3, 4], [5, 6]] [[1, 2], [3, 4]]).1 = "AssertionError" ∧
    exSee (retroSteps (exRetroHeads 2) none true [[1, 2], [3, 4]] [[1], [3]] [[1], [3]]).1 = "RuntimeError" ∧
    (∃ f ∈ frames [[1, 2], [3, 4]] [[1], [3]] [[1], [3]], ¬ OfSize 2 f) := by
  decide +kernel

end CoInf
