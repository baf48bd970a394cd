import Verif.Lemmas.Tame
import Verif.Lemmas.Reach
import Verif.Lemmas.Trace

namespace CoInf
open Spec
variable {X Y Z : Type}

theorem tensors_take_succ (os : List (Option Y)) (t : Nat) :
    tensors (os.take (t + 1)) = tensors (os.take t) ++ ((os[t]?).join).toList := by
  unfold tensors
  rw [List.take_add_one, List.filterMap_append]
  congr 1
  cases h : os[t]? with
  | none => rfl
  | some o => cases o <;> rfl

/-- Both sides of a step-by-step description agree on all prefixes. -/
theorem tensors_eq {φ : List X → List Y} {h xs : List X} {os : List (Option Y)}
    (hl : os.length = xs.length)
    (k : ∀ t < xs.length, φ (h ++ xs.take (t + 1)) = φ (h ++ xs.take t) ++ ((os[t]?).join).toList) (n : Nat) :
    φ (h ++ xs.take n) = φ h ++ tensors (os.take n) := by
  induction n with
  | zero => simp [tensors]
  | succ n ih =>
    by_cases hn : n < xs.length
    · rw [k n hn, ih, tensors_take_succ, List.append_assoc]
    · rw [List.take_of_length_le (by omega)] at ih ⊢
      rw [ih, List.take_of_length_le (by omega), List.take_of_length_le (by omega)]

theorem Spec.Implements.streamsAs {M : CoMod (.stream X) (.stream Y)} {φ} (H : Implements M φ) :
    StreamsAs M φ := by
  intro i hi xs
  obtain ⟨os, i', h1, h2, _, h4⟩ := Spec.SimRel.callSteps_eq H.reach xs hi
  refine ⟨os, i', h1, h2, fun n => ?_⟩
  have := tensors_eq (h := []) h2 h4 n
  rw [H.reach.phi_nil] at this
  exact this.symm

/-- Calls that feed the stream, from any history. -/
theorem Spec.Implements.feed {M : CoMod (.stream X) (.stream Y)} {φ} (H : Implements M φ)
    (ops : List (Op X)) : ∀ {h i}, Reach M h i → (∀ op ∈ ops, op.feeds) →
    ∃ rs i', run M i ops = .ok (rs, i') ∧ Reach M (h ++ framesOf ops) i' ∧
      φ (h ++ framesOf ops) = φ h ++ outsOf rs := by
  induction ops with
  | nil => intro h i hr _; exact ⟨[], i, rfl, by simpa [framesOf] using hr, by simp [framesOf, outsOf]⟩
  | cons op ops ih =>
    intro h i hr hf
    have hop := hf op (by simp)
    have hf' : ∀ op ∈ ops, op.feeds := fun o ho => hf o (by simp [ho])
    cases op with
    | step u x =>
      cases (show u = true from hop)
      obtain ⟨o, i1, h1, h2, h3⟩ := H.reach.step true x hr
      obtain ⟨rs, i2, k1, k2, k3⟩ := ih h3 hf'
      refine ⟨.frame o :: rs, i2, ?_, ?_, ?_⟩
      · simp only [run, run1, h1, k1, bind, Except.bind, pure, Except.pure]
      · simpa [framesOf, Op.frames] using k2
      · have e : h ++ framesOf (.step true x :: ops) = h ++ [x] ++ framesOf ops := by
          simp [framesOf, Op.frames]
        rw [e]
        simp only [if_true] at k3
        rw [k3, h2]
        simp [outsOf, Res.outs]
    | steps u xs =>
      obtain ⟨hu, hx⟩ := (show u = true ∧ xs ≠ [] from hop)
      cases hu
      obtain ⟨ys, i1, h1, h2, h3⟩ := H.reach.steps true xs hx hr
      obtain ⟨rs, i2, k1, k2, k3⟩ := ih h3 hf'
      refine ⟨.clip (optList ys) :: rs, i2, ?_, ?_, ?_⟩
      · simp only [run, run1, h1, k1, bind, Except.bind, pure, Except.pure]
      · simpa [framesOf, Op.frames] using k2
      · have e : h ++ framesOf (.steps true xs :: ops) = h ++ xs ++ framesOf ops := by
          simp [framesOf, Op.frames]
        rw [e]
        simp only [if_true] at k3
        rw [k3, h2]
        have : (optList ys).getD [] = ys := by cases ys <;> rfl
        simp [outsOf, Res.outs, this]
    | clean => exact hop.elim
    | fwd xs => exact hop.elim

/-- Two objects with the same history cannot be told apart. -/
theorem Spec.Implements.same {M : CoMod (.stream X) (.stream Y)} {φ} (H : Implements M φ) {h i i'}
    (hi : Reach M h i) (hi' : Reach M h i') : Same M i i' := by
  intro ops hne
  obtain ⟨j, h1, _⟩ := Spec.SimRel.run_eq H.reach ops hi hne
  obtain ⟨j', h1', _⟩ := Spec.SimRel.run_eq H.reach ops hi' hne
  unfold results
  rw [h1, h1']
  rfl

/-- Histories with the same future outputs cannot be told apart. -/
theorem Spec.Implements.same_of_future {M : CoMod (.stream X) (.stream Y)} {φ} (H : Implements M φ)
    {h h' i i'} (hi : Reach M h i) (hi' : Reach M h' i')
    (hf : ∀ xs, (φ (h ++ xs)).drop (φ h).length = (φ (h' ++ xs)).drop (φ h').length) : Same M i i' := by
  have mono : ∀ h xs : List X, ∃ r, φ (h ++ xs) = φ h ++ r := by
    intro h xs
    obtain ⟨j, hj⟩ := H.exists_reach h
    by_cases hx : xs = []
    · exact ⟨[], by simp [hx]⟩
    · obtain ⟨ys, _, _, h2, _⟩ := H.reach.steps true xs hx hj
      exact ⟨ys, h2⟩
  have key : ∀ (F : List X → Except Err (List Y)) (ops : List (Op X)) (h h' : List X),
      (∀ xs, (φ (h ++ xs)).drop (φ h).length = (φ (h' ++ xs)).drop (φ h').length) →
      absRun φ F h ops = absRun φ F h' ops := by
    intro F ops
    induction ops with
    | nil => intros; rfl
    | cons op ops ih =>
      intro h h' hf
      have ext : ∀ a : List X, ∀ xs, (φ (h ++ a ++ xs)).drop (φ (h ++ a)).length =
          (φ (h' ++ a ++ xs)).drop (φ (h' ++ a)).length := by
        intro a xs
        obtain ⟨r, hr⟩ := mono h a
        obtain ⟨r', hr'⟩ := mono h' a
        obtain ⟨s, hs⟩ := mono (h ++ a) xs
        obtain ⟨s', hs'⟩ := mono (h' ++ a) xs
        have e1 := hf a
        have e2 := hf (a ++ xs)
        rw [hr, hr', List.drop_left, List.drop_left] at e1
        rw [← List.append_assoc, ← List.append_assoc, hs, hs', hr, hr', List.append_assoc,
          List.append_assoc, List.drop_left, List.drop_left, e1] at e2
        rw [hs, hs', List.drop_left, List.drop_left]
        exact List.append_cancel_left e2
      have hd : absRes φ F h op = absRes φ F h' op := by
        cases op with
        | step u x => simp only [absRes, hf]
        | steps u xs => simp only [absRes, hf]
        | clean => rfl
        | fwd xs => rfl
      have tl : absRun φ F (op.hist h) ops = absRun φ F (op.hist h') ops := by
        cases op with
        | step u x => cases u <;> simp only [Op.hist]; exacts [ih _ _ hf, ih _ _ (ext [x])]
        | steps u xs => cases u <;> simp only [Op.hist]; exacts [ih _ _ hf, ih _ _ (ext xs)]
        | clean => rfl
        | fwd xs => exact ih _ _ hf
      simp only [absRun, hd, tl]
  intro ops hne
  obtain ⟨j, h1, _⟩ := Spec.SimRel.run_eq H.reach ops hi hne
  obtain ⟨j', h1', _⟩ := Spec.SimRel.run_eq H.reach ops hi' hne
  unfold results
  rw [h1, h1']
  exact congrArg Except.ok (key _ ops h h' hf)

theorem streamOut_prefix_clipOut (K S P : Nat) (fill : X → X) (f : List X → Y) {xs : List X} (hx : xs ≠ []) :
    streamOut K S P fill f xs <+: clipOut K S P fill f xs := by
  rw [clipOut_eq _ _ _ _ _ hx]
  unfold streamOut
  rw [padStart_append _ _ _ _ hx]
  obtain ⟨r, hr⟩ := slide_append_prefix K S f (padStart P fill xs)
    (List.replicate P (fill (xs.getLast hx)))
  exact ⟨r, hr.symm⟩

theorem clipOut_ne_nil {K S P : Nat} (fill : X → X) (f : List X → Y) {xs : List X} (hx : xs ≠ [])
    (hl : ¬ xs.length + 2 * P < K) : clipOut K S P fill f xs ≠ [] := by
  intro h
  have := congrArg List.length h
  rw [clipOut_length _ _ _ _ _ hx, windowCount, if_neg hl] at this
  simp at this

/-- The calls on a clean windowed module, given what `forward` computes. -/
theorem window_calls {M : CoMod (.stream X) (.stream Y)} {K S P : Nat} {fill : X → X} {f : List X → Y} {R}
    (sim : SimRel M (streamOut K S P fill f) R) (pc : PadClean M R) {i} (hi : Reach M [] i) (u : Bool)
    {xs : List X} (hx : xs ≠ []) (hl : ¬ xs.length + 2 * P < K) {i0}
    (hf : M.fwd M.init xs = .ok (clipOut K S P fill f xs, i0)) :
    (∃ i', M.steps i true u xs = .ok (some (clipOut K S P fill f xs), i')) ∧
    (∃ i', M.steps i false u xs = .ok (optList (streamOut K S P fill f xs), i')) := by
  obtain ⟨i', hi'⟩ := (pc.reach sim).eq u hi hx hf
  obtain ⟨zs, i'', h1, h2, _⟩ := (sim.reach).steps u xs hx hi
  rw [sim.phi_nil, List.nil_append, List.nil_append] at h2
  refine ⟨⟨i', ?_⟩, ⟨i'', by rw [h1, h2]⟩⟩
  rw [hi']
  cases h : clipOut K S P fill f xs with
  | nil => exact absurd h (clipOut_ne_nil fill f hx hl)
  | cons => rfl

end CoInf
