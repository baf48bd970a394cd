/-
C102: the conversion that `continual` chooses.  C103: the classes that are accepted as continual modules.
-/
import Verif.Model.Registry

set_option autoImplicit false

namespace CoInf.Spec
open Registry

/-- The value that a class has for a name: that of the first namespace which has the name. -/
inductive Finds (name : String) (k : Kind) : List Namespace → Prop
  | here (ns : Namespace) (mro : List Namespace) : ns.lookup name = some k → Finds name k (ns :: mro)
  | later (ns : Namespace) (mro : List Namespace) : ns.lookup name = none → Finds name k mro → Finds name k (ns :: mro)

/-- The kinds of values that the interface of continual modules asks for. -/
inductive Fits : String → Kind → Prop
  | method (name : String) (k : Kind) :
    name = "forward_step" ∨ name = "forward_steps" ∨ name = "forward" ∨ name = "get_state" ∨ name = "set_state" ∨
      name = "clean_state" → k = .function ∨ k = .other true → Fits name k
  | number (name : String) (k : Kind) : name = "delay" ∨ name = "receptive_field" → k = .int ∨ k = .tensor ∨ k = .prop →
    Fits name k
  | sizes (name : String) (k : Kind) :
    name = "stride" ∨ name = "padding" ∨ name = "_state_shape" ∨ name = "_dynamic_state_inds" →
      k = .int ∨ k = .prop ∨ k = .tuple ∨ k = .list → Fits name k

/-- The names of the interface. -/
def interface : List String :=
  ["forward_step", "forward_steps", "forward", "get_state", "set_state", "clean_state", "delay", "receptive_field", "stride",
   "padding", "_state_shape", "_dynamic_state_inds"]

/-- The class has a fitting value for each name of the interface. -/
def HasInterface (mro : List Namespace) : Prop := ∀ name ∈ interface, ∃ k, Finds name k mro ∧ Fits name k

/-- The class can be registered. -/
def Registrable (c : Cls) : Prop :=
  HasInterface c.mro ∧ ∃ k, Finds "build_from" k c.mro ∧ (k = .function ∨ k = .other true)

/-- `c` is what was last registered for `t`. -/
def Latest {Ty : Type} (calls : List (Ty × Cls)) (t : Ty) (c : Cls) : Prop :=
  ∃ before after, calls = before ++ (t, c) :: after ∧ Registrable c ∧ ∀ e ∈ after, e.1 = t → ¬ Registrable e.2

end CoInf.Spec

namespace CoInf.Registry
open Spec

theorem finds_getattr {name : String} {k : Kind} {mro : List Namespace} (h : Finds name k mro) : getattr name mro = k := by
  induction h with
  | here ns mro h => rw [getattr, h]
  | later ns mro h _ ih => rw [getattr, h]; exact ih

theorem getattr_finds {name : String} : ∀ {mro : List Namespace}, getattr name mro ≠ .none → Finds name (getattr name mro) mro
  | [], h => absurd rfl h
  | ns :: mro, h => by
    rw [getattr] at h ⊢
    cases hl : ns.lookup name with
    | some k => exact .here ns mro hl
    | none =>
      rw [hl] at h
      exact .later ns mro hl (getattr_finds h)

theorem finds_iff {name : String} {mro : List Namespace} {p : Kind → Prop} (hp : ¬ p .none) :
    (∃ k, Finds name k mro ∧ p k) ↔ p (getattr name mro) := by
  constructor
  · rintro ⟨k, h, hk⟩
    rw [finds_getattr h]; exact hk
  · intro h
    exact ⟨_, getattr_finds fun h' => hp (h' ▸ h), h⟩

theorem fits_method {name : String} (hn : name ∈ methods) (k : Kind) : Fits name k ↔ k.callable = true := by
  have hn' : name = "forward_step" ∨ name = "forward_steps" ∨ name = "forward" ∨ name = "get_state" ∨ name = "set_state" ∨
      name = "clean_state" := by simpa [methods] using hn
  constructor
  · intro h
    cases h with
    | method _ h => rcases h with h | h <;> subst h <;> rfl
    | number h _ =>
      exfalso; revert hn; rcases h with h | h <;> subst h <;> decide
    | sizes h _ =>
      exfalso; revert hn; rcases h with h | h | h | h <;> subst h <;> decide
  · intro h
    refine .method _ _ hn' ?_
    cases k <;> simp_all [Kind.callable]

theorem fits_number {name : String} (hn : name ∈ ["delay", "receptive_field"]) (k : Kind) :
    Fits name k ↔ [Kind.int, .tensor, .prop].contains k = true := by
  have hn' : name = "delay" ∨ name = "receptive_field" := by simpa using hn
  constructor
  · intro h
    cases h with
    | method h _ =>
      exfalso; revert hn; rcases h with h | h | h | h | h | h <;> subst h <;> decide
    | number _ h => rcases h with h | h | h <;> subst h <;> rfl
    | sizes h _ =>
      exfalso; revert hn; rcases h with h | h | h | h <;> subst h <;> decide
  · intro h
    exact .number _ _ hn' (by simpa using h)

theorem fits_sizes {name : String} (hn : name ∈ ["stride", "padding", "_state_shape", "_dynamic_state_inds"]) (k : Kind) :
    Fits name k ↔ [Kind.int, .prop, .tuple, .list].contains k = true := by
  have hn' : name = "stride" ∨ name = "padding" ∨ name = "_state_shape" ∨ name = "_dynamic_state_inds" := by simpa using hn
  constructor
  · intro h
    cases h with
    | method h _ =>
      exfalso; revert hn; rcases h with h | h | h | h | h | h <;> subst h <;> decide
    | number h _ =>
      exfalso; revert hn; rcases h with h | h <;> subst h <;> decide
    | sizes _ h => rcases h with h | h | h | h <;> subst h <;> rfl
  · intro h
    exact .sizes _ _ hn' (by simpa using h)

theorem not_fits_none (name : String) : ¬ Fits name .none := by
  intro h
  cases h with
  | method _ h => simp at h
  | number _ h => simp at h
  | sizes _ h => simp at h

theorem interface_eq : interface = methods ++ ["delay", "receptive_field"] ++
    ["stride", "padding", "_state_shape", "_dynamic_state_inds"] := rfl

theorem validate_iff (mro : List Namespace) : validateClass mro = .ok () ↔ HasInterface mro := by
  have h : HasInterface mro ↔ ∀ name ∈ interface, Fits name (getattr name mro) := by
    refine forall₂_congr fun name _ => finds_iff (not_fits_none name)
  rw [h, interface_eq]
  simp only [List.forall_mem_append]
  have h1 : (∀ name ∈ methods, Fits name (getattr name mro)) ↔ (methods.all fun fn => (getattr fn mro).callable) = true := by
    rw [List.all_eq_true]
    exact forall₂_congr fun name hn => fits_method hn _
  have h2 : (∀ name ∈ ["delay", "receptive_field"], Fits name (getattr name mro)) ↔
      (["delay", "receptive_field"].all fun p => [Kind.int, .tensor, .prop].contains (getattr p mro)) = true := by
    rw [List.all_eq_true]
    exact forall₂_congr fun name hn => fits_number hn _
  have h3 : (∀ name ∈ ["stride", "padding", "_state_shape", "_dynamic_state_inds"], Fits name (getattr name mro)) ↔
      (["stride", "padding", "_state_shape", "_dynamic_state_inds"].all fun p =>
        [Kind.int, .prop, .tuple, .list].contains (getattr p mro)) = true := by
    rw [List.all_eq_true]
    exact forall₂_congr fun name hn => fits_sizes hn _
  rw [h1, h2, h3]
  unfold validateClass
  generalize (methods.all fun fn => (getattr fn mro).callable) = a
  generalize (["delay", "receptive_field"].all fun p => [Kind.int, .tensor, .prop].contains (getattr p mro)) = b
  generalize (["stride", "padding", "_state_shape", "_dynamic_state_inds"].all fun p =>
        [Kind.int, .prop, .tuple, .list].contains (getattr p mro)) = c
  cases a <;> cases b <;> cases c <;> simp

theorem validate_error {mro : List Namespace} (h : ¬ HasInterface mro) : validateClass mro = .error .assertion := by
  rw [← validate_iff] at h
  revert h
  unfold validateClass
  generalize (methods.all fun fn => (getattr fn mro).callable) = a
  generalize (["delay", "receptive_field"].all fun p => [Kind.int, .tensor, .prop].contains (getattr p mro)) = b
  generalize (["stride", "padding", "_state_shape", "_dynamic_state_inds"].all fun p =>
        [Kind.int, .prop, .tuple, .list].contains (getattr p mro)) = c
  cases a <;> cases b <;> cases c <;> simp

section
variable {Ty : Type} [DecidableEq Ty]

theorem callable_iff (k : Kind) : (k = .function ∨ k = .other true) ↔ k.callable = true := by
  cases k <;> simp [Kind.callable]

/-- **C103**, registration: exactly the classes that have the interface and `build_from` are accepted, and a refused one leaves
the table of conversions as it was. -/
theorem C103_register (mapping : Mapping Ty) (t : Ty) (c : Cls) :
    (Registrable c → register mapping t c = .ok (assign mapping t c)) ∧
    (¬ Registrable c → register mapping t c = .error .assertion) := by
  have hb : (∃ k, Finds "build_from" k c.mro ∧ (k = .function ∨ k = .other true)) ↔
      (getattr "build_from" c.mro).callable = true := by
    rw [finds_iff (by simp)]
    exact callable_iff _
  constructor
  · rintro ⟨h1, h2⟩
    unfold register
    rw [(validate_iff _).2 h1, if_pos (hb.1 h2)]
    rfl
  · intro h
    unfold register
    by_cases h1 : HasInterface c.mro
    · have h2 : ¬ (getattr "build_from" c.mro).callable = true := fun h2 => h ⟨h1, hb.2 h2⟩
      rw [(validate_iff _).2 h1, if_neg h2]
      rfl
    · rw [validate_error h1]
      rfl

theorem lookup_assign (mapping : Mapping Ty) (t t' : Ty) (c : Cls) :
    (assign mapping t c).lookup t' = if t' = t then some c else mapping.lookup t' := by
  induction mapping with
  | nil => 
    unfold assign
    by_cases h : t' = t
    · simp [List.lookup, h]
    · have : (t' == t) = false := by simpa using h
      simp [List.lookup, h, this]
  | cons e es ih =>
    obtain ⟨s, d⟩ := e
    unfold assign at ih ⊢
    by_cases hs : s = t
    · subst hs
      have : ∀ es : Mapping Ty, t' ≠ s → (es.map fun e => if e.1 = s then (s, c) else e).lookup t' = es.lookup t' := by
        intro es h
        induction es with
        | nil => rfl
        | cons e es ih =>
          obtain ⟨r, d⟩ := e
          by_cases hr : r = s
          · subst hr
            have : (t' == r) = false := by simpa using h
            simp [List.lookup, this, ih]
          · simp only [List.map_cons, if_neg hr, List.lookup, ih]
      by_cases h : t' = s
      · simp [List.lookup, h]
      · have h' : (t' == s) = false := by simpa using h
        simp [List.lookup, h, h', this es h]
    · by_cases hany : es.any fun e => e.1 = t
      · rw [if_pos hany] at ih
        rw [if_pos (by simp only [List.any_cons, hany, Bool.or_true])]
        simp only [List.map_cons, if_neg hs, List.lookup]
        rw [ih]
        by_cases h : t' = s
        · subst h; simp [hs]
        · have : (t' == s) = false := by simpa using h
          simp [this]
      · rw [if_neg hany] at ih
        rw [if_neg (by simp only [List.any_cons, hany, Bool.or_false, decide_eq_true_eq]; exact hs)]
        simp only [List.cons_append, List.lookup]
        rw [ih]
        by_cases h : t' = s
        · subst h; simp [hs]
        · have : (t' == s) = false := by simpa using h
          simp [this]

theorem latest_cons {t : Ty} {c : Cls} {calls : List (Ty × Cls)} (e : Ty × Cls) (h : Latest calls t c) :
    Latest (e :: calls) t c := by
  obtain ⟨b, a, h, hr, ha⟩ := h
  exact ⟨e :: b, a, by rw [h]; rfl, hr, ha⟩

theorem latest_split {t s : Ty} {c d : Cls} {calls : List (Ty × Cls)} (h : Latest ((s, d) :: calls) t c) :
    Latest calls t c ∨ (s = t ∧ d = c ∧ Registrable c ∧ ∀ c', ¬ Latest calls t c') := by
  obtain ⟨b, a, h, hr, ha⟩ := h
  cases b with
  | nil =>
    simp only [List.nil_append, List.cons.injEq, Prod.mk.injEq] at h
    obtain ⟨⟨h1, h1'⟩, h2⟩ := h
    subst h2
    refine .inr ⟨h1, h1', hr, ?_⟩
    rintro c' ⟨b', a', h', hr', _⟩
    exact ha (t, c') (by rw [h']; simp) rfl hr'
  | cons e b =>
    simp only [List.cons_append, List.cons.injEq] at h
    exact .inl ⟨b, a, h.2, hr, ha⟩

theorem exists_latest {t : Ty} : ∀ {calls : List (Ty × Cls)}, (∃ e ∈ calls, e.1 = t ∧ Registrable e.2) → ∃ c, Latest calls t c
  | [], h => by obtain ⟨e, he, _⟩ := h; simp at he
  | f :: fs, h => by
    by_cases hl : ∃ e ∈ fs, e.1 = t ∧ Registrable e.2
    · obtain ⟨c, hc⟩ := exists_latest hl
      exact ⟨c, latest_cons f hc⟩
    · obtain ⟨e, he, het, her⟩ := h
      rcases List.mem_cons.1 he with rfl | he
      · obtain ⟨s, d⟩ := e
        cases het
        exact ⟨d, [], fs, rfl, her, fun e he het hr => hl ⟨e, he, het, hr⟩⟩
      · exact absurd ⟨e, he, het, her⟩ hl

theorem lookup_registerAll (t : Ty) : ∀ (calls : List (Ty × Cls)) (mapping : Mapping Ty),
    (∀ c, Latest calls t c → (registerAll mapping calls).lookup t = some c) ∧
    ((∀ c, ¬ Latest calls t c) → (registerAll mapping calls).lookup t = mapping.lookup t)
  | [], mapping => by
    refine ⟨fun c h => ?_, fun _ => rfl⟩
    obtain ⟨b, a, h, _⟩ := h
    simp at h
  | (s, d) :: calls, mapping => by
    by_cases hd : Registrable d
    · have e : registerAll mapping ((s, d) :: calls) = registerAll (assign mapping s d) calls := by
        rw [registerAll, (C103_register mapping s d).1 hd]
      rw [e]
      obtain ⟨ih1, ih2⟩ := lookup_registerAll t calls (assign mapping s d)
      constructor
      · intro c hc
        rcases latest_split hc with h | ⟨h, h', _, hn⟩
        · exact ih1 c h
        · rw [ih2 hn, lookup_assign, if_pos h.symm, h']
      · intro hn
        have hn' : ∀ c, ¬ Latest calls t c := fun c hc => hn c (latest_cons _ hc)
        rw [ih2 hn', lookup_assign, if_neg]
        intro hts
        subst hts
        obtain ⟨c, hc⟩ := exists_latest (t := t) (calls := (t, d) :: calls) ⟨(t, d), by simp, rfl, hd⟩
        exact hn c hc
    · have e : registerAll mapping ((s, d) :: calls) = registerAll mapping calls := by
        rw [registerAll, (C103_register mapping s d).2 hd]
      rw [e]
      obtain ⟨ih1, ih2⟩ := lookup_registerAll t calls mapping
      constructor
      · intro c hc
        rcases latest_split hc with h | ⟨_, h', hr, _⟩
        · exact ih1 c h
        · exact absurd (h' ▸ hr) hd
      · intro hn
        exact ih2 fun c hc => hn c (latest_cons _ hc)

/-- **C102.** Whatever was registered, in any order and with any number of refused calls in between: for a module whose type is not
mapped as it is and that is not a continual module, `continual` calls `build_from` of the class that was last registered for exactly
its type.  Without one it raises. -/
theorem C102_last_registered_partial (tables : Tables Ty) (calls : List (Ty × Cls)) (m : Obj Ty) (hco : m.co = false)
    (hn : tables.naive m.ty = false) (hc : tables.conditional m.ty = false) :
    (∀ c, Latest calls m.ty c → continual tables (registerAll [] calls) m = .ok (.built c)) ∧
    ((∀ e ∈ calls, e.1 = m.ty → ¬ Registrable e.2) → continual tables (registerAll [] calls) m = .error .assertion) := by
  have e : continual tables (registerAll [] calls) m =
      match (registerAll [] calls).lookup m.ty with
      | some c => .ok (.built c)
      | Option.none => .error .assertion := by
    unfold continual
    rw [hco, hn, hc]
    rfl
  obtain ⟨h1, h2⟩ := lookup_registerAll m.ty calls []
  constructor
  · intro c h
    rw [e, h1 c h]
  · intro h
    rw [e, h2 fun c hl => ?_]
    · rfl
    · obtain ⟨b, a, hl, hr, _⟩ := hl
      exact h (m.ty, c) (by rw [hl]; simp) rfl hr

/-- **C102**: registrations for other types make no difference. -/
theorem C102_other_types (tables : Tables Ty) (calls calls' : List (Ty × Cls)) (m : Obj Ty)
    (h : ∀ c, (m.ty, c) ∈ calls' → ¬ Registrable c) :
    continual tables (registerAll [] (calls ++ calls')) m = continual tables (registerAll [] calls) m := by
  have e : ∀ (calls : List (Ty × Cls)) (mapping : Mapping Ty),
      registerAll mapping (calls ++ calls') = registerAll (registerAll mapping calls) calls' := by
    intro calls
    induction calls with
    | nil => intro _; rfl
    | cons e es ih =>
      intro mapping
      obtain ⟨s, d⟩ := e
      rw [List.cons_append, registerAll, registerAll]
      cases register mapping s d with
      | ok mp => exact ih mp
      | error _ => exact ih mapping
  unfold continual
  rw [e, (lookup_registerAll m.ty calls' (registerAll [] calls)).2]
  rintro c ⟨b, a, hl, hr, _⟩
  exact h c (by rw [hl]; simp) hr

/-- **C102 fails** for types that are mapped as they are: what is registered for them is never used. -/
theorem C102_naive_refuted (tables : Tables Ty) (calls : List (Ty × Cls)) (m : Obj Ty) (hco : m.co = false) (c : Cls)
    (hr : Registrable c) (hn : tables.naive m.ty = true ∨ (tables.conditional m.ty = true ∧ m.meets = true)) :
    Latest (calls ++ [(m.ty, c)]) m.ty c ∧
      continual tables (registerAll [] (calls ++ [(m.ty, c)])) m = .ok .enhanced := by
  refine ⟨⟨calls, [], rfl, hr, by simp⟩, ?_⟩
  unfold continual
  rw [hco]
  rcases hn with h | ⟨h, h'⟩
  · rw [h]; rfl
  · rw [h, h']
    cases tables.naive m.ty <;> rfl

/-- **C102**: continual modules are returned as they are. -/
theorem C102_continual_partial (tables : Tables Ty) (calls : List (Ty × Cls)) (m : Obj Ty) (hco : m.co = true) :
    continual tables (registerAll [] calls) m = .ok .same := by
  unfold continual
  rw [hco]
  rfl

/-- **C103**: `forward_stepping` gives a module the interface. -/
theorem C103_enhanced (m : Obj Ty) : HasInterface (enhance m).attrs := by
  rw [← validate_iff]
  rfl

/-- **C102 fails** for modules that `forward_stepping` made continual: one of a type that was not registered is refused, although
it has the interface; one of a registered type is replaced. -/
theorem C102_enhanced_refuted (tables : Tables Ty) (calls : List (Ty × Cls)) (m : Obj Ty) (hco : m.co = false)
    (hn : tables.naive m.ty = false) (hc : tables.conditional m.ty = false) :
    isValid (enhance m).attrs = true ∧ continual tables (registerAll [] calls) (enhance m) ≠ .ok .same := by
  constructor
  · unfold isValid
    rw [(validate_iff _).2 (C103_enhanced m)]
  · have e : continual tables (registerAll [] calls) (enhance m) =
        match (registerAll [] calls).lookup m.ty with
        | some c => .ok (.built c)
        | Option.none => .error .assertion := by
      unfold continual enhance
      rw [hco, hn, hc]
      rfl
    rw [e]
    cases (registerAll [] calls).lookup m.ty <;> simp

end

/-- **C103.** A class with `CoModule` among its bases can be defined exactly if each name of the interface has a fitting value,
wherever in the method resolution order. -/
theorem C103_define_partial (mro : List Namespace) :
    (HasInterface mro → defineClass mro = .ok mro) ∧ (¬ HasInterface mro → defineClass mro = .error .assertion) := by
  constructor
  · intro h
    unfold defineClass
    rw [(validate_iff _).2 h]
    rfl
  · intro h
    unfold defineClass
    rw [validate_error h]
    rfl

/-- **C103**, `is_valid` tells the classes with the interface from all others. -/
theorem C103_is_valid (mro : List Namespace) : isValid mro = true ↔ HasInterface mro := by
  constructor
  · intro h
    refine Classical.byContradiction fun hn => ?_
    rw [isValid, validate_error hn] at h
    cases h
  · intro h
    rw [isValid, (validate_iff _).2 h]

/-- **C103**: a class that follows a class with the interface can be defined exactly if what it overrides fits. -/
theorem C103_override_partial (own : Namespace) (mro : List Namespace) (h : HasInterface mro) :
    HasInterface (own :: mro) ↔ ∀ name ∈ interface, ∀ k, own.lookup name = some k → Fits name k := by
  constructor
  · intro h' name hn k hk
    obtain ⟨k', h1, h2⟩ := h' name hn
    cases h1 with
    | here _ _ h1 => rw [hk] at h1; cases h1; exact h2
    | later _ _ h1 _ => rw [hk] at h1; cases h1
  · intro h' name hn
    cases hl : own.lookup name with
    | some k => exact ⟨k, .here _ _ hl, h' name hn k hl⟩
    | none =>
      obtain ⟨k, h1, h2⟩ := h name hn
      exact ⟨k, .later _ _ hl h1, h2⟩

/-- **C103 fails**: methods need not be implemented.  `CoModule` has a default for each name, so `class X(CoModule, ...)` is accepted
if it overrides none of them; then `forward` returns `None` and `forward_step` raises for lack of `_forward_step`. -/
theorem C103_unimplemented_refuted (own : Namespace) (rest : List Namespace) (h : ∀ name ∈ interface, own.lookup name = none)
    (hs : ∀ ns ∈ own :: rest, ns.lookup "_forward_step" = none) :
    defineClass (own :: coModule :: rest) = .ok (own :: coModule :: rest) ∧
      forwardReturnsNone (own :: coModule :: rest) = true ∧ forwardStep (own :: coModule :: rest) = .error .attribute := by
  refine ⟨?_, ?_, ?_⟩
  · refine (C103_define_partial _).1 ((C103_override_partial own _ ?_).2 ?_)
    · rw [← validate_iff]; rfl
    · intro name hn k hk
      rw [h name hn] at hk
      cases hk
  · unfold forwardReturnsNone
    rw [h "forward" (by decide)]
    rfl
  · have e : getattr "_forward_step" (own :: coModule :: rest) = .none := by
      rw [getattr, hs own (by simp)]
      show getattr "_forward_step" rest = .none
      have : ∀ rest : List Namespace, (∀ ns ∈ rest, ns.lookup "_forward_step" = none) → getattr "_forward_step" rest = .none := by
        intro rest
        induction rest with
        | nil => intro _; rfl
        | cons ns nss ih =>
          intro h
          rw [getattr, h ns (by simp)]
          exact ih fun n hn => h n (by simp [hn])
      exact this rest fun ns hns => hs ns (by simp [hns])
    unfold forwardStep
    rw [e]
    rfl

/-! ### Examples -/

/-- Namespaces of `nn.Module` and of a class that implements a continual module without deriving from `CoModule`. -/
def exNnModule : Namespace := [("forward", .function), ("train", .function)]

def exPlain : Cls := ⟨7, [("delay", .int) :: ("receptive_field", .int) :: ("stride", .tuple) :: ("padding", .int) ::
  ("_state_shape", .int) :: ("_dynamic_state_inds", .list) :: ("forward_step", .function) :: ("forward_steps", .function) ::
  ("get_state", .function) :: ("set_state", .function) :: ("clean_state", .function) :: [("build_from", .function)], exNnModule]⟩

/-- The same without `clean_state`. -/
def exLacking : Cls := ⟨8, exPlain.mro.map fun ns => ns.filter fun e => e.1 ≠ "clean_state"⟩

def exTables : Tables Nat := ⟨fun t => t = 0, fun t => t = 1⟩

theorem exPlain_registrable : Registrable exPlain :=
  ⟨(validate_iff _).1 (by rfl), .function, .here _ _ (by rfl), .inl rfl⟩

theorem exLacking_not : ¬ Registrable exLacking := fun h => by
  have : validateClass exLacking.mro = .error .assertion := by rfl
  rw [(validate_iff _).2 h.1] at this
  cases this

example : continual exTables (registerAll [] [(5, exPlain), (5, exLacking), (6, exPlain)]) ⟨5, false, true, []⟩ =
    .ok (.built exPlain) :=
  (C102_last_registered_partial exTables _ ⟨5, false, true, []⟩ rfl rfl rfl).1 exPlain
    ⟨[], _, rfl, exPlain_registrable, by
      intro e he h
      simp only [List.mem_cons, List.not_mem_nil, or_false] at he
      rcases he with rfl | rfl
      · exact exLacking_not
      · simp at h⟩

example : defineClass [[("_secret", .int)], coModule, exNnModule] = .ok [[("_secret", .int)], coModule, exNnModule] :=
  (C103_unimplemented_refuted _ _ (by decide +kernel) (by decide +kernel)).1

example : defineClass [[("delay", .list)], coModule, exNnModule] = .error .assertion := by rfl

end CoInf.Registry
