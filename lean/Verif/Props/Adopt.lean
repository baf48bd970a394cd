/-
C98: a module of torch passed to a container is treated as if it had been converted by hand.
-/
import Verif.Model.Adopt

set_option autoImplicit false

namespace CoInf.Spec
open Adopt
variable {M : Type}

/-- What a user does who converts by hand: `co.continual(m)` for the modules of torch that are not continual yet. -/
def byHand : Arg M → Except Err (Arg M)
  | .plain _ conv => conv.map .co
  | m => .ok m

/-- Converting all arguments by hand succeeds and gives the second list. -/
def AllByHand (ms ms' : List (Arg M)) : Prop := List.Forall₂ (fun m m' => byHand m = .ok m') ms ms'

end CoInf.Spec

namespace CoInf.Adopt
open Spec
variable {M : Type}

theorem byHand_adopt {m m' : Arg M} (h : byHand m = .ok m') : adopt m = adopt m' := by
  cases m with
  | plain s conv =>
    cases conv with
    | error e => cases h
    | ok c => cases h; rfl
  | _ => cases h; rfl

theorem mapM_congr {α α' β : Type} {f : α → Except Err β} {g : α' → Except Err β} {xs : List α} {ys : List α'}
    (h : List.Forall₂ (fun x y => f x = g y) xs ys) : xs.mapM f = ys.mapM g := by
  induction h with
  | nil => rfl
  | cons hx _ ih => rw [List.mapM_cons, List.mapM_cons, hx, ih]

theorem mapM_error {α β : Type} {f : α → Except Err β} {m : α} {e : Err} (he : f m = .error e) :
    ∀ {xs : List α}, m ∈ xs → ∃ e', xs.mapM f = .error e'
  | x :: xs, h => by
    rw [List.mapM_cons]
    cases hx : f x with
    | error e' => exact ⟨e', rfl⟩
    | ok y =>
      rcases List.mem_cons.1 h with rfl | h
      · rw [he] at hx; cases hx
      · obtain ⟨e', h'⟩ := mapM_error he h
        exact ⟨e', by rw [h']; rfl⟩

theorem mapM_total {α β : Type} {f : α → Except Err β} {g : α → β} : ∀ {xs : List α}, (∀ x ∈ xs, f x = .ok (g x)) →
    xs.mapM f = .ok (xs.map g)
  | [], _ => rfl
  | x :: xs, h => by
    rw [List.mapM_cons, h x (by simp), mapM_total fun y hy => h y (by simp [hy])]
    rfl

/-- **C98**, `Sequential`: the arguments may be converted by hand or not. -/
theorem C98_sequential (ms ms' : List (Arg M)) (h : AllByHand ms ms') : sequential ms = sequential ms' :=
  mapM_congr (h.imp fun _ _ => byHand_adopt)

/-- **C98**, `Sequential` refuses what `continual` refuses. -/
theorem C98_sequential_raises (ms : List (Arg M)) (m : Arg M) (hm : m ∈ ms) {e : Err} (he : byHand m = .error e) :
    ∃ e', sequential ms = .error e' := by
  refine mapM_error (m := m) (e := e) ?_ hm
  cases m with
  | plain s conv =>
    cases conv with
    | error e' => cases he; rfl
    | ok c => cases he
  | _ => cases he

/-- **C98**, `append`: modules may be passed to the constructor or appended afterwards, in any proportion. -/
theorem C98_append (ms ns : List (Arg M)) :
    sequential (ms ++ ns) = (do let cs ← sequential ms; ns.foldlM append cs) := by
  have key : ∀ (ns : List (Arg M)) (cs : List (Co M)), ns.foldlM append cs = (ns.mapM adopt).map (cs ++ ·) := by
    intro ns
    induction ns with
    | nil =>
      intro cs
      show Except.ok cs = Except.ok (cs ++ [])
      rw [List.append_nil]
    | cons n ns ih =>
      intro cs
      rw [List.foldlM_cons, List.mapM_cons]
      unfold append
      cases adopt n with
      | error e => rfl
      | ok c =>
        show List.foldlM append (cs ++ [c]) ns = Except.map _ (do let cs ← ns.mapM adopt; pure (c :: cs))
        rw [ih]
        cases ns.mapM adopt with
        | error e => rfl
        | ok ds => show Except.ok _ = Except.ok _; simp
  unfold sequential
  rw [List.mapM_append]
  cases ms.mapM adopt with
  | error e => rfl
  | ok cs =>
    show _ = List.foldlM append cs ns
    rw [key]
    cases ns.mapM adopt <;> rfl

/-- **C98**, `Conditional`, for arguments that were not passed to `forward_stepping` before. -/
theorem C98_conditional_partial (t t' f f' : Arg M) (ht : byHand t = .ok t') (hf : byHand f = .ok f')
    (hn : ∀ c r, t ≠ .enhanced c r ∧ f ≠ .enhanced c r) :
    conditional t (some f) = conditional t' (some f') ∧ conditional t none = conditional t' none := by
  have key : ∀ m m' : Arg M, byHand m = .ok m' → (∀ c r, m ≠ .enhanced c r) → convert m = convert m' := by
    intro m m' h hn
    cases m with
    | plain s conv =>
      cases conv with
      | error e => cases h
      | ok c => cases h; rfl
    | enhanced c r => exact absurd rfl (hn c r)
    | _ => cases h; rfl
  unfold conditional
  rw [key t t' ht fun c r => (hn c r).1]
  simp only [key f f' hf fun c r => (hn c r).2, and_self]

/-- **C98**, the parallel containers with `auto_delay=False`: for modules whose attribute `stride` is that of their conversion. -/
theorem C98_parallel_partial (ms ms' : List (Arg M)) (h : AllByHand ms ms')
    (hs : List.Forall₂ (fun m m' => stride m = stride m') ms ms') :
    parallel false ms = parallel false ms' ∧ broadcastReduce false ms = broadcastReduce false ms' := by
  have e : (ms.map Branch.raw).map Branch.stride = (ms'.map Branch.raw).map Branch.stride := by
    clear h
    induction hs with
    | nil => rfl
    | cons hx _ ih => simpa using ⟨hx, by simpa using ih⟩
  have e' : (ms.map Branch.raw).mapM Branch.adopt = (ms'.map Branch.raw).mapM Branch.adopt := by
    apply mapM_congr
    clear e hs
    induction h with
    | nil => exact .nil
    | cons hx _ ih => exact .cons (by show (adopt _).map _ = (adopt _).map _; rw [byHand_adopt hx]) ih
  have p : parallel false ms = parallel false ms' := by
    show register _ = register _
    unfold register
    rw [e, e']
  refine ⟨p, ?_⟩
  unfold broadcastReduce
  rw [h.length_eq, p]

theorem delays_plain : ∀ {ms : List (Arg M)}, (∃ s r, Arg.plain s r ∈ ms) → (Arg.empty ∉ ms) →
    ms.mapM delay = .error .attribute
  | m :: ms, ⟨s, r, h⟩, he => by
    rw [List.mapM_cons]
    cases m with
    | plain s' r' => rfl
    | empty => exact absurd List.mem_cons_self he
    | co c =>
      have h' : Arg.plain s r ∈ ms := by simpa using h
      show (do let ds ← ms.mapM delay; pure (c.delay :: ds)) = _
      rw [delays_plain ⟨s, r, h'⟩ fun hm => he (by simp [hm])]
      rfl
    | enhanced c a =>
      have h' : Arg.plain s r ∈ ms := by simpa using h
      show (do let ds ← ms.mapM delay; pure (c.delay :: ds)) = _
      rw [delays_plain ⟨s, r, h'⟩ fun hm => he (by simp [hm])]
      rfl

/-- **C98 fails** for `Parallel` and `BroadcastReduce` as they are by default (`auto_delay=True`): with any plain module among
the arguments they raise `AttributeError`, whatever the others; converted by hand, the same modules are accepted if their strides
agree. -/
theorem C98_parallel_refuted (ms : List (Arg M)) (hp : ∃ s r, Arg.plain s r ∈ ms) (he : Arg.empty ∉ ms) (h2 : 1 < ms.length) :
    parallel true ms = .error .attribute ∧ broadcastReduce true ms = .error .attribute := by
  have p : parallel true ms = .error .attribute := by
    show (do let bs ← levelled ms; register bs) = _
    unfold levelled
    rw [delays_plain hp he]
    rfl
  exact ⟨p, by rw [broadcastReduce, if_pos h2, p]⟩

/-- The same modules, converted by hand. -/
theorem C98_parallel_converted (cs : List (Co M)) (h2 : 1 < cs.length) (s : Nat) (hs : ∀ c ∈ cs, c.stride = s) :
    ∃ bs, parallel true (cs.map Arg.co) = .ok bs ∧ broadcastReduce true (cs.map Arg.co) = .ok bs := by
  have hd : (cs.map Arg.co).mapM delay = .ok (cs.map Co.delay) := by
    rw [mapM_total (g := fun m => match m with | .co c => c.delay | _ => 0), List.map_map]
    · rfl
    · intro m hm
      obtain ⟨c, _, rfl⟩ := List.mem_map.1 hm
      rfl
  obtain ⟨mx, hmx⟩ : ∃ mx, (cs.map Co.delay).max? = some mx := by
    cases cs with
    | nil => simp at h2
    | cons c cs => exact ⟨_, rfl⟩
  let lev : Co M → Branch M := fun c => if c.delay < mx then .built (.after c (mx - c.delay).toNat) else .raw (.co c)
  have hl : (cs.map Arg.co).mapM (level mx) = .ok (cs.map lev) := by
    rw [mapM_total (g := fun m => match m with | .co c => lev c | m => .raw m), List.map_map]
    · rfl
    · intro m hm
      obtain ⟨c, _, rfl⟩ := List.mem_map.1 hm
      show (if c.delay < mx then _ else _) = Except.ok (if c.delay < mx then _ else _)
      by_cases h : c.delay < mx
      · rw [if_pos h, if_pos h]; rfl
      · rw [if_neg h, if_neg h]; rfl
  have hst : (cs.map lev).map Branch.stride = List.replicate cs.length s := by
    rw [List.map_map, List.eq_replicate_iff]
    refine ⟨by simp, fun n hn => ?_⟩
    obtain ⟨c, hc, rfl⟩ := List.mem_map.1 hn
    show (lev c).stride = s
    simp only [lev]
    split
    · exact hs c hc
    · exact hs c hc
  have had : (cs.map lev).mapM Branch.adopt =
      .ok ((cs.map lev).map fun b => match b with | .raw (.co c) => .mod c | .built b => b | _ => .delay 0) := by
    apply mapM_total
    intro b hb
    obtain ⟨c, _, rfl⟩ := List.mem_map.1 hb
    simp only [lev]
    split <;> rfl
  have hp : parallel true (cs.map Arg.co) =
      .ok ((cs.map lev).map fun b => match b with | .raw (.co c) => .mod c | .built b => b | _ => .delay 0) := by
    show (do let bs ← levelled (cs.map Arg.co); register bs) = _
    unfold levelled
    rw [hd]
    show (do let bs ← (match (cs.map Co.delay).max? with | none => Except.error Err.value | some m => _); register bs) = _
    rw [hmx]
    show (do let bs ← (cs.map Arg.co).mapM (level mx); register bs) = _
    rw [hl]
    show register _ = _
    unfold register
    rw [hst, List.replicate_dedup (by omega), if_pos (by rfl), had]
  exact ⟨_, hp, by rw [broadcastReduce, if_pos (by simpa using h2), hp]⟩

/-- **C98 fails** for strides with `auto_delay=False`: a `nn.Sequential` has no attribute `stride`.  With a conversion of stride
other than one it is accepted next to a module of stride one, which is refused after converting by hand; and it is refused next
to a module of its own stride, which is accepted after converting by hand. -/
theorem C98_stride_refuted (c c₁ c₂ : Co M) (hc : c.stride ≠ 1) (h₁ : c₁.stride = 1) (h₂ : c₂.stride = c.stride) :
    (∃ bs, parallel false [.plain none (.ok c), .co c₁] = .ok bs) ∧ parallel false [.co c, .co c₁] = .error .assertion ∧
    parallel false [.plain none (.ok c), .co c₂] = .error .assertion ∧ ∃ bs, parallel false [.co c, .co c₂] = .ok bs := by
  have d1 : ∀ a : Nat, ([a, a].dedup).length = 1 := fun a => by simp
  have d2 : ∀ a b : Nat, a ≠ b → ([a, b].dedup).length = 2 := fun a b h => by
    rw [List.dedup_eq_self.2 (by simpa using h)]; rfl
  refine ⟨⟨[.mod c, .mod c₁], ?_⟩, ?_, ?_, ⟨[.mod c, .mod c₂], ?_⟩⟩
  · show register [.raw _, .raw _] = _
    unfold register
    rw [if_pos (by show ([1, c₁.stride].dedup).length = 1; rw [h₁]; exact d1 1)]
    rfl
  · show register [.raw _, .raw _] = _
    unfold register
    rw [if_neg (by show ¬ ([c.stride, c₁.stride].dedup).length = 1; rw [h₁, d2 _ _ hc]; decide)]
  · show register [.raw _, .raw _] = _
    unfold register
    rw [if_neg (by show ¬ ([1, c₂.stride].dedup).length = 1; rw [h₂, d2 _ _ hc.symm]; decide)]
  · show register [.raw _, .raw _] = _
    unfold register
    rw [if_pos (by show ([c.stride, c₂.stride].dedup).length = 1; rw [h₂]; exact d1 _)]
    rfl

/-- **C98 fails** for `Residual`: every plain module raises; after converting by hand it is accepted. -/
theorem C98_residual_refuted (s : Option Nat) (c : Co M) (hc : c.stride = 1) (hd : 0 ≤ c.delay) :
    (∃ e, residual (.plain s (.ok c)) = .error e) ∧ (s.getD 1 = 1 → residual (.plain s (.ok c)) = .error .attribute) ∧
    residual (.co c) = .ok [.delay c.delay.toNat, .mod c] := by
  refine ⟨?_, fun h => ?_, ?_⟩
  · unfold residual
    by_cases h : s.getD 1 = 1
    · exact ⟨.attribute, by rw [if_pos (by exact h)]; rfl⟩
    · exact ⟨.assertion, by rw [if_neg (by exact h)]⟩
  · unfold residual
    rw [if_pos (by exact h)]
    rfl
  · unfold residual
    rw [if_pos (by exact hc)]
    show (if c.delay < 0 then Except.error Err.assertion else register [.built (.delay c.delay.toNat), .raw (.co c)]) = _
    rw [if_neg (by omega)]
    unfold register
    rw [if_pos (by show ([1, c.stride].dedup).length = 1; rw [hc]; rfl)]
    rfl

/-- **C98 fails** for `Conditional` with a module of another type that was passed to `forward_stepping`: `continual` is applied
to it, and refuses it; `Sequential` and the other containers accept the module. -/
theorem C98_conditional_refuted (c : Co M) (f : Option (Arg M)) :
    conditional (.enhanced c (.error .assertion)) f = .error .assertion ∧
    sequential [.enhanced c (.error .assertion)] = .ok [c] := ⟨by cases f <;> rfl, rfl⟩

/-! ### Examples -/

/-- `nn.Conv1d(1, 1, 3, stride=2)`, as it is converted. -/
def exStrided : Co String := ⟨"conv", 2, 3, 2⟩

/-- `nn.ReLU()`, as it is converted. -/
def exRelu : Co String := ⟨"relu", 0, 1, 1⟩

/-- `co.Conv1d(1, 1, 3)`. -/
def exConv : Co String := ⟨"co.conv", 2, 3, 1⟩

example : AllByHand [.plain none (.ok exRelu), .co exConv] [.co exRelu, .co exConv] ∧
    sequential [.plain none (.ok exRelu), .co exConv] = .ok [exRelu, exConv] :=
  ⟨.cons rfl (.cons rfl .nil), rfl⟩

example : byHand (.plain none (.error .assertion) : Arg String) = .error .assertion := rfl

example : List.Forall₂ (fun m m' : Arg String => stride m = stride m') [.plain none (.ok exRelu), .co exConv]
    [.co exRelu, .co exConv] := .cons rfl (.cons rfl .nil)

example : parallel true [.plain none (.ok exRelu), .co exConv] = .error .attribute ∧
    parallel true [.co exRelu, .co exConv] = .ok [.after exRelu 2, .mod exConv] := ⟨rfl, rfl⟩

example : exStrided.stride ≠ 1 ∧ exConv.stride = 1 ∧ (0 : Int) ≤ exConv.delay := by decide

example : conditional (.plain none (.ok exRelu)) (some (.co exConv)) = .ok [.before 2 exRelu, .mod exConv] := rfl

end CoInf.Adopt
