/-
Property C120: what ptflops reports for a network is the number of operations that its members do in the call.
-/
import Verif.Model.Ptflops
import Verif.Props.Hooks
import Mathlib.Data.Rat.Defs
import Mathlib.Tactic.Ring
import Mathlib.Tactic.FieldSimp

set_option autoImplicit false

namespace CoInf
open CallMode Spec

namespace Spec

mutual
/-- How often each object of a tree should be counted by its own hooks, in the order of the calls: members once; but modules
made by `forward_stepping` twice in steps, and recurrent modules not in `forward`.  (With `fair` all of them once.) -/
def countedBy (fair : Bool) (M : Mode) : Tree → List Nat
  | .leaf i _ => [i]
  | .rnn i _ => if fair = false ∧ M = .forward then [] else [i]
  | .naive i _ => if fair = false ∧ M ≠ .forward then [i, i] else [i]
  | .box _ i cs => countedByAll fair M cs ++ [i]
  | .cond i c => countedBy fair M c ++ [i]
  | .condId i => [i]
def countedByAll (fair : Bool) (M : Mode) : List Tree → List Nat
  | [] => []
  | c :: cs => countedBy fair M c ++ countedByAll fair M cs
end

/-- Multiplications of a convolution that is evaluated at `positions` positions of the output: for each of them and each output
channel, one for each tap of the kernel and each input channel of the group. -/
def convMuls (positions outC inC groups : Nat) (kernel : List Nat) : Nat :=
  positions * outC * ((inC / groups) * kernel.foldr (· * ·) 1)

/-- Multiplications of a linear map applied to `rows` vectors. -/
def linearMuls (rows inC outC : Nat) : Nat := rows * (outC * inC)

end Spec

namespace Ptflops

def posts (es : List Hooks.Ev) : List Nat := es.filterMap fun
  | .post i => some i
  | _ => none

theorem posts_append (a b : List Hooks.Ev) : posts (a ++ b) = posts a ++ posts b := List.filterMap_append

mutual
theorem invoke_posts {g : Ctx} (hg : g.prev = none) {M : Mode} : ∀ (t : Tree) {raw : Bool},
    Plain ⟨false, true⟩ raw t → ∀ σ : Modes, σ t.id = .tok M →
    (Hooks.invoke g M t σ).err = none ∧ posts (Hooks.invoke g M t σ).trace = countedBy false M t
  | .leaf i b, _, h, σ, hσ => by
    have hb : b = false := h
    subst hb
    have hσ' : σ i = .tok M := hσ
    simp [Hooks.invoke, Hooks.impl, hσ', dispatch_rest hg, fits_self, Hooks.around, Hooks.perform, posts, countedBy]
  | .rnn i b, _, h, σ, hσ => by
    obtain ⟨hb, -⟩ := h
    subst hb
    have hσ' : σ i = .tok M := hσ
    cases M <;>
    simp [Hooks.invoke, Hooks.impl, hσ', dispatch_rest hg, fits_self, Hooks.around, Hooks.perform, posts, countedBy]
  | .naive i b, _, h, σ, hσ => by
    obtain ⟨hb, -⟩ := h
    subst hb
    have hσ' : σ i = .tok M := hσ
    cases M <;>
    simp [Hooks.invoke, Hooks.withMode, Hooks.impl, hσ', naive_rest hg, fits_self, Hooks.around, Hooks.perform, posts, countedBy]
  | .box r i cs, _, h, σ, hσ => by
    have hσ' : σ i = .tok M := hσ
    obtain ⟨h1, h2⟩ := children_posts hg (M := M) cs (raw := r) h σ
    simp only [Hooks.invoke, hσ', dispatch_rest hg, fits_self, if_true, Hooks.around, h1]
    refine ⟨trivial, ?_⟩
    rw [posts_append, countedBy, ← h2]
    rfl
  | .cond _ _, _, h, _, _ => absurd h.1 (by simp)
  | .condId i, _, h, σ, hσ => by
    have hσ' : σ i = .tok M := hσ
    simp [Hooks.invoke, Hooks.impl, hσ', dispatch_rest hg, fits_self, Hooks.around, posts, countedBy]

theorem children_posts {g : Ctx} (hg : g.prev = none) {M : Mode} : ∀ (cs : List Tree) {raw : Bool},
    PlainAll ⟨false, true⟩ raw cs → ∀ σ : Modes,
    (Hooks.children g M raw cs σ).err = none ∧ posts (Hooks.children g M raw cs σ).trace = countedByAll false M cs
  | [], _, _, _ => ⟨rfl, rfl⟩
  | c :: cs, raw, h, σ => by
    obtain ⟨h1, h2⟩ := invoke_posts hg c h.1 (assign (childMode raw M) c σ) (assign_own h.1 σ)
    obtain ⟨h3, h4⟩ := children_posts hg cs h.2
      (assign (σ c.id) c (Hooks.invoke g M c (assign (childMode raw M) c σ)).modes)
    simp only [Hooks.children, h1]
    exact ⟨h3, by rw [posts_append, h2, h4, countedByAll]⟩
end

theorem tally_posts {add : Nat → Except Err Nat} {cost : Nat → Nat} : ∀ es : List Hooks.Ev,
    (∀ i ∈ posts es, add i = .ok (cost i)) → tally add es = .ok ((posts es).map cost).sum
  | [], _ => rfl
  | .post i :: es, h => by
    have hi := h i (by simp [posts])
    have ih := tally_posts es (cost := cost) fun j hj => h j (by simp only [posts, List.filterMap_cons] at hj ⊢; exact List.mem_cons_of_mem _ hj)
    simp only [tally, hi, ih, Except.map]
    rfl
  | .pre i :: es, h => tally_posts es h
  | .run i M :: es, h => tally_posts es h

theorem rounds_posts (root : Nat) : ∀ es : List Hooks.Ev, rounds root es = (posts es).count root
  | [] => rfl
  | e :: es => by
    have ih := rounds_posts root es
    unfold rounds at ih ⊢
    cases e with
    | post i =>
      rw [List.countP_cons, ih, show posts (Hooks.Ev.post i :: es) = i :: posts es from rfl, List.count_cons]
      simp
    | pre i => rw [List.countP_cons, ih]; simp [posts]
    | run i M => rw [List.countP_cons, ih]; simp [posts]

mutual
theorem fair_one {M : Mode} : ∀ (t : Tree) {raw : Bool}, Hookable M raw t → countedBy false M t = countedBy true M t
  | .leaf _ _, _, _ => rfl
  | .rnn i b, _, h => by simp [countedBy, h.2]
  | .naive i b, _, h => by simp [countedBy, h.2.1]
  | .box r i cs, _, h => by rw [countedBy, countedBy, fair_all cs h]
  | .cond _ _, _, h => h.elim
  | .condId _, _, h => h.elim
theorem fair_all {M : Mode} : ∀ (cs : List Tree) {raw : Bool}, HookableAll M raw cs →
    countedByAll false M cs = countedByAll true M cs
  | [], _, _ => rfl
  | c :: cs, _, h => by rw [countedByAll, countedByAll, fair_one c h.1, fair_all cs h.2]
end

mutual
theorem plain_one {M : Mode} : ∀ (t : Tree) {raw : Bool}, Hookable M raw t → Plain ⟨false, true⟩ raw t
  | .leaf _ _, _, h => h
  | .rnn _ _, _, h => ⟨h.1, rfl⟩
  | .naive _ _, _, h => ⟨h.1, h.2.2⟩
  | .box _ _ cs, _, h => plain_all cs h
  | .cond _ _, _, h => h.elim
  | .condId _, _, h => h.elim
theorem plain_all {M : Mode} : ∀ (cs : List Tree) {raw : Bool}, HookableAll M raw cs → PlainAll ⟨false, true⟩ raw cs
  | [], _, _ => trivial
  | c :: cs, _, h => ⟨plain_one c h.1, plain_all cs h.2⟩
end

mutual
theorem fair_mode {M M' : Mode} : ∀ t : Tree, countedBy true M t = countedBy true M' t
  | .leaf _ _ => rfl
  | .rnn _ _ => by simp [countedBy]
  | .naive _ _ => by simp [countedBy]
  | .box _ _ cs => by rw [countedBy, countedBy, fair_mode_all cs]
  | .cond _ c => by rw [countedBy, countedBy, fair_mode c]
  | .condId _ => rfl
theorem fair_mode_all {M M' : Mode} : ∀ cs : List Tree, countedByAll true M cs = countedByAll true M' cs
  | [] => rfl
  | c :: cs => by rw [countedByAll, countedByAll, fair_mode c, fair_mode_all cs]
end

mutual
theorem mem_counted {M : Mode} {raw : Bool} {j : Nat} : ∀ t : Tree, Hookable M raw t → j ∈ countedBy true M t →
    j ∈ workers t ∨ j ∈ boxes t
  | .leaf i _, _, h => by simpa [countedBy, workers, boxes] using h
  | .rnn i _, _, h => by simpa [countedBy, workers, boxes] using h
  | .naive i _, _, h => by simpa [countedBy, workers, boxes] using h
  | .box _ i cs, hh, h => by
    rw [countedBy, List.mem_append, List.mem_singleton] at h
    rcases h with h | rfl
    · rcases mem_counted_all cs hh h with h | h
      · exact .inl (by simpa [workers] using h)
      · exact .inr (by simp [boxes, h])
    · exact .inr (by simp [boxes])
  | .cond _ _, hh, _ => hh.elim
  | .condId _, hh, _ => hh.elim
theorem mem_counted_all {M : Mode} {raw : Bool} {j : Nat} : ∀ cs : List Tree, HookableAll M raw cs →
    j ∈ countedByAll true M cs → j ∈ workersAll cs ∨ j ∈ boxesAll cs
  | [], _, h => by cases h
  | c :: cs, hh, h => by
    rw [countedByAll, List.mem_append] at h
    rcases h with h | h
    · rcases mem_counted c hh.1 h with h | h
      · exact .inl (by simp [workersAll, h])
      · exact .inr (by simp [boxesAll, h])
    · rcases mem_counted_all cs hh.2 h with h | h
      · exact .inl (by simp [workersAll, h])
      · exact .inr (by simp [boxesAll, h])
end

end Ptflops
open Ptflops

/-! ### C120 -/

/-- **C120**, networks: outside of `co.call_mode` blocks, in each of the three modes, what is reported for a network (no
`Conditional`, nothing raises, the object of the container does not occur among its members) with `batch ≥ 1` entries is exactly the
sum of what its members' hooks add, divided by the number of entries; the list of counted members is `countedBy`. -/
theorem C120_report (g : Ctx) (hg : g.prev = none) (M : Mode) (raw : Bool) (root : Nat) (cs : List Tree)
    (h : PlainAll ⟨false, true⟩ raw cs) (hr : root ∉ countedByAll false M cs) (add : Nat → Except Err Nat) (cost : Nat → Nat)
    (ha : ∀ i ∈ countedByAll false M cs, add i = .ok (cost i)) (h0 : add root = .ok 0) (batch : Nat) (σ : Modes)
    (hσ : σ root = .tok M) :
    report add root batch (Hooks.invoke g M (.box raw root cs) σ) =
      .ok ((((countedByAll false M cs).map cost).sum : Nat) / (batch : ℚ)) := by
  obtain ⟨h1, h2⟩ := invoke_posts hg (M := M) (.box raw root cs) (raw := false) h σ hσ
  unfold report
  rw [h1]
  have hc : posts (Hooks.invoke g M (.box raw root cs) σ).trace = countedByAll false M cs ++ [root] := h2
  let cost' : Nat → Nat := fun i => if i = root then 0 else cost i
  rw [tally_posts (cost := cost') _ (by
    intro i hi
    rw [hc, List.mem_append, List.mem_singleton] at hi
    rcases hi with hi | rfl
    · rw [ha i hi]; simp only [cost']; rw [if_neg (fun e : i = root => hr (e ▸ hi))]
    · rw [h0]; simp [cost']), rounds_posts, hc, List.count_append, List.count_eq_zero.2 hr]
  simp only [Except.map, List.map_append, List.sum_append, List.map_cons, List.map_nil, List.sum_cons, List.sum_nil]
  have e : (countedByAll false M cs).map cost' = (countedByAll false M cs).map cost :=
    List.map_congr_left fun i hi => by simp only [cost']; rw [if_neg (fun e : i = root => hr (e ▸ hi))]
  rw [e]
  simp [cost']

/-- **C120**, as far as it holds: in networks of continual members (and, in `forward`, members made by `forward_stepping`;
in steps, recurrent ones), every member is counted exactly once.  What is missing: `C120_stepping_refuted`,
`C120_recurrent_refuted`, `C120_conditional_refuted`. -/
theorem C120_once_partial (g : Ctx) (hg : g.prev = none) (M : Mode) (raw : Bool) (root : Nat) (cs : List Tree)
    (h : HookableAll M raw cs) (hr : root ∉ countedByAll true M cs) (add : Nat → Except Err Nat) (cost : Nat → Nat)
    (ha : ∀ i ∈ countedByAll true M cs, add i = .ok (cost i)) (h0 : add root = .ok 0) (batch : Nat) (σ : Modes)
    (hσ : σ root = .tok M) :
    report add root batch (Hooks.invoke g M (.box raw root cs) σ) =
      .ok ((((countedByAll true M cs).map cost).sum : Nat) / (batch : ℚ)) := by
  rw [← Ptflops.fair_all cs h] at hr ha ⊢
  exact C120_report g hg M raw root cs (Ptflops.plain_all cs h) hr add cost ha h0 batch σ hσ

/-- **C120** fails for members made by `forward_stepping` (norms, for instance): in a container they are counted twice in a
step and once in `forward`.  (A single module of this kind is reported correctly, because the batches are counted twice as well.) -/
theorem C120_stepping_refuted (g : Ctx) (hg : g.prev = none) (root j : Nat) (hj : root ≠ j) (add : Nat → Except Err Nat) (n : Nat)
    (ha : add j = .ok n) (h0 : add root = .ok 0) (batch : Nat) (M : Mode) (σ : Modes) (hσ : σ root = .tok M) (hσj : σ j = .tok M) :
    report add root batch (Hooks.invoke g M (.box false root [.naive j false]) σ) =
      .ok (((if M = .forward then n else 2 * n : Nat) : ℚ) / batch) ∧
    report add j batch (Hooks.invoke g M (.naive j false) σ) = .ok ((n : ℚ) / batch) := by
  constructor
  · have hc : ∀ i ∈ countedByAll false M [.naive j false], i = j := by
      cases M <;> simp [countedByAll, countedBy]
    rw [C120_report g hg M false root [.naive j false] ⟨⟨rfl, rfl⟩, trivial⟩ (fun h => hj (hc _ h)) add (fun _ => n)
      (fun i hi => by rw [hc i hi]; exact ha) h0 batch σ hσ]
    cases M <;> simp [countedByAll, countedBy, two_mul]
  · obtain ⟨h1, h2⟩ := invoke_posts hg (M := M) (.naive j false) (raw := false) ⟨rfl, rfl⟩ σ hσj
    unfold report
    rw [h1]
    have hc : ∀ i ∈ posts (Hooks.invoke g M (.naive j false) σ).trace, i = j := by
      rw [h2]; cases M <;> simp [countedBy]
    rw [tally_posts (cost := fun _ => n) _ (fun i hi => by rw [hc i hi]; exact ha), rounds_posts, h2]
    cases M
    · simp [countedBy, Except.map]
    all_goals
      have e : (((n + (n + 0) : Nat) : ℚ) / (((0 + 1 + 1) * batch : Nat) : ℚ)) = (n : ℚ) / batch := by
        push_cast
        rw [show ((n : ℚ) + (n + 0)) = 2 * n by ring]
        exact mul_div_mul_left _ _ two_ne_zero
      simp only [countedBy, Except.map, ne_eq, reduceCtorEq, not_false_eq_true, and_self, if_true, List.map_cons, List.map_nil,
        List.sum_cons, List.sum_nil, List.count_cons_self, List.count_nil]
      exact congrArg Except.ok e

/-- **C120** fails for the branches of a `Conditional`: nothing is counted in steps, whatever they do. -/
theorem C120_conditional_refuted (g : Ctx) (hg : g.prev = none) (M : Mode) (hM : M ≠ .forward) (root j k : Nat)
    (add : Nat → Except Err Nat) (h0 : add root = .ok 0) (hj : add j = .ok 0) (batch : Nat) (σ : Modes)
    (hσ : σ root = .tok M) :
    report add root batch (Hooks.invoke g M (.box false root [.cond j (.leaf k false)]) σ) = .ok 0 := by
  have ht : (Hooks.invoke g M (.box false root [.cond j (.leaf k false)]) σ).trace =
        [.pre root, .pre j, .run k M, .post j, .post root] ∧
      (Hooks.invoke g M (.box false root [.cond j (.leaf k false)]) σ).err = none := by
    have hd : dispatch g (assign (childMode false M) (.cond j (.leaf k false)) σ j) = .ok M := by
      rw [show assign (childMode false M) (.cond j (.leaf k false)) σ j = .tok M from
        assign_own (k := ⟨true, true⟩) (raw := false) (c := .cond j (.leaf k false)) ⟨rfl, rfl⟩ σ]
      exact dispatch_rest hg M
    cases M with
    | forward => exact absurd rfl hM
    | steps => simp [Hooks.method, Hooks.children, Hooks.invoke, hσ, dispatch_rest hg, hd, fits_self, Hooks.around, Hooks.perform]
    | step => simp [Hooks.method, Hooks.children, Hooks.invoke, hσ, dispatch_rest hg, hd, fits_self, Hooks.around, Hooks.perform]
  unfold report
  rw [ht.2, ht.1]
  simp [tally, h0, hj, Except.map]

/-- **C120** fails for recurrent modules: they have no hook, and a network of them is reported to do nothing. -/
theorem C120_recurrent_refuted (p : Part) (hp : p.cls = .RNN ∨ p.cls = .GRU ∨ p.cls = .LSTM) : adds p = .ok 0 := by
  unfold adds
  rcases hp with hp | hp | hp <;> rw [hp] <;> rfl

/-- **C120**, convolutions: for a call with output, what is counted is the number of multiplications of the convolution at all
positions of the output, and one addition per entry of the output if there is a bias; this is so for clips and for
frames, where the output has no axis of time.  Without output (a step before the first result, or between two results of a
convolution with stride) the hook raises `AttributeError`, so that the operations cannot be counted. -/
theorem C120_convolutions (p : Part) (hc : p.cls = .Conv1d ∨ p.cls = .Conv2d ∨ p.cls = .Conv3d) :
    (∀ b rest dims, p.inp = b :: rest → p.out = some (b :: p.outC :: dims) → 0 < p.groups → p.groups ∣ p.inC → p.groups ∣ p.outC →
      adds p = .ok (convMuls (b * prod dims) p.outC p.inC p.groups p.kernel +
        if p.bias then b * prod dims * p.outC else 0)) ∧
    (p.out = none → adds p = .error .attribute) := by
  have e : adds p = convHook p := by
    unfold adds
    rcases hc with hp | hp | hp <;> rw [hp] <;> rfl
  rw [e]
  constructor
  · intro b rest dims h1 h2 hg h3 h4
    unfold convHook
    rw [h1, h2]
    obtain ⟨x, hx⟩ := h3
    obtain ⟨y, hy⟩ := h4
    have e1 : p.inC / p.groups = x := by rw [hx, Nat.mul_div_cancel_left _ hg]
    have e2 : p.outC / p.groups = y := by rw [hy, Nat.mul_div_cancel_left _ hg]
    simp only [List.headD_cons, List.drop_succ_cons, List.drop_zero, convMuls, e1, e2]
    congr 1
    have e3 : prod p.kernel * p.inC * y * (b * prod dims) = b * prod dims * p.outC * (x * prod p.kernel) := by
      rw [hx, hy]; ring
    rw [show p.kernel.foldr (· * ·) 1 = prod p.kernel from rfl, e3]
    cases p.bias
    · rfl
    · simp [Nat.mul_comm]
  · intro h
    unfold convHook
    rw [h]

/-- **C120**, pooling modules: one operation per entry of the input, in each of their classes; with `T` frames `T` times as much as
with one frame. -/
theorem C120_pools (p : Part) (hp : p.cls ∈ [.AvgPool1d, .AvgPool2d, .AvgPool3d, .MaxPool1d, .MaxPool2d, .MaxPool3d,
      .AdaptiveAvgPool2d, .AdaptiveAvgPool3d, .AdaptiveMaxPool2d, .AdaptiveMaxPool3d]) :
    (∀ b c T dims, p.inp = b :: c :: T :: dims → adds p = .ok (T * (b * c * prod dims))) ∧
      ∀ b c dims, p.inp = b :: c :: dims → adds p = .ok (b * c * prod dims) := by
  have e : adds p = .ok (prod p.inp) := by
    unfold adds
    simp only [List.mem_cons, List.not_mem_nil, or_false] at hp
    rcases hp with hp | hp | hp | hp | hp | hp | hp | hp | hp | hp <;> rw [hp] <;> rfl
  rw [e]
  constructor
  · intro b c T dims h
    rw [h]
    simp only [prod, List.foldr_cons]
    congr 1
    ring
  · intro b c dims h
    rw [h]
    simp only [prod, List.foldr_cons]
    congr 1
    ring

/-- **C120**, linear modules, as far as it holds: with the channels on the last axis, what is counted is the number of
multiplications, and one addition per entry of the output if there is a bias.  What is missing: `C120_channels_refuted`. -/
theorem C120_linear_partial (p : Part) (hc : p.cls = .Linear) (rows : List Nat) (n m : Nat) (h1 : p.inp = rows ++ [n])
    (h2 : p.out = some (rows ++ [m])) :
    adds p = .ok (linearMuls (prod rows) n m + if p.bias then prod rows * m else 0) := by
  have e : adds p = linearHook p := by unfold adds; rw [hc]; rfl
  rw [e]
  unfold linearHook
  rw [h1, h2]
  simp only [List.getLastD_concat, List.dropLast_concat, linearMuls]
  congr 1
  cases p.bias
  · simp only [cond_false]; ring_nf; simp
  · simp only [cond_true, if_true]; ring

/-- **C120** fails for `Linear(n, m, channel_dim=1)` on clips: `channel_dim` is ignored, and the number of frames is taken for the
numbers of channels; what is counted is right exactly if there happen to be `m` frames. -/
theorem C120_channels_refuted (p : Part) (hc : p.cls = .Linear) (hb : p.bias = false) (b n m T : Nat) (hb0 : 0 < b) (hn : 0 < n)
    (hT : 0 < T) (h1 : p.inp = [b, n, T]) (h2 : p.out = some [b, m, T]) :
    adds p = .ok (b * n * (T * T)) ∧ (adds p = .ok (linearMuls (b * T) n m) ↔ T = m) := by
  have e : adds p = .ok (b * n * (T * T)) := by
    have e : adds p = linearHook p := by unfold adds; rw [hc]; rfl
    rw [e]
    unfold linearHook
    rw [h1, h2, hb]
    simp [prod]
    ring
  refine ⟨e, ?_⟩
  rw [e, Except.ok.injEq, linearMuls]
  have e2 : b * T * (m * n) = b * n * (T * m) := by ring
  rw [e2, Nat.mul_right_inj (Nat.mul_pos hb0 hn).ne', Nat.mul_right_inj (by omega)]

/-- **C120** fails for attention with several batch entries: the hook adds the operations of one entry (C81), and the report
divides them by the number of entries. -/
theorem C120_entries_refuted (g : Ctx) (hg : g.prev = none) (M : Mode) (root j : Nat) (hj : root ≠ j) (part : Nat → Part)
    (hp : (part j).cls = .SingleOutputMultiheadAttention ∨ (part j).cls = .RetroactiveMultiheadAttention)
    (h0 : (part root).cls = .Sequential) (batch : Nat) (σ : Modes) (hσ : σ root = .tok M) :
    report (fun i => adds (part i)) root batch (Hooks.invoke g M (.box false root [.leaf j false]) σ) =
      .ok (((part j).flops : ℚ) / batch) := by
  have ha : adds (part j) = .ok (part j).flops := by
    unfold adds
    rcases hp with hp | hp <;> rw [hp] <;> rfl
  rw [C120_report g hg M false root [.leaf j false] ⟨rfl, trivial⟩ (by simpa [countedByAll, countedBy] using hj)
    (fun i => adds (part i)) (fun _ => (part j).flops) (fun i hi => by
      have : i = j := by simpa [countedByAll, countedBy] using hi
      subst this; exact ha) (by unfold adds; rw [h0]; rfl) batch σ hσ]
  simp [countedByAll, countedBy]

/-- **C120**, the saving: in a network of convolutions (nested containers) in which every member gives as many frames as the clip has,
the report for a step with results is the report for `forward` on a clip of `T` frames divided by `T`. -/
theorem C120_frames (g : Ctx) (hg : g.prev = none) (raw : Bool) (root : Nat) (cs : List Tree) (T : Nat) (hT : 0 < T)
    (h : HookableAll .forward raw cs) (h' : HookableAll .step raw cs) (hr : root ∉ countedByAll true .forward cs)
    (clip frame : Nat → Part) (batch : Nat)
    (hw : ∀ i ∈ workersAll cs, ∃ dims rest rest', ((clip i).cls = .Conv1d ∨ (clip i).cls = .Conv2d ∨ (clip i).cls = .Conv3d) ∧
      0 < (clip i).groups ∧ (clip i).groups ∣ (clip i).inC ∧ (clip i).groups ∣ (clip i).outC ∧
      (clip i).inp = batch :: rest ∧ (clip i).out = some (batch :: (clip i).outC :: T :: dims) ∧
      frame i = { clip i with inp := batch :: rest', out := some (batch :: (clip i).outC :: dims) })
    (hbx : ∀ i ∈ root :: boxesAll cs, ((clip i).cls = .Sequential ∨ (clip i).cls = .BroadcastReduce) ∧ (frame i).cls = (clip i).cls)
    (σ τ : Modes) (hσ : σ root = .tok .forward) (hτ : τ root = .tok .step) :
    ∃ q, report (fun i => adds (clip i)) root batch (Hooks.invoke g .forward (.box raw root cs) σ) = .ok q ∧
      report (fun i => adds (frame i)) root batch (Hooks.invoke g .step (.box raw root cs) τ) = .ok (q / T) := by
  let cost : Nat → Nat := fun i => match adds (frame i) with
    | .ok n => n
    | .error _ => 0
  have hcost : ∀ i ∈ root :: countedByAll true .forward cs,
      adds (frame i) = .ok (cost i) ∧ adds (clip i) = .ok (T * cost i) ∧ (i = root → adds (frame i) = .ok 0) := by
    intro i hi
    have hcase : i ∈ workersAll cs ∧ i ≠ root ∨ i ∈ root :: boxesAll cs := by
      rcases List.mem_cons.1 hi with rfl | hi'
      · exact .inr (by simp)
      · rcases mem_counted_all cs h hi' with hw' | hb'
        · exact .inl ⟨hw', fun e => hr (e ▸ hi')⟩
        · exact .inr (by simp [hb'])
    rcases hcase with ⟨hi', hne⟩ | hi'
    · obtain ⟨dims, rest, rest', hc, hg0, hg1, hg2, hin, hout, hf⟩ := hw i hi'
      have e1 := (C120_convolutions (clip i) hc).1 batch rest (T :: dims) hin hout hg0 hg1 hg2
      have e2 := (C120_convolutions (frame i) (by rw [hf]; exact hc)).1 batch rest' dims (by rw [hf]) (by rw [hf])
        (by rw [hf]; exact hg0) (by rw [hf]; exact hg1) (by rw [hf]; exact hg2)
      have e3 : adds (frame i) = .ok (cost i) := by simp only [cost]; rw [e2]
      refine ⟨e3, ?_, fun e => absurd e hne⟩
      rw [e1]
      rw [e2, Except.ok.injEq, hf] at e3
      rw [← e3]
      congr 1
      simp only [convMuls, show prod (T :: dims) = T * prod dims from rfl]
      split
      · ring
      · ring
    · obtain ⟨hc, hf⟩ := hbx i hi'
      have e0 : ∀ p : Part, p.cls = .Sequential ∨ p.cls = .BroadcastReduce → adds p = .ok 0 := by
        intro p hp
        unfold adds
        rcases hp with hp | hp <;> rw [hp] <;> rfl
      have e2 := e0 (frame i) (by rw [hf]; exact hc)
      have e3 : cost i = 0 := by simp only [cost]; rw [e2]
      refine ⟨by rw [e2, e3], by rw [e0 _ hc, e3, Nat.mul_zero], fun _ => e2⟩
  have hroot := hcost root (by simp)
  have r0 : adds (frame root) = .ok 0 := hroot.2.2 rfl
  have r1 : adds (clip root) = .ok 0 := by
    rw [hroot.2.1]
    have := hroot.1
    rw [r0, Except.ok.injEq] at this
    rw [← this, Nat.mul_zero]
  have hm : countedByAll true .step cs = countedByAll true .forward cs := fair_mode_all cs
  refine ⟨_, C120_once_partial g hg .forward raw root cs h hr (fun i => adds (clip i)) (fun i => T * cost i)
    (fun i hi => (hcost i (by simp [hi])).2.1) r1 batch σ hσ, ?_⟩
  rw [C120_once_partial g hg .step raw root cs h' (by rw [hm]; exact hr) (fun i => adds (frame i)) cost
    (fun i hi => (hcost i (by rw [hm] at hi; simp [hi])).1) r0 batch τ hτ, hm]
  congr 1
  have hs : ∀ l : List Nat, (l.map fun i => T * cost i).sum = T * (l.map cost).sum := by
    intro l
    induction l with
    | nil => rfl
    | cons a l ih => simp [ih, Nat.mul_add]
  rw [hs]
  push_cast
  have hT' : (T : ℚ) ≠ 0 := by exact_mod_cast hT.ne'
  rw [mul_div_assoc, mul_div_cancel_left₀ _ hT']

/-! ### Cases that meet the hypotheses -/

namespace Ptflops

/-- `Sequential(Conv1d(2, 4, 3, padding=1), Sequential(Conv1d(4, 4, 3, padding=1, groups=2)))` on a clip of 8 frames with 2 entries;
the containers are objects 0 and 2. -/
def exTree : List Tree := [.leaf 1 false, .box false 2 [.leaf 3 false]]

def exClip (i : Nat) : Part :=
  if i = 1 then ⟨.Conv1d, [2, 2, 8], some [2, 4, 8], [3], 2, 4, 1, true, 0⟩
  else if i = 3 then ⟨.Conv1d, [2, 4, 8], some [2, 4, 8], [3], 4, 4, 2, true, 0⟩
  else ⟨.Sequential, [2, 2, 8], some [2, 4, 8], [], 0, 0, 1, false, 0⟩

def exFrame (i : Nat) : Part :=
  if i = 1 then ⟨.Conv1d, [2, 2], some [2, 4], [3], 2, 4, 1, true, 0⟩
  else if i = 3 then ⟨.Conv1d, [2, 4], some [2, 4], [3], 4, 4, 2, true, 0⟩
  else ⟨.Sequential, [2, 2], some [2, 4], [], 0, 0, 1, false, 0⟩

end Ptflops

example (g : Ctx) (hg : g.prev = none) (σ τ : Modes) (hσ : σ 0 = .tok .forward) (hτ : τ 0 = .tok .step) :
    ∃ q, report (fun i => adds (Ptflops.exClip i)) 0 2 (Hooks.invoke g .forward (.box false 0 Ptflops.exTree) σ) = .ok q ∧
      report (fun i => adds (Ptflops.exFrame i)) 0 2 (Hooks.invoke g .step (.box false 0 Ptflops.exTree) τ) = .ok (q / (8 : Nat)) := by
  refine C120_frames g hg false 0 Ptflops.exTree 8 (by omega) ⟨rfl, ⟨rfl, trivial⟩, trivial⟩ ⟨rfl, ⟨rfl, trivial⟩, trivial⟩
    (by decide) Ptflops.exClip Ptflops.exFrame 2 ?_ ?_ σ τ hσ hτ
  · intro i hi
    have : i = 1 ∨ i = 3 := by simpa [Ptflops.exTree, workersAll, workers] using hi
    rcases this with rfl | rfl
    · exact ⟨[], [2, 8], [2], .inl rfl, by decide, by decide, by decide, rfl, rfl, rfl⟩
    · exact ⟨[], [4, 8], [4], .inl rfl, by decide, by decide, by decide, rfl, rfl, rfl⟩
  · intro i hi
    have : i = 0 ∨ i = 2 := by simpa [Ptflops.exTree, boxesAll, boxes] using hi
    rcases this with rfl | rfl <;> exact ⟨.inl rfl, rfl⟩

-- the report for a step: (48 + 8 + 48 + 8) / 2 = 56 operations per entry: 4 * 2 * 3 + 4 + 4 * 2 * 3 + 4
example (g : Ctx) (hg : g.prev = none) (τ : Modes) (hτ : τ 0 = .tok .step) :
    report (fun i => adds (Ptflops.exFrame i)) 0 2 (Hooks.invoke g .step (.box false 0 Ptflops.exTree) τ) = .ok 56 := by
  rw [C120_once_partial g hg .step false 0 Ptflops.exTree ⟨rfl, ⟨rfl, trivial⟩, trivial⟩ (by decide)
    (fun i => adds (Ptflops.exFrame i)) (fun i => if i = 1 ∨ i = 3 then 56 else 0) (by decide) rfl 2 τ hτ]
  simp [Ptflops.exTree, countedByAll, countedBy]
  norm_num

-- a step of a convolution without output
example : adds { Ptflops.exFrame 1 with out := none } = .error .attribute := (C120_convolutions _ (.inl rfl)).2 rfl

-- `Linear(3, 5)` on frames of shape (2, 3), and `Linear(3, 5, channel_dim=1)` on clips of shape (2, 3, 7)
example : adds ⟨.Linear, [2, 3], some [2, 5], [], 3, 5, 1, true, 0⟩ = .ok 40 :=
  C120_linear_partial _ rfl [2] 3 5 rfl rfl
example : adds ⟨.Linear, [2, 3, 7], some [2, 5, 7], [], 3, 5, 1, false, 0⟩ ≠ .ok (linearMuls (2 * 7) 3 5) := fun h =>
  absurd ((C120_channels_refuted _ rfl rfl 2 3 5 7 (by omega) (by omega) (by omega) rfl rfl).2.1 h) (by omega)

-- a norm of 12 operations in a container, in a step
example (g : Ctx) (hg : g.prev = none) (σ : Modes) (h0 : σ 0 = .tok .step) (h1 : σ 1 = .tok .step) :
    report (fun i => if i = 1 then .ok 12 else .ok 0) 0 1 (Hooks.invoke g .step (.box false 0 [.naive 1 false]) σ) = .ok 24 := by
  rw [(C120_stepping_refuted g hg 0 1 (by omega) (fun i => if i = 1 then .ok 12 else .ok 0) 12 rfl rfl 1 .step σ h0 h1).1]
  norm_num
  exact fun h => by cases h

end CoInf
