/-
C105, C106: what conversion does to the parameters of a network, and to the network that was converted.
-/
import Verif.Model.Carry
import Mathlib.Data.List.Forall2
import Mathlib.Data.List.Nodup

set_option autoImplicit false

namespace CoInf.Spec

open CoInf.Carry

variable {V : Type}

/-- Modules for which a new object is made. -/
def Rebuilt (n : Node) : Prop := n.kind ≠ .co ∧ n.kind ≠ .naive

/-- A network that exists: its references point to something. -/
def Present (h : Heap V) (m : Mod) : Prop :=
  ∀ n ∈ nodes m, n.obj < h.objs.length ∧ ∀ r ∈ n.tensors, r < h.tensors.length

/-- The tensors behind references. -/
def contents (h : Heap V) (ts : List Nat) : List (Option (Tensor V)) := ts.map (h.tensors[·]?)

/-- The mode of an object: training, or evaluation. -/
def mode (h : Heap V) (o : Nat) : Option Bool := (h.objs[o]?).map (·.training)

/-- Is something kept of the tensors of a network, in their order? -/
def Kept {B : Type} (f : Tensor V → B) (h : Heap V) (m : Mod) (h' : Heap V) (c : Mod) : Prop :=
  (contents h' (tensorsOf c)).map (Option.map f) = (contents h (tensorsOf m)).map (Option.map f)

/-- The tensors of a module are as torch makes them by default: linear and recurrent modules have the same type and device throughout,
the others the given ones. -/
def AsMade (dtype : DType) (dev : Device.Dev) (h : Heap V) (n : Node) : Prop :=
  ∀ t, some t ∈ contents h n.tensors →
    if n.kind = .linear ∨ n.kind = .rnn then ∀ t', some t' ∈ contents h n.tensors → t'.dtype = t.dtype ∧ t'.dev = t.dev
    else t.dtype = dtype ∧ t.dev = dev

/-- The object was marked by `forward_stepping`. -/
def Marked (h : Heap V) (o : Nat) : Prop := (h.objs[o]?).map (·.enhanced) = some true

/-- What can be done with a network afterwards. -/
inductive Use (V : Type) where
  | write (i : Nat) (v : V)
  | train (mode : Bool)

/-- Do it. -/
def use (c : Mod) : List (Use V) → Heap V → Heap V
  | [], h => h
  | .write i v :: us, h => use c us (write c i v h)
  | .train b :: us, h => use c us (train b c h)

end CoInf.Spec

namespace CoInf.Carry

open CoInf.Spec CoInf.Device

variable {V : Type}

/-- Nothing is lost from a heap. -/
structure Ext (h h' : Heap V) : Prop where
  pre : h.tensors <+: h'.tensors
  len : h.objs.length ≤ h'.objs.length
  mode : ∀ o, o < h.objs.length → mode h' o = mode h o

theorem Ext.refl (h : Heap V) : Ext h h := ⟨List.prefix_refl _, Nat.le_refl _, fun _ _ => rfl⟩

theorem Ext.trans {a b c : Heap V} (h : Ext a b) (h' : Ext b c) : Ext a c :=
  ⟨h.pre.trans h'.pre, h.len.trans h'.len, fun o ho => (h'.mode o (ho.trans_le h.len)).trans (h.mode o ho)⟩

theorem Ext.get? {h h' : Heap V} (e : Ext h h') {r : Nat} (hr : r < h.tensors.length) : h'.tensors[r]? = h.tensors[r]? := by
  obtain ⟨l, hl⟩ := e.pre
  rw [← hl, List.getElem?_append_left hr]

theorem Ext.contents {h h' : Heap V} (e : Ext h h') {ts : List Nat} (hr : ∀ r ∈ ts, r < h.tensors.length) :
    contents h' ts = contents h ts := by
  refine List.map_congr_left fun r hm => e.get? (hr r hm)

theorem Ext.get {h h' : Heap V} (e : Ext h h') {ts : List Nat} (hr : ∀ r ∈ ts, r < h.tensors.length) :
    Carry.get h' ts = Carry.get h ts := by
  refine List.filterMap_congr fun r hm => e.get? (hr r hm)

theorem Ext.tlen {h h' : Heap V} (e : Ext h h') : h.tensors.length ≤ h'.tensors.length := e.pre.length_le

theorem enhance_ext (o : Nat) (h : Heap V) : Ext h (enhance o h) := by
  refine ⟨List.prefix_refl _, by simp [enhance], fun o' _ => ?_⟩
  simp only [mode, enhance, List.getElem?_modify]
  cases h.objs[o']? with
  | none => rfl
  | some x => simp only [Option.map_some]; split <;> rfl

theorem push_ext (ts : List (Tensor V)) (o : Obj) (h : Heap V) : Ext h ⟨h.tensors ++ ts, h.objs ++ [o]⟩ := by
  refine ⟨List.prefix_append _ _, by simp, fun o' ho => ?_⟩
  simp only [mode, List.getElem?_append_left ho]

/-- What becomes of a module, of any kind. -/
def Carried (E : Env V) (h h' : Heap V) (n n' : Node) : Prop :=
  (¬ Rebuilt n ∧ n' = n) ∨
  (Rebuilt n ∧ mode h' n'.obj = some true ∧ h.objs.length ≤ n'.obj ∧ n'.obj < h'.objs.length ∧
    (∀ r ∈ n'.tensors, h.tensors.length ≤ r ∧ r < h'.tensors.length) ∧ n'.tensors.Nodup ∧
    contents h' n'.tensors = (contents h n.tensors).map (Option.map
      (fresh E (place E n.kind (get h n.tensors)).1 (place E n.kind (get h n.tensors)).2)))

theorem Carried.mono {E : Env V} {a b c d : Heap V} {n n' : Node} (hab : Ext a b) (hcd : Ext c d)
    (hn : ∀ r ∈ n.tensors, r < a.tensors.length) (h : Carried E b c n n') : Carried E a d n n' := by
  rcases h with h | ⟨h1, h2, h3, h4, h5, h6, h7⟩
  · exact .inl h
  · refine .inr ⟨h1, (hcd.mode _ h4).trans h2, hab.len.trans h3, h4.trans_le hcd.len,
      fun r hr => ⟨hab.tlen.trans (h5 r hr).1, (h5 r hr).2.trans_le hcd.tlen⟩, h6, ?_⟩
    rw [hcd.contents fun r hr => (h5 r hr).2, h7, hab.contents hn, hab.get hn]

theorem get_contents (h : Heap V) (ts : List Nat) (ht : ∀ r ∈ ts, r < h.tensors.length) :
    (get h ts).map some = contents h ts := by
  induction ts with
  | nil => rfl
  | cons r ts ih =>
    have hr := ht r (by simp)
    have := ih fun r hr => ht r (by simp [hr])
    simp only [get, contents, List.map_cons] at *
    rw [List.filterMap_cons, List.getElem?_eq_getElem hr]
    simp [this]

theorem buildFrom_carried (E : Env V) (n : Node) (hk : Rebuilt n) (h : Heap V) (ht : ∀ r ∈ n.tensors, r < h.tensors.length) :
    ∃ n', (buildFrom E n.kind n.tensors h).1 = .leaf n' ∧ Ext h (buildFrom E n.kind n.tensors h).2 ∧
      Carried E h (buildFrom E n.kind n.tensors h).2 n n' := by
  refine ⟨_, rfl, push_ext _ _ _, .inr ⟨hk, ?_, Nat.le_refl _, ?_, ?_, ?_, ?_⟩⟩
  · simp [buildFrom, mode]
  · simp [buildFrom]
  · intro r hr
    simp only [List.mem_map, List.mem_range, buildFrom] at hr ⊢
    obtain ⟨a, ha, rfl⟩ := hr
    simp only [List.length_append, List.length_map] at ha ⊢
    omega
  · refine List.Nodup.map (fun a b h => by simpa using h) List.nodup_range
  · rw [← get_contents h n.tensors ht]
    simp only [contents, buildFrom, List.map_map]
    refine List.ext_getElem (by simp) fun i hi hi' => ?_
    simp only [List.getElem_map, List.getElem_range, Function.comp_apply, Option.map_some]
    rw [List.getElem?_append_right (by omega), Nat.add_sub_cancel_left]
    simp only [List.length_map] at hi'
    rw [List.getElem?_map, List.getElem?_eq_getElem hi', Option.map_some]

/-- No two conversions have a tensor in common. -/
def Apart (p q : Node × Node) : Prop := Rebuilt p.1 → Rebuilt q.1 → ∀ r ∈ p.2.tensors, r ∉ q.2.tensors

theorem main_append {E : Env V} {h h1 h' : Heap V} {l l' k k' : List Node} (e1 : Ext h h1) (e2 : Ext h1 h')
    (hl : ∀ n ∈ l, ∀ r ∈ n.tensors, r < h.tensors.length) (hk : ∀ n ∈ k, ∀ r ∈ n.tensors, r < h.tensors.length)
    (f : List.Forall₂ (Carried E h h1) l l') (g : List.Forall₂ (Carried E h1 h') k k')
    (pf : (l.zip l').Pairwise Apart) (pg : (k.zip k').Pairwise Apart) :
    List.Forall₂ (Carried E h h') (l ++ k) (l' ++ k') ∧ ((l ++ k).zip (l' ++ k')).Pairwise Apart := by
  have f' : List.Forall₂ (Carried E h h') l l' := by
    rw [List.forall₂_iff_zip] at f ⊢
    exact ⟨f.1, fun {a b} hab => (f.2 hab).mono (Ext.refl h) e2 (hl a (List.of_mem_zip hab).1)⟩
  have g' : List.Forall₂ (Carried E h h') k k' := by
    rw [List.forall₂_iff_zip] at g ⊢
    exact ⟨g.1, fun {a b} hab => (g.2 hab).mono e1 (Ext.refl h') (hk a (List.of_mem_zip hab).1)⟩
  refine ⟨List.rel_append f' g', ?_⟩
  rw [List.zip_append f.length_eq, List.pairwise_append]
  refine ⟨pf, pg, fun p hp q hq hpr hqr r hr hr' => ?_⟩
  have hp' : Carried E h h1 p.1 p.2 := (List.forall₂_iff_zip.mp f).2 hp
  have hq' : Carried E h1 h' q.1 q.2 := (List.forall₂_iff_zip.mp g).2 hq
  rcases hp' with ⟨h, _⟩ | ⟨_, _, _, _, h5, _⟩
  · exact h hpr
  · rcases hq' with ⟨h, _⟩ | ⟨_, _, _, _, h5', _⟩
    · exact h hqr
    · have := (h5 r hr).2
      have := (h5' r hr').1
      omega

mutual
theorem continual_main (E : Env V) : (m : Mod) → (h : Heap V) → (∀ n ∈ nodes m, ∀ r ∈ n.tensors, r < h.tensors.length) →
    Ext h (continual E m h).2 ∧ ∀ c, (continual E m h).1 = .ok c →
      List.Forall₂ (Carried E h (continual E m h).2) (nodes m) (nodes c) ∧ ((nodes m).zip (nodes c)).Pairwise Apart
  | .leaf n, h, ht => by
    have ht : ∀ r ∈ n.tensors, r < h.tensors.length := ht n (by simp [nodes])
    have key : ∀ k, n.kind = k → k ≠ .co → k ≠ .naive → Ext h (buildFrom E k n.tensors h).2 ∧ ∀ c,
        (Except.ok (ε := Err) (buildFrom E k n.tensors h).1 = .ok c) →
        List.Forall₂ (Carried E h (buildFrom E k n.tensors h).2) (nodes (.leaf n)) (nodes c) ∧
          ((nodes (.leaf n)).zip (nodes c)).Pairwise Apart := by
      rintro k rfl h1 h2
      obtain ⟨n', hn', e, hc⟩ := buildFrom_carried E n ⟨h1, h2⟩ h ht
      refine ⟨e, fun c hcc => ?_⟩
      rw [hn'] at hcc
      obtain rfl := Except.ok.inj hcc
      exact ⟨.cons hc .nil, by simp [nodes]⟩
    cases hk : n.kind with
    | co =>
      simp only [continual, hk]
      refine ⟨Ext.refl h, fun c hc => ?_⟩
      obtain rfl := Except.ok.inj hc
      exact ⟨.cons (.inl ⟨by simp [Rebuilt, hk], rfl⟩) .nil, by simp [nodes]⟩
    | naive =>
      simp only [continual, hk]
      refine ⟨enhance_ext _ _, fun c hc => ?_⟩
      obtain rfl := Except.ok.inj hc
      exact ⟨.cons (.inl ⟨by simp [Rebuilt, hk], rfl⟩) .nil, by simp [nodes]⟩
    | conv => simp only [continual, hk]; exact key _ hk (by simp) (by simp)
    | pool => simp only [continual, hk]; exact key _ hk (by simp) (by simp)
    | linear => simp only [continual, hk]; exact key _ hk (by simp) (by simp)
    | rnn => simp only [continual, hk]; exact key _ hk (by simp) (by simp)
    | container => simp only [continual, hk]; exact ⟨Ext.refl h, fun c hc => by simp at hc⟩
    | other => simp only [continual, hk]; exact ⟨Ext.refl h, fun c hc => by simp at hc⟩
  | .seq o ms, h, ht => by
    have ih := continualAll_main E ms h fun n hn => ht n (by simp [nodes, hn])
    rcases hr : continualAll E ms h with ⟨r, h1⟩
    rw [hr] at ih
    cases r with
    | error e =>
      simp only [continual, hr]
      exact ⟨ih.1, fun c hc => by simp at hc⟩
    | ok cs =>
      simp only [continual, hr]
      have e2 := push_ext [] ⟨true, false⟩ h1
      rw [List.append_nil] at e2
      refine ⟨ih.1.trans e2, fun c hc => ?_⟩
      obtain rfl := Except.ok.inj hc
      obtain ⟨f, p⟩ := ih.2 cs rfl
      have f' : List.Forall₂ (Carried E h ⟨h1.tensors, h1.objs ++ [⟨true, false⟩]⟩) (nodesAll ms) (nodesAll cs) := by
        rw [List.forall₂_iff_zip] at f ⊢
        exact ⟨f.1, fun {a b} hab => (f.2 hab).mono (Ext.refl h) e2 fun r hr =>
          ht a (by simp [nodes, (List.of_mem_zip hab).1]) r hr⟩
      refine ⟨.cons (.inr ⟨by simp [Rebuilt], by simp [mode], ih.1.len, by simp, by simp, by simp, rfl⟩) f', ?_⟩
      simp only [nodes, List.zip_cons_cons, List.pairwise_cons]
      exact ⟨fun q _ _ _ r hr => by simp at hr, p⟩
theorem continualAll_main (E : Env V) : (ms : Mods) → (h : Heap V) → (∀ n ∈ nodesAll ms, ∀ r ∈ n.tensors, r < h.tensors.length) →
    Ext h (continualAll E ms h).2 ∧ ∀ c, (continualAll E ms h).1 = .ok c →
      List.Forall₂ (Carried E h (continualAll E ms h).2) (nodesAll ms) (nodesAll c) ∧ ((nodesAll ms).zip (nodesAll c)).Pairwise Apart
  | .nil, h, _ => by
    refine ⟨Ext.refl h, fun c hc => ?_⟩
    obtain rfl := Except.ok.inj hc
    exact ⟨.nil, by simp [nodesAll]⟩
  | .cons m ms, h, ht => by
    have h1 := continual_main E m h fun n hn => ht n (by simp [nodesAll, hn])
    rcases hr : continual E m h with ⟨r, h'⟩
    rw [hr] at h1
    cases r with
    | error e =>
      simp only [continualAll, hr]
      exact ⟨h1.1, fun c hc => by simp at hc⟩
    | ok c =>
      have h2 := continualAll_main E ms h' fun n hn r hr =>
        (ht n (by simp [nodesAll, hn]) r hr).trans_le h1.1.tlen
      rcases hr' : continualAll E ms h' with ⟨r', h''⟩
      rw [hr'] at h2
      cases r' with
      | error e =>
        simp only [continualAll, hr, hr']
        exact ⟨h1.1.trans h2.1, fun c hc => by simp at hc⟩
      | ok cs =>
        simp only [continualAll, hr, hr']
        refine ⟨h1.1.trans h2.1, fun c' hc => ?_⟩
        obtain rfl := Except.ok.inj hc
        obtain ⟨f, p⟩ := h1.2 c rfl
        obtain ⟨g, q⟩ := h2.2 cs rfl
        exact main_append h1.1 h2.1 (fun n hn => ht n (by simp [nodesAll, hn])) (fun n hn => ht n (by simp [nodesAll, hn])) f g p q
end

/-! ### C105 -/

theorem contents_flatMap (h : Heap V) (l : List Node) :
    contents h (l.flatMap (·.tensors)) = l.flatMap fun n => contents h n.tensors := by
  simp only [contents, List.map_flatMap]

theorem kept_iff {B : Type} (f : Tensor V → B) {h h' : Heap V} {m c : Mod} {E : Env V} (he : Present h m)
    (hc : continual E m h = (.ok c, h')) :
    Kept f h m h' c ↔ ∀ n ∈ nodes m, Rebuilt n → ∀ t, some t ∈ contents h n.tensors →
      f (fresh E (place E n.kind (get h n.tensors)).1 (place E n.kind (get h n.tensors)).2 t) = f t := by
  have hm := continual_main E m h fun n hn => (he n hn).2
  rw [hc] at hm
  obtain ⟨e, hm⟩ := hm
  obtain ⟨hf, -⟩ := hm c rfl
  have he' := fun n hn => (he n hn).2
  simp only [Kept, tensorsOf, contents_flatMap, List.map_flatMap]
  clear hc hm he
  revert he'
  generalize nodes m = l at hf ⊢
  generalize nodes c = l' at hf ⊢
  induction hf with
  | nil => simp
  | @cons n n' l l' hn _ ih =>
    intro he
    have ih := ih fun n hn => he n (by simp [hn])
    simp only [List.flatMap_cons, List.forall_mem_cons]
    have hlen : ((contents h' n'.tensors).map (Option.map f)).length = ((contents h n.tensors).map (Option.map f)).length := by
      rcases hn with ⟨_, rfl⟩ | ⟨_, _, _, _, _, _, h7⟩
      · simp [contents]
      · rw [h7]; simp
    refine Iff.trans ?_ (and_congr Iff.rfl ih)
    constructor
    · intro hh
      obtain ⟨h1, h2⟩ := List.append_inj hh hlen
      refine ⟨fun hr t ht => ?_, h2⟩
      rcases hn with ⟨h0, _⟩ | ⟨_, _, _, _, _, _, h7⟩
      · exact absurd hr h0
      · rw [h7, List.map_map] at h1
        have := List.map_inj_left.mp h1 _ ht
        simpa using this
    · rintro ⟨h1, h2⟩
      rw [h2]
      congr 1
      rcases hn with ⟨_, rfl⟩ | ⟨hr, _, _, _, _, _, h7⟩
      · rw [e.contents (he _ (by simp))]
      · rw [h7, List.map_map]
        refine List.map_congr_left fun o ho => ?_
        cases o with
        | none => rfl
        | some t => simpa using h1 hr t ho

theorem place_eq (E : Env V) (h : Heap V) (n : Node) (t : Tensor V) (ht : some t ∈ contents h n.tensors)
    (hn : ∀ r ∈ n.tensors, r < h.tensors.length) (hm : AsMade E.dtype E.dev h n) :
    place E n.kind (get h n.tensors) = (t.dtype, t.dev) := by
  have hmt := hm t ht
  rw [← get_contents h n.tensors hn] at ht hmt
  cases hg : get h n.tensors with
  | nil => rw [hg] at ht; simp at ht
  | cons t0 ts =>
    rw [hg] at hmt
    cases hk : n.kind <;> simp only [hk, place] at hmt ⊢ <;> simp at hmt <;> simp [hmt]

/-- **C105**, where it holds: for parameters of the default type on the default device (linear and recurrent modules: of any one type
and device), with values of their type, the parameters and buffers of the converted network have the values, types and devices of the
original. -/
theorem C105_values_partial {E : Env V} {h h' : Heap V} {m c : Mod} (he : Present h m)
    (hc : continual E m h = (.ok c, h'))
    (hv : ∀ t ∈ h.tensors, E.cast t.dtype t.val = t.val) (hd : ∀ n ∈ nodes m, Rebuilt n → AsMade E.dtype E.dev h n) :
    Kept (fun t => (t.val, t.dtype, t.dev)) h m h' c := by
  rw [kept_iff _ he hc]
  intro n hn hr t ht
  rw [place_eq E h n t ht (he n hn).2 (hd n hn hr)]
  have : t ∈ h.tensors := by
    simp only [contents, List.mem_map] at ht
    obtain ⟨r, _, hr⟩ := ht
    exact List.mem_of_getElem? hr
  simp [fresh, hv t this]

/-- **C105 fails** for the type of convolutions: the conversion of a convolution with parameters of another type than the default one has
parameters of the default type, with values that are cast to it. -/
theorem C105_dtype_refuted {E : Env V} {h h' : Heap V} {m c : Mod} (he : Present h m)
    (hc : continual E m h = (.ok c, h')) (n : Node) (hn : n ∈ nodes m) (hk : n.kind = .conv) (t : Tensor V)
    (ht : some t ∈ contents h n.tensors) (hd : t.dtype ≠ E.dtype) :
    ¬ Kept (·.dtype) h m h' c ∧ (E.cast E.dtype t.val ≠ t.val → ¬ Kept (·.val) h m h' c) := by
  rw [kept_iff _ he hc, kept_iff _ he hc]
  have hr : Rebuilt n := by simp [Rebuilt, hk]
  refine ⟨fun hh => ?_, fun hv hh => ?_⟩
  · exact hd (by simpa [hk, place, fresh] using (hh n hn hr t ht).symm)
  · exact hv (by simpa [hk, place, fresh] using hh n hn hr t ht)

/-- **C105 fails** for the device of convolutions: converted, they lie on the default device. -/
theorem C105_device_refuted {E : Env V} {h h' : Heap V} {m c : Mod} (he : Present h m)
    (hc : continual E m h = (.ok c, h')) (n : Node) (hn : n ∈ nodes m) (hk : n.kind = .conv) (t : Tensor V)
    (ht : some t ∈ contents h n.tensors) (hd : t.dev ≠ E.dev) : ¬ Kept (·.dev) h m h' c := by
  rw [kept_iff _ he hc]
  intro hh
  exact hd (by simpa [hk, place, fresh] using (hh n hn (by simp [Rebuilt, hk]) t ht).symm)

/-- **C105**, `requires_grad`: kept exactly if no parameter of a convolution, linear or recurrent module is frozen. -/
theorem C105_frozen_exact {E : Env V} {h h' : Heap V} {m c : Mod} (he : Present h m)
    (hc : continual E m h = (.ok c, h')) :
    Kept (·.grad) h m h' c ↔ ∀ n ∈ nodes m, Rebuilt n → ∀ t, some t ∈ contents h n.tensors → t.grad = true := by
  rw [kept_iff _ he hc]
  simp only [fresh]
  exact ⟨fun hh n hn hr t ht => (hh n hn hr t ht).symm, fun hh n hn hr t ht => (hh n hn hr t ht).symm⟩

/-- **C105**, modes: kept exactly if all members that are not mapped as they are, and all containers, are in training mode. -/
theorem C105_modes_exact {E : Env V} {h h' : Heap V} {m c : Mod} (he : Present h m)
    (hc : continual E m h = (.ok c, h')) :
    (objsOf c).map (mode h') = (objsOf m).map (mode h) ↔ ∀ n ∈ nodes m, Rebuilt n → mode h n.obj = some true := by
  have hm := continual_main E m h fun n hn => (he n hn).2
  rw [hc] at hm
  obtain ⟨e, hm⟩ := hm
  obtain ⟨hf, -⟩ := hm c rfl
  simp only [objsOf, List.map_map]
  clear hc hm
  revert he
  simp only [Present]
  generalize nodes m = l at hf ⊢
  generalize nodes c = l' at hf ⊢
  induction hf with
  | nil => simp
  | @cons n n' l l' hn _ ih =>
    intro he
    have ih := ih fun n hn => he n (by simp [hn])
    simp only [List.map_cons, List.forall_mem_cons, List.cons.injEq, Function.comp_apply]
    refine and_congr ?_ ih
    rcases hn with ⟨h0, rfl⟩ | ⟨hr, h2, _⟩
    · exact ⟨fun _ hr => absurd hr h0, fun _ => e.mode _ (he _ (by simp)).1⟩
    · rw [h2]
      exact ⟨fun hh _ => hh.symm, fun hh => (hh hr).symm⟩

/-- **C105 fails** for shared parameters: whatever two members that are not mapped as they are have in common (two occurrences of one
convolution in a network, or tied weights), their conversions have no tensor in common. -/
theorem C105_tied_refuted {E : Env V} {h h' : Heap V} {m c : Mod} (he : Present h m)
    (hc : continual E m h = (.ok c, h')) (i j : Nat) (hij : i < j) (n n' : Node) (hi : (nodes m)[i]? = some n)
    (hj : (nodes m)[j]? = some n') (hn : Rebuilt n) (hn' : Rebuilt n') :
    ∃ a b, (nodes c)[i]? = some a ∧ (nodes c)[j]? = some b ∧ a.tensors.length = n.tensors.length ∧
      b.tensors.length = n'.tensors.length ∧ ∀ r ∈ a.tensors, r ∉ b.tensors := by
  have hm := continual_main E m h fun n hn => (he n hn).2
  rw [hc] at hm
  obtain ⟨hf, hp⟩ := hm.2 c rfl
  have hlen := hf.length_eq
  obtain ⟨hi', rfl⟩ := List.getElem?_eq_some_iff.mp hi
  obtain ⟨hj', rfl⟩ := List.getElem?_eq_some_iff.mp hj
  have hl : ∀ (k : Nat) (hk : k < (nodes m).length), Rebuilt (nodes m)[k] →
      ((nodes c)[k]'(hlen ▸ hk)).tensors.length = ((nodes m)[k]).tensors.length := by
    intro k hk hr
    have := List.forall₂_iff_get.mp hf |>.2 k hk (hlen ▸ hk)
    rcases this with ⟨h0, _⟩ | ⟨_, _, _, _, _, _, h7⟩
    · exact absurd hr h0
    · simpa [contents] using congrArg List.length h7
  refine ⟨(nodes c)[i]'(hlen ▸ hi'), (nodes c)[j]'(hlen ▸ hj'), List.getElem?_eq_getElem _, List.getElem?_eq_getElem _,
    hl i hi' hn, hl j hj' hn', ?_⟩
  have := List.pairwise_iff_getElem.mp hp i j (by simp; omega) (by simp; omega) hij
  simpa [Apart] using this (by simpa using hn) (by simpa using hn')

/-- **C105**: no tensors are shared after the conversion that were not before. -/
theorem C105_distinct {E : Env V} {h h' : Heap V} {m c : Mod} (he : Present h m)
    (hc : continual E m h = (.ok c, h')) (hd : (tensorsOf m).Nodup) : (tensorsOf c).Nodup := by
  have hm := continual_main E m h fun n hn => (he n hn).2
  rw [hc] at hm
  obtain ⟨hf, hp⟩ := hm.2 c rfl
  have hz := List.forall₂_iff_zip.mp hf
  rw [tensorsOf, List.nodup_flatMap] at hd ⊢
  obtain ⟨h1, h2⟩ := hd
  refine ⟨fun b hb => ?_, ?_⟩
  · obtain ⟨k, hk, rfl⟩ := List.getElem_of_mem hb
    have := List.forall₂_iff_get.mp hf |>.2 k (hz.1 ▸ hk) hk
    rcases this with ⟨_, h0⟩ | ⟨_, _, _, _, _, h6, _⟩
    · simp only [List.get_eq_getElem] at h0
      rw [h0]
      exact h1 _ (List.getElem_mem _)
    · exact h6
  · rw [List.pairwise_iff_getElem] at h2 hp ⊢
    intro i j hi hj hij r hr hr'
    have ci := List.forall₂_iff_get.mp hf |>.2 i (hz.1 ▸ hi) hi
    have cj := List.forall₂_iff_get.mp hf |>.2 j (hz.1 ▸ hj) hj
    simp only [List.get_eq_getElem] at ci cj
    have hoi := (he _ (List.getElem_mem (hz.1 ▸ hi))).2
    have hoj := (he _ (List.getElem_mem (hz.1 ▸ hj))).2
    have hij' := hp i j (by simp; omega) (by simp; omega) hij
    simp only [Apart, List.getElem_zip] at hij'
    rcases ci with ⟨_, h0⟩ | ⟨hri, _, _, _, h5, _⟩ <;> rcases cj with ⟨_, h0'⟩ | ⟨hrj, _, _, _, h5', _⟩
    · rw [h0] at hr; rw [h0'] at hr'
      exact h2 i j (hz.1 ▸ hi) (hz.1 ▸ hj) hij hr hr'
    · rw [h0] at hr
      have := hoi r hr
      have := (h5' r hr').1
      omega
    · rw [h0'] at hr'
      have := hoj r hr'
      have := (h5 r hr).1
      omega
    · exact hij' hri hrj r hr hr'

/-! ### C106 -/

/-- What a conversion does to the objects that there were. -/
def Touches (ns : List Node) (h h' : Heap V) : Prop :=
  h.objs.length ≤ h'.objs.length ∧
  ∀ o, o < h.objs.length → (h'.objs[o]? = h.objs[o]? ∨
    ((∃ n ∈ ns, n.kind = .naive ∧ n.obj = o) ∧ h'.objs[o]? = (h.objs[o]?).map fun x => { x with enhanced := true }))

theorem Touches.trans {a b : List Node} {h h1 h' : Heap V} (p : Touches a h h1) (q : Touches b h1 h') : Touches (a ++ b) h h' := by
  refine ⟨p.1.trans q.1, fun o ho => ?_⟩
  rcases p.2 o ho with h1 | ⟨⟨n, hn, hk⟩, h1⟩ <;> rcases q.2 o (ho.trans_le p.1) with h2 | ⟨⟨n', hn', hk'⟩, h2⟩
  · exact .inl (h2.trans h1)
  · exact .inr ⟨⟨n', by simp [hn'], hk'⟩, by rw [h2, h1]⟩
  · exact .inr ⟨⟨n, by simp [hn], hk⟩, by rw [h2, h1]⟩
  · refine .inr ⟨⟨n, by simp [hn], hk⟩, ?_⟩
    rw [h2, h1, Option.map_map]
    rfl

theorem Touches.push (ns : List Node) (ts : List (Tensor V)) (o : Obj) (h : Heap V) :
    Touches ns h ⟨ts, h.objs ++ [o]⟩ :=
  ⟨by simp, fun o' ho => .inl (List.getElem?_append_left ho)⟩

theorem Touches.refl (ns : List Node) (h : Heap V) : Touches ns h h := ⟨Nat.le_refl _, fun _ _ => .inl rfl⟩

theorem Touches.marked {ns : List Node} {h h' : Heap V} (p : Touches ns h h') {o : Nat} (ho : Marked h o) : Marked h' o := by
  have hlt : o < h.objs.length := by
    by_contra hn
    simp [Marked, List.getElem?_eq_none (Nat.not_lt.mp hn)] at ho
  rcases p.2 o hlt with h1 | ⟨_, h1⟩
  · rw [Marked, h1]; exact ho
  · rw [Marked, h1]
    rw [List.getElem?_eq_getElem hlt]
    rfl

theorem enhance_marked (o : Nat) (h : Heap V) (ho : o < h.objs.length) : Marked (enhance o h) o := by
  simp [Marked, enhance, ho]

theorem enhance_touches (n : Node) (hk : n.kind = .naive) (h : Heap V) : Touches [n] h (enhance n.obj h) := by
  refine ⟨by simp [enhance], fun o ho => ?_⟩
  by_cases hno : n.obj = o
  · refine .inr ⟨⟨n, by simp, hk, hno⟩, ?_⟩
    simp [enhance, hno]
  · refine .inl ?_
    simp [enhance, List.getElem?_modify, hno]

mutual
theorem continual_touches (E : Env V) : (m : Mod) → (h : Heap V) → (∀ n ∈ nodes m, n.obj < h.objs.length) →
    Touches (nodes m) h (continual E m h).2 ∧
      ∀ c, (continual E m h).1 = .ok c → ∀ n ∈ nodes m, n.kind = .naive → Marked (continual E m h).2 n.obj
  | .leaf n, h, hn => by
    have hn : n.obj < h.objs.length := hn n (by simp [nodes])
    have key : ∀ k, n.kind = k → k ≠ .naive → Touches [n] h (buildFrom E k n.tensors h).2 ∧ ∀ c,
        (Except.ok (ε := Err) (buildFrom E k n.tensors h).1 = .ok c) → ∀ n' ∈ [n], n'.kind = .naive →
        Marked (buildFrom E k n.tensors h).2 n'.obj := by
      rintro k rfl h1
      refine ⟨Touches.push _ _ _ _, fun c _ n' hn' hk => ?_⟩
      obtain rfl := List.mem_singleton.mp hn'
      exact absurd hk h1
    cases hk : n.kind with
    | co =>
      simp only [continual, hk, nodes]
      exact ⟨Touches.refl _ h, fun c _ n' hn' hk' => by simp at hn'; simp [hn', hk] at hk'⟩
    | naive =>
      simp only [continual, hk, nodes]
      refine ⟨enhance_touches n hk h, fun c _ n' hn' _ => ?_⟩
      obtain rfl := List.mem_singleton.mp hn'
      exact enhance_marked _ _ hn
    | conv => simp only [continual, hk, nodes]; exact key _ hk (by simp)
    | pool => simp only [continual, hk, nodes]; exact key _ hk (by simp)
    | linear => simp only [continual, hk, nodes]; exact key _ hk (by simp)
    | rnn => simp only [continual, hk, nodes]; exact key _ hk (by simp)
    | container => simp only [continual, hk]; exact ⟨Touches.refl _ h, fun c hc => by simp at hc⟩
    | other => simp only [continual, hk]; exact ⟨Touches.refl _ h, fun c hc => by simp at hc⟩
  | .seq o ms, h, hn => by
    have ih := continualAll_touches E ms h fun n hn' => hn n (by simp [nodes, hn'])
    rcases hr : continualAll E ms h with ⟨r, h1⟩
    rw [hr] at ih
    have hrefl : Touches [(⟨o, .container, []⟩ : Node)] h h := Touches.refl _ h
    cases r with
    | error e =>
      simp only [continual, hr, nodes]
      exact ⟨hrefl.trans ih.1, fun c hc => by simp at hc⟩
    | ok cs =>
      simp only [continual, hr, nodes]
      have hp : Touches [] h1 (⟨h1.tensors, h1.objs ++ [⟨true, false⟩]⟩ : Heap V) := Touches.push _ _ _ h1
      refine ⟨?_, fun c _ n hn' hk => ?_⟩
      · have := (hrefl.trans ih.1).trans hp
        simpa using this
      · rcases List.mem_cons.mp hn' with rfl | hn'
        · simp at hk
        · exact hp.marked (ih.2 cs rfl n hn' hk)
theorem continualAll_touches (E : Env V) : (ms : Mods) → (h : Heap V) → (∀ n ∈ nodesAll ms, n.obj < h.objs.length) →
    Touches (nodesAll ms) h (continualAll E ms h).2 ∧
      ∀ c, (continualAll E ms h).1 = .ok c → ∀ n ∈ nodesAll ms, n.kind = .naive → Marked (continualAll E ms h).2 n.obj
  | .nil, h, _ => ⟨Touches.refl _ h, fun c _ n hn => by simp [nodesAll] at hn⟩
  | .cons m ms, h, hn => by
    have h1 := continual_touches E m h fun n hn' => hn n (by simp [nodesAll, hn'])
    rcases hr : continual E m h with ⟨r, h'⟩
    rw [hr] at h1
    cases r with
    | error e =>
      simp only [continualAll, hr, nodesAll]
      exact ⟨h1.1.trans (Touches.refl _ _), fun c hc => by simp at hc⟩
    | ok c =>
      have h2 := continualAll_touches E ms h' fun n hn' => (hn n (by simp [nodesAll, hn'])).trans_le h1.1.1
      rcases hr' : continualAll E ms h' with ⟨r', h''⟩
      rw [hr'] at h2
      cases r' with
      | error e =>
        simp only [continualAll, hr, hr', nodesAll]
        exact ⟨h1.1.trans h2.1, fun c hc => by simp at hc⟩
      | ok cs =>
        simp only [continualAll, hr, hr', nodesAll]
        refine ⟨h1.1.trans h2.1, fun _ _ n hn' hk => ?_⟩
        rcases List.mem_append.mp hn' with hn' | hn'
        · exact h2.1.marked (h1.2 c rfl n hn' hk)
        · exact h2.2 cs rfl n hn' hk
end

/-- **C106**, the conversion itself: whether it succeeds or raises, all tensors that there were are as before, and so are all module
objects, but for those that are mapped as they are, which keep their mode and get the methods of a continual module. -/
theorem C106_untouched_partial (E : Env V) (m : Mod) (h : Heap V) (he : Present h m) :
    (∀ r, r < h.tensors.length → (continual E m h).2.tensors[r]? = h.tensors[r]?) ∧
    (∀ o, o < h.objs.length → mode (continual E m h).2 o = mode h o) ∧
    (∀ o, o < h.objs.length → (∀ n ∈ nodes m, n.kind = .naive → n.obj ≠ o) → (continual E m h).2.objs[o]? = h.objs[o]?) := by
  have e := (continual_main E m h fun n hn => (he n hn).2).1
  refine ⟨fun r hr => e.get? hr, e.mode, fun o ho hn => ?_⟩
  rcases (continual_touches E m h fun n hn => (he n hn).1).1.2 o ho with h1 | ⟨⟨n, hn', hk, ho'⟩, _⟩
  · exact h1
  · exact absurd ho' (hn n hn' hk)

theorem origin {E : Env V} {h h' : Heap V} {m c : Mod} (he : Present h m) (hc : continual E m h = (.ok c, h')) :
    ∀ n' ∈ nodes c, (n' ∈ nodes m ∧ ¬ Rebuilt n') ∨ (h.objs.length ≤ n'.obj ∧ ∀ r ∈ n'.tensors, h.tensors.length ≤ r) := by
  have hm := continual_main E m h fun n hn => (he n hn).2
  rw [hc] at hm
  obtain ⟨hf, -⟩ := hm.2 c rfl
  intro n' hn'
  obtain ⟨k, hk, rfl⟩ := List.getElem_of_mem hn'
  have hz := List.forall₂_iff_get.mp hf
  have := hz.2 k (hz.1 ▸ hk) hk
  simp only [List.get_eq_getElem] at this
  rcases this with ⟨h0, h1⟩ | ⟨_, _, h3, _, h5, _⟩
  · exact .inl (by rw [h1]; exact ⟨List.getElem_mem _, h0⟩)
  · exact .inr ⟨h3, fun r hr => (h5 r hr).1⟩

theorem foldl_modify_other (f : Obj → Obj) (os : List Nat) (l : List Obj) (o : Nat) (ho : o ∉ os) :
    (os.foldl (fun l o => l.modify o f) l)[o]? = l[o]? := by
  induction os generalizing l with
  | nil => rfl
  | cons a os ih =>
    simp only [List.mem_cons, not_or] at ho
    rw [List.foldl_cons, ih _ ho.2, List.getElem?_modify]
    simp [Ne.symm ho.1]

/-- **C106**, afterwards: whatever is done with the converted network, training it or switching its mode, leaves all tensors and module
objects as they were, in this and all other networks, but for those of the members that are mapped as they are (or were continual). -/
theorem C106_independent_partial {E : Env V} {h h' : Heap V} {m c : Mod} (he : Present h m)
    (hc : continual E m h = (.ok c, h')) (us : List (Use V)) :
    (∀ r, r < h.tensors.length → (∀ n ∈ nodes m, ¬ Rebuilt n → r ∉ n.tensors) →
      (use c us h').tensors[r]? = h.tensors[r]?) ∧
    (∀ o, o < h.objs.length → (∀ n ∈ nodes m, ¬ Rebuilt n → n.obj ≠ o) → (use c us h').objs[o]? = h.objs[o]?) := by
  have hu := C106_untouched_partial E m h he
  rw [hc] at hu
  have ho := origin he hc
  refine ⟨fun r hr hn => ?_, fun o ho' hn => ?_⟩
  · have hnot : r ∉ tensorsOf c := by
      intro hmem
      obtain ⟨n', hn', hr'⟩ := List.mem_flatMap.mp hmem
      rcases ho n' hn' with ⟨h1, h2⟩ | ⟨_, h2⟩
      · exact hn n' h1 h2 hr'
      · have := h2 r hr'
        omega
    have : ∀ (us : List (Use V)) (g : Heap V), (use c us g).tensors[r]? = g.tensors[r]? := by
      intro us
      induction us with
      | nil => intro g; rfl
      | cons u us ih =>
        intro g
        cases u with
        | write i v =>
          rw [use, ih, write]
          cases hi : (tensorsOf c)[i]? with
          | none => rfl
          | some r' =>
            have : r' ≠ r := fun heq => hnot (heq ▸ List.mem_of_getElem? hi)
            simp [List.getElem?_modify, this]
        | train b => rw [use, ih]; rfl
    rw [this us h', hu.1 r hr]
  · have hnot : o ∉ objsOf c := by
      intro hmem
      obtain ⟨n', hn', hr'⟩ := List.mem_map.mp hmem
      rcases ho n' hn' with ⟨h1, h2⟩ | ⟨h2, _⟩
      · exact hn n' h1 h2 hr'
      · omega
    have : ∀ (us : List (Use V)) (g : Heap V), (use c us g).objs[o]? = g.objs[o]? := by
      intro us
      induction us with
      | nil => intro g; rfl
      | cons u us ih =>
        intro g
        cases u with
        | write i v =>
          rw [use, ih, write]
          cases hi : (tensorsOf c)[i]? <;> rfl
        | train b =>
          rw [use, ih, train]
          exact foldl_modify_other _ _ _ _ hnot
    rw [this us h', hu.2.2 o ho' fun n hn' hk => hn n hn' (by simp [Rebuilt, hk])]

theorem foldl_modify_mem (b : Bool) (os : List Nat) (l : List Obj) (o : Nat) (ho : o ∈ os) (hl : o < l.length) :
    ((os.foldl (fun l o => l.modify o fun x => { x with training := b }) l)[o]?).map (·.training) = some b := by
  induction os generalizing l with
  | nil => simp at ho
  | cons a os ih =>
    rw [List.foldl_cons]
    by_cases hm : o ∈ os
    · exact ih _ hm (by simpa using hl)
    · have : o = a := by simpa [hm] using ho
      subst this
      rw [foldl_modify_other _ _ _ _ hm]
      simp [hl]

/-- **C106 fails** for members that are mapped as they are: the original and the converted network share the object.  It has the methods
of a continual module afterwards also in the original; switching the converted network to training or evaluation switches it in the
original, and what is written to its tensors through the one (as statistics of batch normalisation) is found in the other. -/
theorem C106_shared_refuted {E : Env V} {h h' : Heap V} {m c : Mod} (he : Present h m)
    (hc : continual E m h = (.ok c, h')) (n : Node) (hn : n ∈ nodes m) (hk : n.kind = .naive) :
    Marked h' n.obj ∧ n ∈ nodes c ∧ (∀ b, mode (train b c h') n.obj = some b) ∧
    ∀ r ∈ n.tensors, ∃ i, ∀ v, ((write c i v h').tensors[r]?).map (·.val) = some v := by
  have hm := continual_main E m h fun n hn => (he n hn).2
  have ht := continual_touches E m h fun n hn => (he n hn).1
  rw [hc] at hm ht
  obtain ⟨hf, -⟩ := hm.2 c rfl
  have hnc : n ∈ nodes c := by
    obtain ⟨k, hk', rfl⟩ := List.getElem_of_mem hn
    have hz := List.forall₂_iff_get.mp hf
    have := hz.2 k hk' (hz.1 ▸ hk')
    simp only [List.get_eq_getElem] at this
    rcases this with ⟨_, h1⟩ | ⟨hr, _⟩
    · rw [← h1]; exact List.getElem_mem _
    · exact absurd hk hr.2
  refine ⟨ht.2 c rfl n hn hk, hnc, fun b => ?_, fun r hr => ?_⟩
  · rw [mode, train]
    exact foldl_modify_mem b _ _ _ (List.mem_map.mpr ⟨n, hnc, rfl⟩) ((he n hn).1.trans_le hm.1.len)
  · have hmem : r ∈ tensorsOf c := List.mem_flatMap.mpr ⟨n, hnc, hr⟩
    obtain ⟨i, hi⟩ := List.mem_iff_getElem?.mp hmem
    refine ⟨i, fun v => ?_⟩
    have hlt : r < h'.tensors.length := ((he n hn).2 r hr).trans_le hm.1.tlen
    simp [write, hi, hlt]

/-- **C106 fails** also where the conversion raises: a first member that is mapped as it is has been changed, whatever the other members
are. -/
theorem C106_raised_refuted (E : Env V) (o : Nat) (n : Node) (hk : n.kind = .naive) (ms : Mods) (h : Heap V)
    (he : Present h (.seq o (.cons (.leaf n) ms))) : Marked (continual E (.seq o (.cons (.leaf n) ms)) h).2 n.obj := by
  have hn := (he n (by simp [nodes, nodesAll])).1
  have h2 := continualAll_touches E ms (enhance n.obj h) fun n' hn' => by
    simpa [enhance] using (he n' (by simp [nodes, nodesAll, hn'])).1
  have hm := h2.1.marked (enhance_marked _ h hn)
  rcases hr : continualAll E ms (enhance n.obj h) with ⟨r, h''⟩
  rw [hr] at hm
  cases r with
  | error e => simpa only [continual, continualAll, hk, hr] using hm
  | ok cs =>
    have hp : Touches [] h'' (⟨h''.tensors, h''.objs ++ [⟨true, false⟩]⟩ : Heap V) := Touches.push _ _ _ h''
    simpa only [continual, continualAll, hk, hr] using hp.marked hm

/-! ### A network -/

/-- Single precision, on the CPU; numbers of single precision are even. -/
def exEnv : Env Nat := ⟨.float, .cpu, fun d v => if d = .double then v else 2 * (v / 2)⟩

/-- A convolution in double precision (twice), batch normalisation in evaluation mode, a linear layer on a GPU with frozen weights. -/
def exNet : Mod := .seq 0 (.cons (.leaf ⟨1, .conv, [0, 1]⟩) (.cons (.leaf ⟨2, .naive, [2]⟩) (.cons (.leaf ⟨1, .conv, [0, 1]⟩)
  (.cons (.leaf ⟨3, .linear, [3, 4]⟩) .nil))))

def exHeap : Heap Nat :=
  ⟨[⟨7, .double, .cpu, true⟩, ⟨4, .double, .cpu, true⟩, ⟨2, .float, .cpu, false⟩, ⟨6, .float, .gpu 0, false⟩, ⟨8, .float, .gpu 0, false⟩],
   [⟨false, false⟩, ⟨false, false⟩, ⟨false, false⟩, ⟨false, false⟩]⟩

def exConverted : Mod := .seq 7 (.cons (.leaf ⟨4, .co, [5, 6]⟩) (.cons (.leaf ⟨2, .naive, [2]⟩) (.cons (.leaf ⟨5, .co, [7, 8]⟩)
  (.cons (.leaf ⟨6, .co, [9, 10]⟩) .nil))))

def exAfter : Heap Nat :=
  ⟨exHeap.tensors ++ [⟨6, .float, .cpu, true⟩, ⟨4, .float, .cpu, true⟩, ⟨6, .float, .cpu, true⟩, ⟨4, .float, .cpu, true⟩,
     ⟨6, .float, .gpu 0, true⟩, ⟨8, .float, .gpu 0, true⟩],
   [⟨false, false⟩, ⟨false, false⟩, ⟨false, true⟩, ⟨false, false⟩, ⟨true, false⟩, ⟨true, false⟩, ⟨true, false⟩, ⟨true, false⟩]⟩

theorem ex_continual : continual exEnv exNet exHeap = (.ok exConverted, exAfter) := by rfl

theorem ex_present : Present exHeap exNet := by
  simp [Present, exNet, exHeap, nodes, nodesAll]

-- C105: types and values of the convolution are lost, the parameters of the linear layer are no longer frozen, the mode has changed
example : ¬ Kept (·.dtype) exHeap exNet exAfter exConverted ∧ ¬ Kept (·.val) exHeap exNet exAfter exConverted :=
  let r := C105_dtype_refuted ex_present ex_continual ⟨1, .conv, [0, 1]⟩ (by simp [exNet, nodes, nodesAll]) rfl
    ⟨7, .double, .cpu, true⟩ (by simp [contents, exHeap]) (by decide)
  ⟨r.1, r.2 (by decide)⟩
example : ¬ Kept (·.grad) exHeap exNet exAfter exConverted := by
  rw [C105_frozen_exact ex_present ex_continual]
  intro hh
  have := hh ⟨3, .linear, [3, 4]⟩ (by simp [exNet, nodes, nodesAll]) (by simp [Rebuilt]) ⟨6, .float, .gpu 0, false⟩ (by simp [contents, exHeap])
  simp at this
example : (objsOf exConverted).map (mode exAfter) ≠ (objsOf exNet).map (mode exHeap) := by decide
example : ∃ a b, (nodes exConverted)[1]? = some a ∧ (nodes exConverted)[3]? = some b ∧ a.tensors.length = 2 ∧ b.tensors.length = 2 ∧
    ∀ r ∈ a.tensors, r ∉ b.tensors :=
  C105_tied_refuted ex_present ex_continual 1 3 (by decide) ⟨1, .conv, [0, 1]⟩ ⟨1, .conv, [0, 1]⟩ rfl rfl (by simp [Rebuilt])
    (by simp [Rebuilt])
-- a convolution on a GPU
example : ¬ Kept (·.dev) ⟨[⟨4, .float, .gpu 0, true⟩], [⟨true, false⟩]⟩ (.leaf ⟨0, .conv, [0]⟩)
    ⟨[⟨4, .float, .gpu 0, true⟩, ⟨4, .float, .cpu, true⟩], [⟨true, false⟩, ⟨true, false⟩]⟩ (.leaf ⟨1, .co, [1]⟩) :=
  C105_device_refuted (E := exEnv) (by simp [Present, nodes]) rfl ⟨0, .conv, [0]⟩ (by simp [nodes]) rfl ⟨4, .float, .gpu 0, true⟩
    (by simp [contents]) (by decide)
-- where all is kept: a convolution in single precision on the CPU and a linear layer in double precision on a GPU
example : Kept (fun t => (t.val, t.dtype, t.dev))
    ⟨[⟨4, .float, .cpu, true⟩, ⟨3, .double, .gpu 0, true⟩, ⟨5, .double, .gpu 0, true⟩], [⟨true, false⟩, ⟨true, false⟩, ⟨true, false⟩]⟩
    (.seq 0 (.cons (.leaf ⟨1, .conv, [0]⟩) (.cons (.leaf ⟨2, .linear, [1, 2]⟩) .nil)))
    ⟨[⟨4, .float, .cpu, true⟩, ⟨3, .double, .gpu 0, true⟩, ⟨5, .double, .gpu 0, true⟩, ⟨4, .float, .cpu, true⟩, ⟨3, .double, .gpu 0, true⟩,
      ⟨5, .double, .gpu 0, true⟩], [⟨true, false⟩, ⟨true, false⟩, ⟨true, false⟩, ⟨true, false⟩, ⟨true, false⟩, ⟨true, false⟩]⟩
    (.seq 5 (.cons (.leaf ⟨3, .co, [3]⟩) (.cons (.leaf ⟨4, .co, [4, 5]⟩) .nil))) :=
  C105_values_partial (E := exEnv) (by simp [Present, nodes, nodesAll]) rfl (by simp [exEnv])
    (by
      simp [nodes, nodesAll, Rebuilt, AsMade, contents, exEnv]
      refine fun t => ⟨?_, ?_⟩ <;> rintro rfl t' <;> constructor <;> rintro rfl <;> simp)
-- C106: the convolutions of the original are as before, its batch normalisation is not
example : (use exConverted [.write 0 1, .train true, .write 2 9] exAfter).tensors[0]? = some ⟨7, .double, .cpu, true⟩ :=
  (C106_independent_partial ex_present ex_continual [.write 0 1, .train true, .write 2 9]).1 0 (by decide)
    (by simp [exNet, nodes, nodesAll, Rebuilt])
example : mode (train true exConverted exAfter) 2 = some true ∧ mode exHeap 2 = some false :=
  ⟨(C106_shared_refuted ex_present ex_continual ⟨2, .naive, [2]⟩ (by simp [exNet, nodes, nodesAll]) rfl).2.2.1 true, rfl⟩
example : Marked (continual exEnv (.seq 0 (.cons (.leaf ⟨2, .naive, [2]⟩) (.cons (.leaf ⟨1, .other, []⟩) .nil))) exHeap).2 2 ∧
    (continual exEnv (.seq 0 (.cons (.leaf ⟨2, .naive, [2]⟩) (.cons (.leaf ⟨1, .other, []⟩) .nil))) exHeap).1 = .error .assertion :=
  ⟨C106_raised_refuted exEnv 0 ⟨2, .naive, [2]⟩ rfl _ exHeap (by simp [Present, exHeap, nodes, nodesAll]), rfl⟩

end CoInf.Carry
