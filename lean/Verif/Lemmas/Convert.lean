import Verif.Spec.Convert
import Verif.Lemmas.Net
import Verif.Lemmas.SlideDil

set_option autoImplicit false

namespace CoInf.Convert
open Spec
variable {X Y : Type}

theorem map_fst_pair {α β ε : Type} (r : Except ε α) (i : β) :
    (r.map fun y => (y, i)).map Prod.fst = r := by cases r <;> rfl

theorem conv_fwd [Zero X] [AddCommMonoid Y] {c : TorchConv X Y} {c' : Conv.Cfg X Y} (h : convFrom c = .ok c')
    (xs : List X) : Conv.forward c' xs = torchConvClip c xs := by
  unfold convFrom at h
  split at h
  · rename_i hd
    split at h
    · cases h
    · rename_i f hf
      cases h
      unfold torchConvClip
      have key : ∀ a t (b : X), (a :: t).getLast? = some b →
          padBoth c.mode c.P (a :: t) = .ok (List.replicate c.P (f.make 0 a) ++ (a :: t) ++
            List.replicate c.P (f.make 0 b)) := by
        intro a t b hb
        unfold padBoth
        rw [hb]
        cases hm : c.mode <;> rw [hm] at hf <;> cases hf <;> rfl
      cases xs with
      | nil =>
        unfold padBoth
        cases c.mode <;> rfl
      | cons a t =>
        have hl : (a :: t).getLast? = some ((a :: t).getLast (by simp)) := List.getLast?_eq_some_getLast _
        rw [key a t _ hl]
        unfold Conv.forward
        rw [hl]
        simp only [List.head?_cons]
        unfold slideOrRaise
        rw [hd, Nat.one_mul]
        have hK := c.K_pos
        rw [slideDil_one _ _ hK, show c.K - 1 + 1 = c.K by omega]
        split
        · rename_i hlt
          rw [Conv.torchConv, if_pos hlt]
        · rename_i hlt
          rw [Conv.torchConv_eq _ _ (by simpa using hlt)]
  · cases h

theorem pool_fwd [Zero X] [Zero Y] {c : TorchPool X Y} {c' : Pool.Cfg X Y} (h : poolFrom c = .ok c')
    (xs : List X) : Pool.forward c' xs = torchPoolClip c xs := by
  unfold poolFrom at h
  split at h
  · cases h
    unfold Pool.forward torchPoolClip slideOrRaise
    simp only [Pool.bufLen]
    split
    · rfl
    · split
      · rfl
      · rename_i hlt
        unfold slideDil windowCount
        rw [if_neg hlt]
  · cases h

theorem layer_eq {V S : Type} (f : Rnn.Cell V S) (s : S) (xs : List V) : (Rnn.layer f s xs).1 = recur [f] [s] xs := by
  induction xs generalizing s with
  | nil => rfl
  | cons x xs ih =>
    simp only [Rnn.layer, recur, tick]
    rw [ih]

theorem stack_eq {V S : Type} (z : S) (cat : V → V → V) : ∀ (ls : List (Rnn.Cell V S × Option (Rnn.Cell V S)))
    (xs : List V), (∀ l ∈ ls, l.2 = none) →
    (Rnn.stack (ls.map Prod.fst) (ls.map fun _ => z) xs).1 = ls.foldl (fun zs l => torchRnnLayer z cat l zs) xs
  | [], xs, _ => rfl
  | l :: ls, xs, h => by
    simp only [List.map_cons, List.foldl_cons, Rnn.stack]
    rw [stack_eq z cat ls _ (fun m hm => h m (List.mem_cons_of_mem _ hm)), layer_eq]
    unfold torchRnnLayer
    rw [h l List.mem_cons_self]

theorem flatCells_eq {V S : Type} (c : TorchRnn V S) (h : ∀ l ∈ c.layers, l.2 = none) :
    (rnnFrom c).layers = c.layers.map Prod.fst := by
  have : flatCells c = c.layers.map Prod.fst := by
    unfold flatCells
    revert h
    induction c.layers with
    | nil => intro _; rfl
    | cons l ls ih =>
      intro h
      rw [List.flatMap_cons, ih (fun m hm => h m (List.mem_cons_of_mem _ hm)), h l List.mem_cons_self]
      rfl
  unfold rnnFrom
  simp only [this]
  exact List.take_of_length_le (by simp)

theorem rnn_fwd {V S : Type} (c : TorchRnn V S) (h : ∀ l ∈ c.layers, l.2 = none) (xs : List V) :
    (Rnn.forward (rnnFrom c) xs none).map Prod.fst = torchRnnClip c xs := by
  unfold Rnn.forward Rnn.torchForward torchRnnClip
  simp only [flatCells_eq c h, Option.getD_none]
  by_cases hx : xs = []
  · rw [if_pos hx, if_pos hx]; rfl
  · rw [if_neg hx, if_neg hx, if_neg (by simp)]
    simp only [Except.map, ← stack_eq c.zero c.cat c.layers xs h]
    simp [rnnFrom, Function.comp_def]

/-! ### Which modules are converted -/

mutual
theorem continual_iff : ∀ {X Y : Type} (s : Src X Y), (∃ m, continual s = .ok m) ↔ Convertible s
  | _, _, .co m => by simp [continual, Convertible]
  | _, _, .naive g => by simp [continual, Convertible]
  | _, _, .instanceNorm a t g => by
    by_cases h : a = true ∧ t = true <;> simp [continual, Convertible, h]
  | _, _, @Src.conv _ _ zx ay c => by
    unfold continual Convertible convFrom
    by_cases hd : c.dil = 1
    · rw [if_pos hd]
      cases hm : c.mode <;> simp [paddingMode, Except.map, hd]
    · rw [if_neg hd]; simp [Except.map, hd]
  | _, _, @Src.pool _ _ zx zy c => by
    unfold continual Convertible poolFrom
    by_cases hk : 0 < c.K
    · rw [if_pos hk]; simp [Except.map]; omega
    · rw [if_neg hk]; simp [Except.map]; omega
  | _, _, .linear f => by simp [continual, Convertible]
  | _, _, .function f => by simp [continual, Convertible]
  | _, _, .rnn c => by simp [continual, Convertible]
  | _, _, .adaptivePool g => by simp [continual, Convertible]
  | _, _, .transformer g => by simp [continual, Convertible]
  | _, _, .sequential ms => by
    have := members_iff ms
    unfold continual Convertible
    rw [← this]
    cases members ms <;> simp [Except.map]
  | _, _, .other g => by simp [continual, Convertible]

theorem members_iff : ∀ {X Y : Type} (ms : Members X Y), (∃ c, members ms = .ok c) ↔ AllConvertible ms
  | _, _, .single m => by
    have := continual_iff m
    unfold members AllConvertible
    rw [← this]
    cases continual m <;> simp [Except.map]
  | _, _, .cons m ms => by
    have h1 := continual_iff m
    have h2 := members_iff ms
    unfold members AllConvertible
    rw [← h1, ← h2]
    cases continual m <;> cases members ms <;> simp [Except.map]
end

/-! ### The converted module computes the same clips -/

mutual
theorem continual_fwd : ∀ {X Y : Type} (s : Src X Y) {m : CoMod (.stream X) (.stream Y)}, continual s = .ok m →
    OneDirection s → ∀ xs, (m.fwd m.init xs).map Prod.fst = torchClip s xs
  | _, _, .co m, m', h, _, xs => by unfold continual at h; cases h; unfold torchClip; rfl
  | _, _, .naive g, m', h, _, xs => by
    unfold continual at h; cases h; unfold torchClip; exact map_fst_pair _ _
  | _, _, .instanceNorm a t g, m', h, _, xs => by
    unfold continual at h
    split at h
    · cases h; unfold torchClip; exact map_fst_pair _ _
    · cases h
  | _, _, @Src.conv _ _ zx ay c, m', h, _, xs => by
    unfold continual at h
    cases hc : convFrom c with
    | error e => rw [hc] at h; cases h
    | ok c' =>
      rw [hc] at h; cases h
      unfold torchClip
      rw [← conv_fwd hc]
      exact map_fst_pair _ _
  | _, _, @Src.pool _ _ zx zy c, m', h, _, xs => by
    unfold continual at h
    cases hc : poolFrom c with
    | error e => rw [hc] at h; cases h
    | ok c' =>
      rw [hc] at h; cases h
      unfold torchClip
      rw [← pool_fwd hc]
      exact map_fst_pair _ _
  | _, _, .linear f, m', h, _, xs => by unfold continual at h; cases h; unfold torchClip; rfl
  | _, _, .function f, m', h, _, xs => by
    unfold continual at h; cases h; unfold torchClip
    refine (map_fst_pair _ _).trans ?_
    simp only [Lambda.forward, Lambda.applyClip]
    cases xs <;> simp
  | _, _, .rnn c, m', h, ho, xs => by
    unfold continual at h; cases h; unfold torchClip
    unfold OneDirection at ho
    rw [← rnn_fwd c ho]
    show ((Rnn.forward _ _ _).map _).map _ = _
    cases Rnn.forward (rnnFrom c) xs none <;> rfl
  | _, _, .adaptivePool g, m', h, _, xs => by unfold continual at h; cases h
  | _, _, .transformer g, m', h, _, xs => by unfold continual at h; cases h
  | _, _, .sequential ms, m', h, ho, xs => by
    unfold continual at h
    cases hc : members ms with
    | error e => rw [hc] at h; cases h
    | ok c =>
      rw [hc] at h; cases h
      unfold torchClip
      unfold OneDirection at ho
      exact members_fwd ms hc ho xs
  | _, _, .other g, m', h, _, xs => by unfold continual at h; cases h

theorem members_fwd : ∀ {X Y : Type} (ms : Members X Y) {c : Chain (.stream X) (.stream Y)}, members ms = .ok c →
    AllOneDirection ms → ∀ xs, (c.fwd c.init xs).map Prod.fst = torchMembers ms xs
  | _, _, .single m, c, h, ho, xs => by
    unfold members at h
    cases hc : continual m with
    | error e => rw [hc] at h; cases h
    | ok a =>
      rw [hc] at h; cases h
      unfold torchMembers
      unfold AllOneDirection at ho
      exact continual_fwd m hc ho xs
  | _, _, .cons m ms, c, h, ho, xs => by
    unfold members at h
    unfold AllOneDirection at ho
    cases hc : continual m with
    | error e => rw [hc] at h; cases h
    | ok a =>
      simp only [hc] at h
      cases hd : members ms with
      | error e => rw [hd] at h; cases h
      | ok d =>
        rw [hd] at h; cases h
        unfold torchMembers
        have h1 := continual_fwd m hc ho.1 xs
        rw [← h1]
        show (Chain.fwd (.cons a d) (a.init, d.init) xs).map Prod.fst = _
        unfold Chain.fwd
        cases hf : a.fwd a.init xs with
        | error e => simp [Except.map, bind, Except.bind, hf]
        | ok p =>
          simp only [Except.map, bind, Except.bind, hf]
          rw [← members_fwd ms hd ho.2 p.1]
          cases d.fwd d.init p.1 <;> rfl
end

/-! ### The converted module is one of the networks of the streaming theorems -/

theorem lambda_ok {X Y : Type} (f : X → Y) : LambdaOk { fn := some (.frame f) } f where
  fwd := ⟨fun xs hx => by cases xs with
    | nil => exact absurd rfl hx
    | cons a t => rfl, fun ys h => by cases h⟩
  steps := fun xs hx => by cases xs with
    | nil => exact absurd rfl hx
    | cons a t => rfl
  step := fun x => rfl

mutual
theorem continual_net (k : Cls) : ∀ {X Y : Type} (s : Src X Y) {m : CoMod (.stream X) (.stream Y)}, continual s = .ok m →
    Admissible k s → ∃ φ, Net k m φ
  | _, _, .co m, m', h, ha => by unfold continual at h; cases h; unfold Admissible at ha; exact ha
  | _, _, .naive g, m', h, ha => by
    unfold continual at h; cases h; unfold Admissible at ha
    obtain ⟨f, hf⟩ := ha
    exact ⟨_, .stepping g f 1 0 hf fun _ => ⟨rfl, rfl⟩⟩
  | _, _, .instanceNorm a t g, m', h, ha => by
    unfold continual at h
    unfold Admissible at ha
    obtain ⟨f, hf⟩ := ha
    split at h
    · cases h; exact ⟨_, .stepping g f 1 0 hf fun _ => ⟨rfl, rfl⟩⟩
    · cases h
  | _, _, @Src.conv _ _ zx ay c, m', h, ha => by
    unfold continual at h
    unfold Admissible at ha
    obtain ⟨h1, h2, h3, h4, h5, h6⟩ := ha
    cases hc : convFrom c with
    | error e => rw [hc] at h; cases h
    | ok c' =>
      rw [hc] at h; cases h
      unfold convFrom at hc
      split at hc
      · split at hc
        · cases hc
        · cases hc
          exact ⟨_, .conv _ ⟨h1, h2, h3, h4, h5, fun _ => rfl, h6⟩⟩
      · cases hc
  | _, _, @Src.pool _ _ zx zy c, m', h, ha => by
    unfold continual at h
    unfold Admissible at ha
    obtain ⟨h1, h2, h3, h4, h5, h6, h7, h8⟩ := ha
    cases hc : poolFrom c with
    | error e => rw [hc] at h; cases h
    | ok c' =>
      rw [hc] at h; cases h
      unfold poolFrom at hc
      split at hc
      · cases hc
        refine ⟨_, .pool _ ⟨h1, h2, h3, h4, fun _ => h5, h6, fun hk => ?_, h8⟩⟩
        rcases h7 hk with h | h
        · exact Or.inl h
        · exact Or.inr fun _ => h5.trans h.symm
      · cases hc
  | _, _, .linear f, m', h, _ => by unfold continual at h; cases h; exact ⟨_, .pointwise f⟩
  | _, _, .function f, m', h, _ => by
    unfold continual at h; cases h
    exact ⟨_, .lambda _ f (lambda_ok f)⟩
  | _, _, .rnn c, m', h, ha => by
    unfold continual at h; cases h; unfold Admissible at ha
    exact ⟨_, .rnn _ ha.1⟩
  | _, _, .adaptivePool g, m', h, _ => by unfold continual at h; cases h
  | _, _, .transformer g, m', h, _ => by unfold continual at h; cases h
  | _, _, .sequential ms, m', h, ha => by
    unfold continual at h
    unfold Admissible at ha
    cases hc : members ms with
    | error e => rw [hc] at h; cases h
    | ok c => rw [hc] at h; cases h; exact members_net k ms hc ha
  | _, _, .other g, m', h, _ => by unfold continual at h; cases h

theorem members_net (k : Cls) : ∀ {X Y : Type} (ms : Members X Y) {c : Chain (.stream X) (.stream Y)},
    members ms = .ok c → AllAdmissible k ms → ∃ φ, Net k (Sequential.mod c) φ
  | _, _, .single m, c, h, ha => by
    unfold members at h
    unfold AllAdmissible at ha
    cases hc : continual m with
    | error e => rw [hc] at h; cases h
    | ok a =>
      rw [hc] at h; cases h
      obtain ⟨φ, hn⟩ := continual_net k m hc ha
      exact ⟨φ, .single hn⟩
  | _, _, .cons m ms, c, h, ha => by
    unfold members at h
    unfold AllAdmissible at ha
    cases hc : continual m with
    | error e => rw [hc] at h; cases h
    | ok a =>
      simp only [hc] at h
      cases hd : members ms with
      | error e => rw [hd] at h; cases h
      | ok d =>
        rw [hd] at h; cases h
        obtain ⟨φ, hn⟩ := continual_net k.front m hc ha.1
        obtain ⟨ψ, hn'⟩ := members_net k ms hd ha.2
        exact ⟨_, .cons hn hn'⟩
end

mutual
theorem admissible_oneDirection (k : Cls) : ∀ {X Y : Type} (s : Src X Y), Admissible k s → OneDirection s
  | _, _, .co m, _ => by unfold OneDirection; trivial
  | _, _, .naive g, _ => by unfold OneDirection; trivial
  | _, _, .instanceNorm a t g, _ => by unfold OneDirection; trivial
  | _, _, @Src.conv _ _ zx ay c, _ => by unfold OneDirection; trivial
  | _, _, @Src.pool _ _ zx zy c, _ => by unfold OneDirection; trivial
  | _, _, .linear f, _ => by unfold OneDirection; trivial
  | _, _, .function f, _ => by unfold OneDirection; trivial
  | _, _, .rnn c, ha => by unfold Admissible at ha; unfold OneDirection; exact ha.2
  | _, _, .adaptivePool g, _ => by unfold OneDirection; trivial
  | _, _, .transformer g, _ => by unfold OneDirection; trivial
  | _, _, .sequential ms, ha => by
    unfold Admissible at ha; unfold OneDirection; exact allAdmissible_oneDirection k ms ha
  | _, _, .other g, _ => by unfold OneDirection; trivial

theorem allAdmissible_oneDirection (k : Cls) : ∀ {X Y : Type} (ms : Members X Y), AllAdmissible k ms →
    AllOneDirection ms
  | _, _, .single m, ha => by
    unfold AllAdmissible at ha; unfold AllOneDirection; exact admissible_oneDirection k m ha
  | _, _, .cons m ms, ha => by
    unfold AllAdmissible at ha; unfold AllOneDirection
    exact ⟨admissible_oneDirection k.front m ha.1, allAdmissible_oneDirection k ms ha.2⟩
end

/-! ### Repeated `forward_stepping` -/

theorem call_once {R : Type} (mode : CallMode.Mode) (run : R) (fuel : Nat) :
    callFun 1 mode run (fuel + 4) .impl = some run ∧ callFun 1 mode run (fuel + 4) .step = some run ∧
      callFun 1 mode run (fuel + 4) .steps = some run ∧ callFun 1 mode run (fuel + 4) (.fwc 1) = some run := by
  cases mode <;> simp [callFun]

theorem call_loop {R : Type} (n : Nat) (mode : CallMode.Mode) (hm : mode ≠ .forward) (run : R) (fuel : Nat) :
    callFun (n + 2) mode run fuel .impl = none ∧ callFun (n + 2) mode run fuel .step = none ∧
      callFun (n + 2) mode run fuel .steps = none ∧ (∀ j, callFun (n + 2) mode run fuel (.fwc (j + 1)) = none) := by
  induction fuel with
  | zero => simp [callFun]
  | succ fuel ih =>
    obtain ⟨h1, h2, h3, h4⟩ := ih
    cases mode with
    | forward => exact absurd rfl hm
    | steps => simp [callFun, h1, h3, h4]
    | step => simp [callFun, h1, h2, h4]

theorem call_forward {R : Type} (n : Nat) (run : R) (fuel : Nat) (j : Nat) :
    callFun n .forward run (fuel + j + 1) (.fwc j) = some run := by
  induction j generalizing fuel with
  | zero => simp [callFun]
  | succ j ih => simp only [callFun]; rw [show fuel + (j + 1) = fuel + j + 1 by omega]; exact ih fuel

end CoInf.Convert
