import Verif.Lemmas.Waits
import Verif.Props.Monitor
/-!
Property C82: threads that use monitors and call the library wait for each other for good only if they would with
their monitors alone, unless user code that the library runs under its own mutex uses monitors.
-/
namespace Jnivm
open Spec

/-- A thread that enters or leaves a monitor owns no mutex of the library. -/
theorem sync_enter_unlocked {rank : Nat → Nat} {depth : Nat} {calls : Nat → List SyncCall}
    (hf : ∀ t, ∀ x ∈ calls t, x.Fits rank) {s : SyncState} (hs : (SyncState.start depth calls).Reach s) {t o : Nat}
    (ht : (∃ rest, s.todo t = .enter o :: rest) ∨ ∃ rest, s.todo t = .exit o :: rest) (m : Mutex) :
    s.owner m ≠ some t := by
  obtain ⟨held, h⟩ := (start_sync hf).reach hs
  intro e
  refine h.locks.busy e ?_
  show libPart (s.todo t) = []
  rcases ht with ⟨r, hr⟩ | ⟨r, hr⟩ <;> rw [hr] <;> rfl

/-- While some thread is within a call of the library, some thread can go on, whoever is in which monitor; and the
calls of the library that have begun can all end, without any change of a monitor, and then no mutex of the library
is locked. -/
theorem sync_calls_end {rank : Nat → Nat} {depth n : Nat} {calls : Nat → List SyncCall}
    (hn : ∀ t, n ≤ t → calls t = []) (hf : ∀ t, ∀ x ∈ calls t, x.Fits rank) {s : SyncState}
    (hs : (SyncState.start depth calls).Reach s) :
    ((∃ t a rest, s.todo t = .lib a :: rest) → ∃ u s', s.turn u = .moves s') ∧
    ∃ s', s.Reach s' ∧ s'.mons = s.mons ∧ (∀ t a rest, s'.todo t ≠ .lib a :: rest) ∧ ∀ m, s'.owner m = none := by
  obtain ⟨held, h⟩ := (start_sync hf).reach hs
  refine ⟨fun ⟨t, a, rest, ht⟩ => h.progress (t := t) (by rw [ht]; nofun), ?_⟩
  obtain ⟨s', h1, h2, _, h4, h5⟩ := h.settle (sync_tail hs fun t ht => by
    show (calls t).flatMap _ = []
    rw [hn t ht]; rfl)
  exact ⟨s', h1, h2, fun t a rest e => (by have := h4 t; rw [e] at this; cases this), h5⟩

/-- In a deadlock no mutex of the library is locked, and every thread that has not finished waits for a monitor
that another thread is in. -/
theorem sync_deadlock_monitors {rank : Nat → Nat} {depth : Nat} {calls : Nat → List SyncCall}
    (hf : ∀ t, ∀ x ∈ calls t, x.Fits rank) {s : SyncState} (hs : (SyncState.start depth calls).Reach s)
    (hd : Deadlock s) :
    (∀ m, s.owner m = none) ∧ ∀ t, s.turn t ≠ .finished → ∃ o, WaitsFor s t o := by
  obtain ⟨held, h⟩ := (start_sync hf).reach hs
  have hst := h.stuck hd.2
  refine ⟨fun m => ?_, fun t ht => (hst t).resolve_left fun e => ht (sync_finished.2 e)⟩
  cases e : s.owner m with
  | none => rfl
  | some t =>
    refine absurd (show libPart (s.todo t) = [] from ?_) (h.locks.busy e)
    rcases hst t with e | ⟨o, ⟨r, e⟩, _⟩ <;> rw [e] <;> rfl

/-- A program can deadlock exactly if its monitors alone can. -/
theorem sync_deadlock_iff {rank : Nat → Nat} {depth n : Nat} {calls : Nat → List SyncCall}
    (hn : ∀ t, n ≤ t → calls t = []) (hf : ∀ t, ∀ x ∈ calls t, x.Fits rank) :
    (∃ s, (SyncState.start depth calls).Reach s ∧ Deadlock s) ↔
    ∃ s, (SyncState.start depth (monitorsOnly calls)).Reach s ∧ Deadlock s := by
  have h0 := start_sync (depth := depth) hf
  rw [← monsOnly_start hf]
  have key : ∀ s : SyncState, (∀ t, libPart (s.todo t) = []) → (Deadlock s ↔ Deadlock s.monsOnly) := by
    intro s hl
    have e := same_turn hl
    unfold Deadlock
    constructor
    · rintro ⟨⟨t, ht⟩, h⟩
      refine ⟨⟨t, ?_⟩, fun t => ?_⟩
      · have := h t
        rw [e t]
        rcases this with k | k
        · exact absurd k ht
        · rw [k]; nofun
      · rw [e t]
        rcases h t with k | k <;> rw [k] <;> simp
    · rintro ⟨⟨t, ht⟩, h⟩
      refine ⟨⟨t, fun k => ht (by rw [e t, k])⟩, fun t => ?_⟩
      have := h t
      rw [e t] at this
      cases k : s.turn t with
      | finished => exact .inl rfl
      | waits => exact .inr rfl
      | moves s' => rw [k] at this; simp at this
      | undefined u => rw [k] at this; simp at this
  constructor
  · rintro ⟨s, hs, hd⟩
    obtain ⟨held, h⟩ := h0.reach hs
    refine ⟨s.monsOnly, monsOnly_reach hs, (key s fun t => ?_).1 hd⟩
    rcases h.stuck hd.2 t with e | ⟨o, ⟨r, e⟩, _⟩ <;> rw [e] <;> rfl
  · rintro ⟨q, hq, hd⟩
    obtain ⟨s, h1, rfl, h3, _⟩ := realise h0 (n := n) (fun t ht => by
      show (calls t).flatMap _ = []
      rw [hn t ht]; rfl) hq
    exact ⟨s, h1, (key s h3).2 hd⟩

/-- Likewise for undefined behaviour, such as a thread that leaves a monitor it is not in. -/
theorem sync_undefined_iff {rank : Nat → Nat} {depth n : Nat} {calls : Nat → List SyncCall}
    (hn : ∀ t, n ≤ t → calls t = []) (hf : ∀ t, ∀ x ∈ calls t, x.Fits rank) (t : Nat) (u : UB) :
    (∃ s, (SyncState.start depth calls).Reach s ∧ s.turn t = .undefined u) ↔
    ∃ s, (SyncState.start depth (monitorsOnly calls)).Reach s ∧ s.turn t = .undefined u := by
  have h0 := start_sync (depth := depth) hf
  rw [← monsOnly_start hf]
  constructor
  · rintro ⟨s, hs, hd⟩
    obtain ⟨held, h⟩ := h0.reach hs
    refine ⟨s.monsOnly, monsOnly_reach hs, ?_⟩
    cases e : s.todo t with
    | nil => rw [sync_finished.2 e] at hd; cases hd
    | cons a rest =>
      cases a with
      | lib a => exact absurd hd (h.lib_defined e u)
      | enter o => rw [monsOnly_turn e rfl, hd]
      | exit o => rw [monsOnly_turn e rfl, hd]
  · rintro ⟨q, hq, hd⟩
    obtain ⟨s, h1, rfl, h3, _⟩ := realise h0 (n := n) (fun t ht => by
      show (calls t).flatMap _ = []
      rw [hn t ht]; rfl) hq
    refine ⟨s, h1, ?_⟩
    rw [same_turn h3 t] at hd
    cases k : s.turn t with
    | undefined v => rw [k] at hd; cases hd; rfl
    | _ => rw [k] at hd; cases hd

/-- Threads that enter monitors in one order: nothing is undefined, some thread can always go on, and all threads
can be brought to their end, where no mutex is locked and nobody is in a monitor. -/
theorem sync_ordered_complete {rank mrank : Nat → Nat} {depth n : Nat} {calls : Nat → List SyncCall}
    (hn : ∀ t, n ≤ t → calls t = []) (hf : ∀ t, ∀ x ∈ calls t, x.Fits rank)
    (ho : ∀ t, MonitorOrder mrank [] (calls t)) {s : SyncState} (hs : (SyncState.start depth calls).Reach s) :
    (∀ t u, s.turn t ≠ .undefined u) ∧
    ((∃ t, s.turn t ≠ .finished) → ∃ t s', s.turn t = .moves s') ∧
    ∃ s', s.Reach s' ∧ (∀ t, s'.turn t = .finished) ∧ (∀ m, s'.owner m = none) ∧ ∀ o, s'.mons o = none := by
  obtain ⟨held, h⟩ := (start_sync hf).reach hs
  obtain ⟨inside, h'⟩ := (start_mon hf ho).reach hs
  refine ⟨fun t u hu => ?_, fun ⟨t, ht⟩ => sync_progress h h' fun e => ht (sync_finished.2 e), ?_⟩
  · cases e : s.todo t with
    | nil => rw [sync_finished.2 e] at hu; cases hu
    | cons a rest =>
      cases a with
      | lib a => exact h.lib_defined e u hu
      | enter o =>
        unfold SyncState.turn at hu
        rw [e] at hu
        dsimp only at hu
        cases hm : s.mons o with
        | none => rw [hm] at hu; cases hu
        | some x => rw [hm] at hu; dsimp only at hu; split at hu <;> cases hu
      | exit o =>
        obtain ⟨s', e'⟩ := h'.exit_moves e
        rw [e'] at hu; cases hu
  · obtain ⟨s', h1, h2, h3⟩ := sync_complete (s.left n) h h' rfl (sync_tail hs fun t ht => by
      show (calls t).flatMap _ = []
      rw [hn t ht]; rfl)
    exact ⟨s', h1, fun t => sync_finished.2 (h2 t), h3⟩

/-- The monitors of this model are those of `MonitorEnter` and `MonitorExit`. -/
theorem sync_is_monitor {s : SyncState} {ms : MonState} {t o : Nat} {r : Option Nat} {rest : List SyncAct}
    (hm : ms.mons = s.mons) (he : ms.heap.envs t ≠ none) (hr : ms.heap.denote r = .ok (some o)) :
    (s.todo t = .enter o :: rest →
      (∃ ms', ms.enter t r = .ok (some ms') ∧ s.turn t = .moves { s.advance t rest with mons := ms'.mons }) ∨
      (ms.enter t r = .ok none ∧ s.turn t = .waits)) ∧
    (s.todo t = .exit o :: rest →
      (∃ ms', ms.exit t r = .ok ms' ∧ s.turn t = .moves { s.advance t rest with mons := ms'.mons }) ∨
      (ms.exit t r = .ub .notOwner ∧ s.turn t = .undefined .notOwner)) := by
  have ht := target_eq hr he
  constructor
  · intro e
    unfold SyncState.turn MonState.enter
    rw [e, ht]
    simp only [Res.bind, hm]
    cases h : s.mons o with
    | none =>
      exact .inl ⟨_, rfl, by simp only [MonState.setMon, SyncState.setMon, SyncState.advance, hm]⟩
    | some x =>
      dsimp only
      by_cases hx : x.1 = t
      · simp only [hx, if_true]
        exact .inl ⟨_, rfl, by simp only [MonState.setMon, SyncState.setMon, SyncState.advance, hm]⟩
      · rw [if_neg hx, if_neg hx]
        exact .inr ⟨rfl, rfl⟩
  · intro e
    unfold SyncState.turn MonState.exit
    rw [e, ht]
    simp only [Res.bind, hm]
    cases h : s.mons o with
    | none => exact .inr ⟨rfl, rfl⟩
    | some x =>
      dsimp only
      by_cases hx : x.1 = t
      · simp only [hx, if_true]
        exact .inl ⟨_, rfl, by simp only [MonState.setMon, SyncState.setMon, SyncState.advance, hm]⟩
      · rw [if_neg hx, if_neg hx]
        exact .inr ⟨rfl, rfl⟩

/-! ### User code under the mutex of the VM -/

/-- A function in `jnienvhooks` that enters a monitor: with a thread that is in this monitor and looks for a class
the thread that attaches itself waits for good, and so does the other. -/
theorem sync_attach_deadlock (depth o : Nat) (f : Named) (us : List SyncAct) (r0 r1 : List SyncCall) :
    ∃ s, (SyncState.start depth fun
        | 0 => .enter o :: .call (.findClass f) :: r0
        | 1 => .attach (.enter o :: us) :: r1
        | _ => []).Reach s ∧ Deadlock s ∧ s.owner .vm = some 1 := by
  let calls : Nat → List SyncCall := fun
        | 0 => .enter o :: .call (.findClass f) :: r0
        | 1 => .attach (.enter o :: us) :: r1
        | _ => []
  let s0 := SyncState.start depth calls
  let q0 := ((Call.findClass f).acts false depth).map SyncAct.lib ++ r0.flatMap (SyncCall.acts depth)
  let s1 := (s0.advance 0 q0).setMon o (some (0, 1))
  let q1 := us ++ [.lib (.unlock .vm)] ++ r1.flatMap (SyncCall.acts depth)
  let s2 := (s1.advance 1 (.lib (.write .envs) :: .enter o :: q1)).setOwner .vm (some 1)
  let s3 := s2.advance 1 (.enter o :: q1)
  have t0 : s0.turn 0 = .moves s1 := by
    unfold SyncState.turn
    rw [show s0.todo 0 = .enter o :: q0 from rfl]
    rfl
  have t1 : s1.turn 1 = .moves s2 := by
    unfold SyncState.turn
    rw [show s1.todo 1 = .lib (.lock .vm) :: .lib (.write .envs) :: .enter o :: q1 by
      show (SyncCall.attach (.enter o :: us) :: r1).flatMap (SyncCall.acts depth) = _
      simp [SyncCall.acts, q1]]
    rfl
  have t2 : s2.turn 1 = .moves s3 := by
    unfold SyncState.turn
    rw [show s2.todo 1 = .lib (.write .envs) :: .enter o :: q1 from rfl]
  have mo : s3.mons o = some (0, 1) := if_pos rfl
  have w1 : s3.turn 1 = .waits := by
    unfold SyncState.turn
    rw [show s3.todo 1 = .enter o :: q1 from rfl]
    simp only [mo]
    rfl
  have w0 : s3.turn 0 = .waits := by
    unfold SyncState.turn
    obtain ⟨q, hq⟩ : ∃ q, s3.todo 0 = .lib (.lock .vm) :: q := ⟨_, rfl⟩
    rw [hq]
    rfl
  refine ⟨s3, .step 1 (.step 1 (.step 0 .refl t0) t1) t2, ⟨⟨0, by rw [w0]; nofun⟩, fun t => ?_⟩, rfl⟩
  match t with
  | 0 => exact .inr w0
  | 1 => exact .inr w1
  | t + 2 => exact .inl (sync_finished.2 rfl)

/-- Likewise a destructor that enters a monitor when a thread detaches itself. -/
theorem sync_detach_deadlock (depth o : Nat) (f : Named) (us : List SyncAct) (r0 r1 : List SyncCall) :
    ∃ s, (SyncState.start depth fun
        | 0 => .enter o :: .call (.findClass f) :: r0
        | 1 => .detach (.enter o :: us) :: r1
        | _ => []).Reach s ∧ Deadlock s ∧ s.owner .vm = some 1 := by
  let calls : Nat → List SyncCall := fun
        | 0 => .enter o :: .call (.findClass f) :: r0
        | 1 => .detach (.enter o :: us) :: r1
        | _ => []
  let s0 := SyncState.start depth calls
  let q0 := ((Call.findClass f).acts false depth).map SyncAct.lib ++ r0.flatMap (SyncCall.acts depth)
  let s1 := (s0.advance 0 q0).setMon o (some (0, 1))
  let q1 := us ++ [.lib (.unlock .vm)] ++ r1.flatMap (SyncCall.acts depth)
  let s2 := (s1.advance 1 (.lib (.read .envs) :: .lib (.write .envs) :: .enter o :: q1)).setOwner .vm (some 1)
  let s3 := s2.advance 1 (.lib (.write .envs) :: .enter o :: q1)
  let s4 := s3.advance 1 (.enter o :: q1)
  have t0 : s0.turn 0 = .moves s1 := by
    unfold SyncState.turn
    rw [show s0.todo 0 = .enter o :: q0 from rfl]
    rfl
  have t1 : s1.turn 1 = .moves s2 := by
    unfold SyncState.turn
    rw [show s1.todo 1 = .lib (.lock .vm) :: .lib (.read .envs) :: .lib (.write .envs) :: .enter o :: q1 by
      show (SyncCall.detach (.enter o :: us) :: r1).flatMap (SyncCall.acts depth) = _
      simp [SyncCall.acts, q1]]
    rfl
  have t2 : s2.turn 1 = .moves s3 := by
    unfold SyncState.turn
    rw [show s2.todo 1 = .lib (.read .envs) :: .lib (.write .envs) :: .enter o :: q1 from rfl]
  have t3 : s3.turn 1 = .moves s4 := by
    unfold SyncState.turn
    rw [show s3.todo 1 = .lib (.write .envs) :: .enter o :: q1 from rfl]
  have mo : s4.mons o = some (0, 1) := if_pos rfl
  have w1 : s4.turn 1 = .waits := by
    unfold SyncState.turn
    rw [show s4.todo 1 = .enter o :: q1 from rfl]
    simp only [mo]
    rfl
  have w0 : s4.turn 0 = .waits := by
    unfold SyncState.turn
    obtain ⟨q, hq⟩ : ∃ q, s4.todo 0 = .lib (.lock .vm) :: q := ⟨_, rfl⟩
    rw [hq]
    rfl
  refine ⟨s4, .step 1 (.step 1 (.step 1 (.step 0 .refl t0) t1) t2) t3, ⟨⟨0, by rw [w0]; nofun⟩, fun t => ?_⟩, rfl⟩
  match t with
  | 0 => exact .inr w0
  | 1 => exact .inr w1
  | t + 2 => exact .inl (sync_finished.2 rfl)

/-! ### Examples -/

/-- Two threads that enter the monitors 7 and 3 in one order, the first of them 7 twice, and look for classes,
attach and detach themselves meanwhile. -/
def inOrderCalls : Nat → List SyncCall
  | 0 => [.attach [.lib (.read .envs)], .enter 7, .call (.findClass ⟨true, true⟩), .enter 3, .enter 7, .exit 7,
      .exit 7, .call (.getMethodID 1 true true (fun _ _ => ⟨false, none, false, false⟩) []), .exit 3, .detach []]
  | 1 => [.enter 7, .enter 3, .call (.deleteGlobalRef true), .exit 3, .exit 7]
  | _ => []

/-- The same monitors in different orders. -/
def crossCalls : Nat → List SyncCall
  | 0 => [.enter 7, .call (.findClass ⟨true, true⟩), .enter 3, .exit 3, .exit 7]
  | 1 => [.enter 3, .call (.findClass ⟨false, false⟩), .enter 7, .exit 7, .exit 3]
  | _ => []

/-- `sync_ordered_complete`, `sync_calls_end`, `sync_enter_unlocked`: a program in order. -/
example : (∀ t, 2 ≤ t → inOrderCalls t = []) ∧ (∀ t, ∀ x ∈ inOrderCalls t, x.Fits id) ∧
    ∀ t, MonitorOrder id [] (inOrderCalls t) := by
  refine ⟨fun t ht => ?_, fun t x hx => ?_, fun t => ?_⟩
  · match t with
    | t + 2 => rfl
  · match t with
    | 0 =>
      simp only [inOrderCalls, List.mem_cons, List.not_mem_nil, or_false] at hx
      rcases hx with rfl | rfl | rfl | rfl | rfl | rfl | rfl | rfl | rfl | rfl
      · intro a ha
        simp only [List.mem_cons, List.not_mem_nil, or_false] at ha
        exact ⟨_, .inl ha⟩
      · trivial
      · exact ⟨trivial, trivial⟩
      · trivial
      · trivial
      · trivial
      · trivial
      · exact ⟨trivial, trivial⟩
      · trivial
      · nofun
    | 1 =>
      simp only [inOrderCalls, List.mem_cons, List.not_mem_nil, or_false] at hx
      rcases hx with rfl | rfl | rfl | rfl | rfl <;> first | trivial | exact ⟨trivial, trivial⟩
    | t + 2 => cases hx
  · match t with
    | 0 => simp [inOrderCalls, MonitorOrder]
    | 1 => simp [inOrderCalls, MonitorOrder]
    | t + 2 => rfl

/-- `sync_deadlock_iff`, `sync_deadlock_monitors`: monitors in different orders can deadlock, with the library or
without. -/
example : (∀ t, 2 ≤ t → crossCalls t = []) ∧ (∀ t, ∀ x ∈ crossCalls t, x.Fits id) ∧
    ∃ s, (SyncState.start 3 (monitorsOnly crossCalls)).Reach s ∧ Deadlock s := by
  refine ⟨fun t ht => ?_, fun t x hx => ?_, ?_⟩
  · match t with
    | t + 2 => rfl
  · match t with
    | 0 =>
      simp only [crossCalls, List.mem_cons, List.not_mem_nil, or_false] at hx
      rcases hx with rfl | rfl | rfl | rfl | rfl <;> first | trivial | exact ⟨trivial, trivial⟩
    | 1 =>
      simp only [crossCalls, List.mem_cons, List.not_mem_nil, or_false] at hx
      rcases hx with rfl | rfl | rfl | rfl | rfl <;> first | trivial | exact ⟨trivial, trivial⟩
    | t + 2 => cases hx
  · let s0 := SyncState.start 3 (monitorsOnly crossCalls)
    let s1 := (s0.advance 0 [.enter 3, .exit 3, .exit 7]).setMon 7 (some (0, 1))
    let s2 := (s1.advance 1 [.enter 7, .exit 7, .exit 3]).setMon 3 (some (1, 1))
    refine ⟨s2, .step 1 (.step 0 .refl (b := s1) rfl) rfl, ⟨0, ?_⟩, fun t => ?_⟩
    · rw [show s2.turn 0 = .waits from rfl]; nofun
    · match t with
      | 0 => exact .inr rfl
      | 1 => exact .inr rfl
      | t + 2 => exact .inl rfl

/-- `sync_undefined_iff`: a thread leaves a monitor that another thread is in. -/
example : ∃ s, (SyncState.start 3 (monitorsOnly fun
      | 0 => [.enter 7, .call (.findClass ⟨true, true⟩), .exit 7]
      | 1 => [.exit 7]
      | _ => [])).Reach s ∧ s.turn 1 = .undefined .notOwner :=
  ⟨_, .step 0 .refl rfl, rfl⟩

/-- `sync_is_monitor`: object 9 of a VM, which thread 0 has entered. -/
example : ∃ ms : MonState, ms.heap.envs 0 ≠ none ∧ ms.heap.denote (some 9) = .ok (some 9) ∧
    ms.mons 9 = some (0, 1) := by
  obtain ⟨h, -, -, hp⟩ := reachable_of (ops := [(0, .newObject none)])
    (p := fun h => h.denote (some 9) == .ok (some 9) && (h.envs 0).isSome) (by decide +kernel)
  simp only [Bool.and_eq_true, beq_iff_eq, Option.isSome_iff_ne_none] at hp
  exact ⟨MonState.setMon ⟨h, fun _ => none⟩ 9 (some (0, 1)), hp.2, hp.1, rfl⟩

end Jnivm
