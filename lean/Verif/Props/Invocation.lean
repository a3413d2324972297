import Verif.Lemmas.Invocation
import Verif.Props.Context
/-!
C87: the invocation interface gives each thread its environment.  A history is any list of calls of the
functions of the `JavaVM` and of the environments, by any number of threads.
-/
namespace Jnivm
open Spec

/-- `AttachCurrentThread` succeeds in every state and does what the JNI demands. -/
theorem vm_attach {h : Heap} (hr : HeapReachable h) (t : Nat) (penv : Bool) :
    ∃ h' a, invokeVm attachEntry h t (.attachCurrentThread penv) = .ok (h', a) ∧ AttachSpec h h' t penv a := by
  refine ⟨_, _, rfl, ?_⟩
  have hx := run_attach h t
  obtain ⟨hsome, hnone⟩ := attach_exact hr t
  cases he : h.envs t with
  | some e =>
    have := hsome e he
    rw [hx] at this
    injection this with this; injection this with h1 h2; injection h2 with h2
    rw [h1, h2]
    exact ⟨rfl, ⟨e, he, rfl, fun u e' hu hu' heq => hu (hr.inv.eidInj u t e' e hu' he heq)⟩, fun _ => rfl,
      fun hn => (by rw [he] at hn; cases hn), fun _ _ => rfl, rfl⟩
  | none =>
    obtain ⟨h', e, hx', he', hf, hp, ho, hobj⟩ := hnone he
    have hr' := hr.step hx'
    rw [hx] at hx'
    injection hx' with hx'; injection hx' with h1 h2; injection h2 with h2
    rw [h1, h2]
    refine ⟨rfl, ⟨e, he', rfl, fun u e' hu hu' heq => ?_⟩, fun hn => absurd he hn, fun _ => ⟨e, he', hf, hp⟩,
      ho, hobj⟩
    exact hu (hr'.inv.eidInj u t e' e (by rw [ho u hu]; exact hu') he' heq)

/-- `AttachCurrentThreadAsDaemon` and `GetEnv` with a place for the result, for whatever version, call the entry
`AttachCurrentThread` of the table, also if it was overridden; without a place `GetEnv` does nothing. -/
theorem vm_daemon (attach : AttachEntry) (h : Heap) (t : Nat) (penv : Bool) (version : Int) :
    invokeVm attach h t (.attachCurrentThreadAsDaemon penv) = invokeVm attach h t (.attachCurrentThread penv) ∧
    invokeVm attach h t (.getEnv true version) = invokeVm attach h t (.attachCurrentThread true) ∧
    invokeVm attach h t (.getEnv false version) = .ok (h, ⟨0, none⟩) := ⟨rfl, rfl, rfl⟩

/-- `GetEnv` does what the JNI demands for an attached thread and a supported version.  Missing: threads that
are not attached and versions that are not supported, where it does not (`get_env_attaches`,
`get_env_version`). -/
theorem get_env_partial {h : Heap} (hr : HeapReachable h) {t : Nat} {version : Int} (ha : h.envs t ≠ none)
    (hv : SupportedVersion version) : GetEnvSpec h t version (invokeVm attachEntry h t (.getEnv true version)) := by
  obtain ⟨h', ⟨c, en⟩, hx, hs⟩ := vm_attach hr t true
  obtain ⟨e, he, henv, _⟩ := hs.attached
  have h1 := hs.same ha
  have h2 := hs.code
  subst h1
  dsimp only at h2 henv
  rw [if_pos rfl] at henv
  subst h2 henv
  rw [(vm_daemon attachEntry h' t true version).2.1, hx]
  exact .ok hv (by simp [envIdOf, he])

/-- A thread that is not attached is attached by `GetEnv`, where the JNI demands `JNI_EDETACHED`. -/
theorem get_env_attaches {h : Heap} (hr : HeapReachable h) {t : Nat} (ha : h.envs t = none) (version : Int) :
    (∃ h' e, invokeVm attachEntry h t (.getEnv true version) = .ok (h', ⟨0, some e⟩) ∧ envIdOf h' t = some e) ∧
    ¬ GetEnvSpec h t version (invokeVm attachEntry h t (.getEnv true version)) := by
  obtain ⟨h', ⟨c, en⟩, hx, hs⟩ := vm_attach hr t true
  obtain ⟨e, he, henv, _⟩ := hs.attached
  have h2 := hs.code
  dsimp only at h2 henv
  rw [if_pos rfl] at henv
  subst h2 henv
  rw [(vm_daemon attachEntry h t true version).2.1, hx]
  refine ⟨⟨h', e.eid, rfl, by simp [envIdOf, he]⟩, fun hg => ?_⟩
  generalize hres : (Res.ok (h', (⟨0, some e.eid⟩ : InvAnswer)) : Res (Heap × InvAnswer)) = r at hg
  cases hg with
  | ok _ h3 => rw [envIdOf, ha] at h3; cases h3
  | detached => injection hres with hres; injection hres with _ hres; injection hres with hres; cases hres
  | version => injection hres with hres; injection hres with _ hres; injection hres with hres; cases hres

/-- A version that is not supported is not rejected. -/
theorem get_env_version {h : Heap} (hr : HeapReachable h) (t : Nat) {version : Int}
    (hv : ¬ SupportedVersion version) :
    (∃ h' e, invokeVm attachEntry h t (.getEnv true version) = .ok (h', ⟨0, some e⟩)) ∧
    ¬ GetEnvSpec h t version (invokeVm attachEntry h t (.getEnv true version)) := by
  obtain ⟨h', ⟨c, en⟩, hx, hs⟩ := vm_attach hr t true
  obtain ⟨e, he, henv, _⟩ := hs.attached
  have h2 := hs.code
  dsimp only at h2 henv
  rw [if_pos rfl] at henv
  subst h2 henv
  rw [(vm_daemon attachEntry h t true version).2.1, hx]
  refine ⟨⟨h', e.eid, rfl⟩, fun hg => ?_⟩
  generalize hres : (Res.ok (h', (⟨0, some e.eid⟩ : InvAnswer)) : Res (Heap × InvAnswer)) = r at hg
  cases hg with
  | ok h3 _ => exact hv h3
  | detached => injection hres with hres; injection hres with _ hres; injection hres with hres; cases hres
  | version => injection hres with hres; injection hres with _ hres; injection hres with hres; cases hres

/-- The version that `GetVersion` names is supported, and no later one is. -/
theorem get_version : SupportedVersion getVersion ∧ ∀ v, SupportedVersion v → v ≤ getVersion := by
  refine ⟨by simp only [SupportedVersion, getVersion]; decide, fun v hv => ?_⟩
  simp only [SupportedVersion, List.mem_cons, List.not_mem_nil, or_false] at hv
  simp only [getVersion]
  omega

/-- `DetachCurrentThread` succeeds in every state and does what the JNI demands, also if the thread was not
attached. -/
theorem vm_detach {h : Heap} (hr : HeapReachable h) (t : Nat) :
    ∃ h' a, invokeVm attachEntry h t .detachCurrentThread = .ok (h', a) ∧ DetachSpec h h' t a := by
  have hr' := hr.step (run_detach h t)
  refine ⟨_, _, rfl, rfl, by simp [Heap.detach], fun u hu => by simp [Heap.detach, hu], by simp [Heap.detach],
    by simp [Heap.detach], fun i o hi => Heap.collect_sub (h := h.detach t) hi, ?_⟩
  have live : ∀ i, (h.detach t).collect.Live i → ∃ o, (h.detach t).collect.objs i = some o := fun i hi => hi
  rintro i (hg | ⟨u, e, hu, he, hf⟩)
  · refine live i (hr'.inv.roots i (Heap.mem_roots.2 (.inl ?_)))
    simpa [Heap.detach] using hg
  · refine live i (hr'.inv.rootsEnv (t := u) (e := e) ?_ (.inl hf))
    simpa [Heap.detach, hu] using he

/-- `DestroyJavaVM` does nothing: threads stay attached and the VM can be used afterwards. -/
theorem destroy_nothing (attach : AttachEntry) (h : Heap) (t : Nat) :
    invokeVm attach h t .destroyJavaVM = .ok (h, ⟨0, none⟩) := rfl

/-- Once a thread has got an environment, by `AttachCurrentThread`, `AttachCurrentThreadAsDaemon` or `GetEnv`, each
of these functions gives it this environment and changes nothing, until it detaches, whatever it and the other
threads do meanwhile. -/
theorem vm_env_stable {h h1 h2 : Heap} (hr : HeapReachable h) {t e : Nat} {c : InvCall} {code : Int}
    (hc : invokeVm attachEntry h t c = .ok (h1, ⟨code, some e⟩)) {l : List (Nat × VmStep)}
    (hd1 : (t, VmStep.vm .detachCurrentThread) ∉ l) (hd2 : (t, VmStep.env .detach) ∉ l)
    (hx : runVm h1 l = .ok h2) {c' : InvCall}
    (hc' : c' ∈ [InvCall.attachCurrentThread true, .attachCurrentThreadAsDaemon true] ∨ ∃ v, c' = .getEnv true v) :
    code = 0 ∧ envIdOf h2 t = some e ∧ invokeVm attachEntry h2 t c' = .ok (h2, ⟨0, some e⟩) := by
  have key : attachEntry h t true = .ok (h1, ⟨code, some e⟩) := by
    cases c with
    | destroyJavaVM => cases hc
    | detachCurrentThread => cases hc
    | attachCurrentThread p => cases p with
      | false => cases hc
      | true => exact hc
    | attachCurrentThreadAsDaemon p => cases p with
      | false => cases hc
      | true => exact hc
    | getEnv p v => cases p with
      | false => cases hc
      | true => exact hc
  have same : invokeVm attachEntry h2 t c' = attachEntry h2 t true := by
    rcases hc' with hc' | ⟨v, rfl⟩
    · simp only [List.mem_cons, List.not_mem_nil, or_false] at hc'
      rcases hc' with rfl | rfl <;> rfl
    · rfl
  obtain ⟨h1', a, hx1, hs⟩ := vm_attach hr t true
  have heq := hx1.symm.trans key
  injection heq with heq; injection heq with e1 e2
  subst e1 e2
  obtain ⟨en, hen, henv, _⟩ := hs.attached
  rw [if_pos rfl] at henv
  injection henv with henv
  have hr1 : HeapReachable h1' := hr.step (show HeapOp.attach.run h t = .ok (h1', _) by
    rw [run_attach]; injection key with key; injection key with k1 k2; rw [k1])
  obtain ⟨e', he', hid, hatt⟩ := env_stable hr1 hen (no_detach hd1 hd2) (runVm_heap hx)
  refine ⟨hs.code, by simp [envIdOf, he', hid, henv], ?_⟩
  rw [same]
  rw [run_attach] at hatt
  injection hatt with hatt; injection hatt with g1 g2; injection g2 with g2
  simp only [attachEntry, g1, g2, if_true, henv]

/-- After a thread detached, what it attaches next is another environment. -/
theorem vm_detach_renews {h h1 h2 h3 : Heap} (hr : HeapReachable h) {t u e e' : Nat} {a a' : InvAnswer}
    (he : envIdOf h t = some e) (hd : invokeVm attachEntry h t .detachCurrentThread = .ok (h1, a))
    {l : List (Nat × VmStep)} (hx : runVm h1 l = .ok h2) {c : InvCall}
    (hc : invokeVm attachEntry h2 u c = .ok (h3, a')) (ha : a'.env = some e') : e' ≠ e := by
  obtain ⟨en, hen, rfl⟩ := Option.map_eq_some_iff.1 he
  have hrun : HeapOp.detach.run h t = .ok (h1, .unit) := by
    rw [run_detach]
    injection hd with hd; injection hd with hd _
    rw [hd]
  have hx' : runVm h1 (l ++ [(u, .vm c)]) = .ok h3 := by
    clear hrun hd
    induction l generalizing h1 with
    | nil =>
      cases hx
      simp only [List.nil_append, runVm, hc, Res.bind_ok]
    | cons x l ih =>
      obtain ⟨v, s⟩ := x
      cases s <;>
      · obtain ⟨⟨g, o⟩, hx1, hx2⟩ := Res.bind_eq_ok.1 hx
        simp only [List.cons_append, runVm, hx1, Res.bind_ok]
        exact ih hx2
  have hgone := (detached_gone hr hen hrun (runVm_heap hx')).1
  have hr2 : HeapReachable h2 := runVm_reachable (hr.step hrun) hx
  have key : attachEntry h2 u true = .ok (h3, a') := by
    cases c with
    | destroyJavaVM => cases hc; cases ha
    | detachCurrentThread => cases hc; cases ha
    | attachCurrentThread p => cases p with
      | false => cases hc; cases ha
      | true => exact hc
    | attachCurrentThreadAsDaemon p => cases p with
      | false => cases hc; cases ha
      | true => exact hc
    | getEnv p v => cases p with
      | false => cases hc; cases ha
      | true => exact hc
  obtain ⟨h3', a2, hx3, hs⟩ := vm_attach hr2 u true
  have heq := hx3.symm.trans key
  injection heq with heq; injection heq with e1 e2
  subst e1 e2
  obtain ⟨en', hen', henv, _⟩ := hs.attached
  rw [if_pos rfl, ha] at henv
  injection henv with henv
  rw [henv]
  exact hgone u en' hen'

/-- Thread 1 gets an environment by `GetEnv`, calls follow by it and by thread 2, which detaches. -/
example : ∃ h h1 h2, HeapReachable h ∧ h.envs 1 = none ∧
    invokeVm attachEntry h 1 (.getEnv true 7) = .ok (h1, ⟨0, some 1⟩) ∧
    runVm h1 [(2, .vm (.attachCurrentThread false)), (1, .env (.newObject none)), (2, .vm .detachCurrentThread),
      (1, .vm .destroyJavaVM)] = .ok h2 := by
  obtain ⟨h, hx, hr, hp⟩ := reachable_of (ops := [])
    (p := fun h => (h.envs 1).isNone && (invokeVm attachEntry h 1 (.getEnv true 7)).holds fun r =>
      r.2 == ⟨0, some 1⟩ && (runVm r.1 [(2, .vm (.attachCurrentThread false)), (1, .env (.newObject none)),
        (2, .vm .detachCurrentThread), (1, .vm .destroyJavaVM)]).holds fun _ => true) (by decide +kernel)
  simp only [Bool.and_eq_true, beq_iff_eq, Res.holds_iff, Option.isNone_iff_eq_none] at hp
  obtain ⟨hn, ⟨h1, a⟩, hx1, rfl, h2, hx2, _⟩ := hp
  exact ⟨h, h1, h2, hr, hn, hx1, hx2⟩

/-- Thread 0 is attached in a new VM, asks for its environment with version 1.6, detaches and comes back. -/
example : ∃ h h1 h2 h3, HeapReachable h ∧ h.envs 0 ≠ none ∧ SupportedVersion 0x00010006 ∧
    invokeVm attachEntry h 0 (.getEnv true 0x00010006) = .ok (h, ⟨0, some 0⟩) ∧
    invokeVm attachEntry h 0 .detachCurrentThread = .ok (h1, ⟨0, none⟩) ∧
    runVm h1 [(1, .vm (.attachCurrentThreadAsDaemon true)), (1, .env .pushLocalFrame)] = .ok h2 ∧
    invokeVm attachEntry h2 0 (.attachCurrentThread true) = .ok (h3, ⟨0, some 2⟩) := by
  obtain ⟨h, hx, hr, hp⟩ := reachable_of (ops := [])
    (p := fun h => (h.envs 0).any (·.eid == 0) &&
      (invokeVm attachEntry h 0 .detachCurrentThread).holds fun r => r.2 == ⟨0, none⟩ &&
        (runVm r.1 [(1, .vm (.attachCurrentThreadAsDaemon true)), (1, .env .pushLocalFrame)]).holds fun h2 =>
          (invokeVm attachEntry h2 0 (.attachCurrentThread true)).holds fun q => q.2 == ⟨0, some 2⟩)
    (by decide +kernel)
  simp only [Bool.and_eq_true, beq_iff_eq, Res.holds_iff] at hp
  obtain ⟨he, ⟨h1, a⟩, hx1, rfl, h2, hx2, ⟨h3, b⟩, hx3, rfl⟩ := hp
  obtain ⟨e, he, hid⟩ := (Option.any_eq_true _ _).1 he
  have hne : h.envs 0 ≠ none := by rw [he]; exact fun h => nomatch h
  refine ⟨h, h1, h2, h3, hr, hne, get_version.1, ?_, hx1, hx2, hx3⟩
  have := (vm_env_stable hr (t := 0) (c := .attachCurrentThread true) (code := 0) (e := 0) (h1 := h) (h2 := h)
    (l := []) ?_ (by simp) (by simp) rfl (.inr ⟨0x00010006, rfl⟩)).2.2
  · exact this
  · have hrun := (attach_exact hr 0).1 e he
    rw [run_attach, beq_iff_eq.1 hid] at hrun
    injection hrun with hrun; injection hrun with g1 g2; injection g2 with g2
    simp only [invokeVm, attachEntry, g1, g2, if_true]

/-! ### Several fake-jni VMs -/

/-- `GetJavaVM` of the environment that a thread has in a VM gives that VM. -/
theorem get_java_vm {s : Threads} (hs : CtxReachable s) {t vm : Nat} {e : EnvObj}
    (he : (s.thr t).envOf vm = some e) : e.vm = vm := (hs.ok t).entVm vm e (envOf_mem he)

/-- A thread that has an environment of one fake-jni VM cannot be attached to another one: an exception leaves
the C function.  What remains is a null entry in the table of that VM, so `VM::GetEnv` gives null from then on. -/
theorem attach_second_vm {s : Threads} (hs : CtxReachable s) {t vm : Nat} {e : EnvObj}
    (hl : (s.thr t).lock = some e) (hn : (s.thr t).envOf vm = none) :
    (s.step t (.attach vm)).2 = .throws .runtimeError ∧
    ((s.step t (.attach vm)).1.thr t).entries.lookup vm = some none ∧
    (∀ v, ((s.step t (.attach vm)).1.thr t).envOf v = (s.thr t).envOf v) ∧
    ((s.step t (.attach vm)).1.thr t).lock = some e := by
  have hk := hs.keys t
  obtain ⟨htls, hal⟩ := lock_eq_some.1 hl
  have hlock : ((s.thr t).nulled vm).lock = some e := by
    refine lock_eq_some.2 ⟨htls, alive_iff.2 ?_⟩
    rcases alive_iff.1 hal with ⟨v, hv⟩ | hc
    · refine .inl ⟨v, List.mem_cons_of_mem _ (mem_erase.2 ⟨hv, fun hvm => ?_⟩)⟩
      dsimp only at hvm
      subst hvm
      rw [envOf_of_mem hk hv] at hn
      cases hn
    · exact .inr hc
  have e3 : (s.step t (.attach vm)).1.thr t = ((s.thr t).attach s.next vm).1 := if_pos rfl
  have e2 : (s.step t (.attach vm)).2 = ((s.thr t).attach s.next vm).2.2 := rfl
  have ha : (s.thr t).attach s.next vm = ((s.thr t).nulled vm, s.next, .throws .runtimeError) := by
    rw [attach_eq, hn, hlock]
  rw [e3, e2, ha]
  have hnull : ((s.thr t).nulled vm).entries.lookup vm = some none := by
    show List.lookup vm ((vm, none) :: _) = _
    rw [List.lookup_cons, beq_self_eq_true]
  refine ⟨rfl, hnull, fun v => ?_, hlock⟩
  by_cases hv : v = vm
  · subst hv
    rw [hn, Thr.envOf, hnull]
    rfl
  · have : ((s.thr t).nulled vm).entries.lookup v = (s.thr t).entries.lookup v := by
      show List.lookup v ((vm, none) :: _) = _
      rw [List.lookup_cons, beq_false_of_ne hv]
      exact lookup_erase hv _
    rw [Thr.envOf, this, Thr.envOf]

/-- Thread 0 has an environment of VM 0 and is to be attached to VM 1. -/
example : ∃ s, CtxReachable s ∧ (s.thr 0).lock = some ⟨0, 0⟩ ∧ (s.thr 0).envOf 1 = none ∧
    (s.thr 0).envOf 0 = some ⟨0, 0⟩ :=
  ⟨_, ⟨[(0, .attach 0)], rfl⟩, rfl, rfl, rfl⟩

end Jnivm
