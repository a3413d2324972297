import Verif.Spec.Invocation
import Verif.Props.Threads
import Verif.Props.Context
/-! Lemmas on the invocation interface: its calls are histories of the heap. -/
namespace Jnivm
open Spec

/-- The calls on the heap that a call of the table amounts to. -/
def VmStep.ops : VmStep → List HeapOp
  | .vm .destroyJavaVM => []
  | .vm (.attachCurrentThread _) => [.attach]
  | .vm .detachCurrentThread => [.detach]
  | .vm (.getEnv penv _) => if penv then [.attach] else []
  | .vm (.attachCurrentThreadAsDaemon _) => [.attach]
  | .env op => [op]

/-- The same history, on the heap. -/
def vmOps (l : List (Nat × VmStep)) : List (Nat × HeapOp) :=
  l.flatMap fun x => x.2.ops.map fun op => (x.1, op)

theorem run_attach (h : Heap) (t : Nat) :
    HeapOp.attach.run h t = .ok ((h.attach t).1.collect, .env (h.attach t).2) := by
  simp [HeapOp.run, HeapOp.exec, HeapOp.needsEnv, HeapOp.body]
  rfl

theorem run_detach (h : Heap) (t : Nat) : HeapOp.detach.run h t = .ok ((h.detach t).collect, .unit) := by
  simp [HeapOp.run, HeapOp.exec, HeapOp.needsEnv, HeapOp.body]
  rfl

theorem vmOps_cons (t : Nat) (s : VmStep) (l : List (Nat × VmStep)) :
    vmOps ((t, s) :: l) = (s.ops.map fun op => (t, op)) ++ vmOps l := rfl

/-- Every history of calls is one of the heap. -/
theorem runVm_heap {l : List (Nat × VmStep)} : ∀ {h h' : Heap}, runVm h l = .ok h' →
    runHeap h (vmOps l) = .ok h' := by
  induction l with
  | nil => intro h h' hx; exact hx
  | cons x l ih =>
    obtain ⟨t, s⟩ := x
    intro h h' hx
    rw [vmOps_cons]
    have att : ∀ penv, ((attachEntry h t penv).bind fun r => runVm r.1 l) = .ok h' →
        runHeap h ((t, .attach) :: vmOps l) = .ok h' := by
      intro penv hx
      have := ih (h := (h.attach t).1.collect) hx
      simp only [runHeap, run_attach, Res.bind_ok]
      exact this
    cases s with
    | env op =>
      obtain ⟨⟨h1, o⟩, hx1, hx2⟩ := Res.bind_eq_ok.1 hx
      simp only [VmStep.ops, List.map, List.cons_append, List.nil_append, runHeap, hx1, Res.bind_ok]
      exact ih hx2
    | vm c =>
      cases c with
      | destroyJavaVM => exact ih hx
      | attachCurrentThread penv => exact att penv hx
      | attachCurrentThreadAsDaemon penv => exact att penv hx
      | detachCurrentThread =>
        simp only [VmStep.ops, List.map, List.cons_append, List.nil_append, runHeap, run_detach, Res.bind_ok]
        exact ih (h := (h.detach t).collect) hx
      | getEnv penv v =>
        cases penv with
        | true => exact att true hx
        | false => exact ih hx

theorem runVm_reachable {l : List (Nat × VmStep)} {h h' : Heap} (hr : HeapReachable h)
    (hx : runVm h l = .ok h') : HeapReachable h' := hr.steps (runVm_heap hx)

/-- A thread that neither detaches through the table nor through the heap. -/
theorem no_detach {t : Nat} {l : List (Nat × VmStep)} (h1 : (t, VmStep.vm .detachCurrentThread) ∉ l)
    (h2 : (t, VmStep.env .detach) ∉ l) : (t, HeapOp.detach) ∉ vmOps l := by
  intro hm
  obtain ⟨⟨u, s⟩, hs, hm⟩ := List.mem_flatMap.1 hm
  obtain ⟨op, ho, heq⟩ := List.mem_map.1 hm
  cases heq
  cases s with
  | env op => cases List.mem_singleton.1 ho; exact h2 hs
  | vm c =>
    cases c with
    | destroyJavaVM => cases ho
    | attachCurrentThread p => cases List.mem_singleton.1 ho
    | attachCurrentThreadAsDaemon p => cases List.mem_singleton.1 ho
    | detachCurrentThread => exact h1 hs
    | getEnv p v => cases p <;> simp [VmStep.ops] at ho

/-! ### A thread has one entry in the table of a VM -/

theorem erase_sub (vm : Nat) (l : List (Nat × Option EnvObj)) (h : (l.map (·.1)).Nodup) :
    ((eraseEntry vm l).map (·.1)).Nodup ∧ vm ∉ (eraseEntry vm l).map (·.1) := by
  refine ⟨h.sublist ((List.filter_sublist).map _), fun hm => ?_⟩
  obtain ⟨x, hx, rfl⟩ := List.mem_map.1 hm
  exact (mem_erase.1 hx).2 rfl

theorem cons_erase (vm : Nat) (o : Option EnvObj) (l : List (Nat × Option EnvObj)) (h : (l.map (·.1)).Nodup) :
    (((vm, o) :: eraseEntry vm l).map (·.1)).Nodup :=
  List.nodup_cons.2 ⟨(erase_sub vm l h).2, (erase_sub vm l h).1⟩

theorem attach_keys {th : Thr} (n vm : Nat) (h : (th.entries.map (·.1)).Nodup) :
    ((th.attach n vm).1.entries.map (·.1)).Nodup := by
  rw [attach_eq]
  have h1 := cons_erase vm none _ h
  cases th.envOf vm with
  | some e => exact h
  | none =>
    cases (th.nulled vm).lock with
    | some e => exact h1
    | none => exact cons_erase vm _ _ h1

theorem step_keys {th : Thr} (n : Nat) (op : CtxOp) (h : (th.entries.map (·.1)).Nodup) :
    ((th.step n op).1.entries.map (·.1)).Nodup := by
  cases op with
  | enter vm =>
    simp only [Thr.step]
    cases th.lock with
    | some e => exact h
    | none =>
      dsimp only
      have := attach_keys n vm h
      generalize th.attach n vm = r at this
      obtain ⟨th', n', o⟩ := r
      cases o <;> exact this
  | enterDefault => exact h
  | leave =>
    simp only [Thr.step]
    cases th.ctxs with
    | nil => exact h
    | cons c cs =>
      dsimp only
      cases c.vm with
      | none => exact h
      | some vm => exact (erase_sub vm _ h).1
  | attach vm => exact attach_keys n vm h
  | detach vm => exact (erase_sub vm _ h).1
  | exit =>
    simp only [Thr.step]
    cases th.lock with
    | none => exact h
    | some e =>
      dsimp only
      cases (th.detach e.vm).lock <;> exact (erase_sub e.vm _ h).1

theorem run_keys (l : List (Nat × CtxOp)) : ∀ (s : Threads), (∀ u, ((s.thr u).entries.map (·.1)).Nodup) →
    ∀ u, (((s.run l).1.thr u).entries.map (·.1)).Nodup := by
  induction l with
  | nil => intro s h; exact h
  | cons x l ih =>
    obtain ⟨t, op⟩ := x
    intro s h
    refine ih (s.step t op).1 fun u => ?_
    by_cases hu : u = t
    · have : (s.step t op).1.thr u = ((s.thr t).step s.next op).1 := if_pos hu
      rw [this]
      exact step_keys _ _ (h t)
    · rw [other_threads s hu op]
      exact h u

theorem _root_.Spec.CtxReachable.keys {s : Threads} (h : CtxReachable s) (t : Nat) :
    ((s.thr t).entries.map (·.1)).Nodup := by
  obtain ⟨l, rfl⟩ := h
  exact run_keys l .initial (fun _ => List.nodup_nil) t

theorem lookup_of_mem {l : List (Nat × Option EnvObj)} {v : Nat} {o : Option EnvObj} (h : (l.map (·.1)).Nodup)
    (hm : (v, o) ∈ l) : l.lookup v = some o := by
  induction l with
  | nil => cases hm
  | cons x l ih =>
    obtain ⟨w, p⟩ := x
    rw [List.lookup_cons]
    obtain ⟨h1, h2⟩ := List.nodup_cons.1 h
    rcases List.mem_cons.1 hm with hm | hm'
    · cases hm; rw [beq_self_eq_true]
    · have : v ≠ w := by
        rintro rfl
        exact h1 (List.mem_map.2 ⟨_, hm', rfl⟩)
      rw [beq_false_of_ne this]
      exact ih h2 hm'

theorem envOf_of_mem {th : Thr} (h : (th.entries.map (·.1)).Nodup) {v : Nat} {e : EnvObj}
    (hm : (v, some e) ∈ th.entries) : th.envOf v = some e := by
  rw [Thr.envOf, lookup_of_mem h hm]
  rfl

theorem lookup_erase {v vm : Nat} (hv : v ≠ vm) (l : List (Nat × Option EnvObj)) :
    (eraseEntry vm l).lookup v = l.lookup v := by
  induction l with
  | nil => rfl
  | cons x l ih =>
    obtain ⟨w, p⟩ := x
    by_cases hw : w = vm
    · subst hw
      have : eraseEntry w ((w, p) :: l) = eraseEntry w l := by simp [eraseEntry]
      rw [this, ih, List.lookup_cons, beq_false_of_ne hv]
    · have : eraseEntry vm ((w, p) :: l) = (w, p) :: eraseEntry vm l := by simp [eraseEntry, hw]
      rw [this, List.lookup_cons, List.lookup_cons, ih]

end Jnivm
