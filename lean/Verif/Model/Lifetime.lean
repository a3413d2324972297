import Verif.Model.Context
/-!
VMs of fake-jni that are made and destroyed while threads use contexts: the constructor and destructor of
`FakeJni::Jvm` (src/fake-jni/jvm.cpp:6-13, `VM::initialize`, src/jnivm/vm.cpp:525-536) on top of `Context`.

A VM is named by a number that is never used again, even if a later one is made at the same address.  The
destructor is one step: what libraries do while they are unloaded is in `Unload`, and that no thread may be
inside of the VM meanwhile is not expressed.  The environment of a destroyed VM has no owner in the VM any more
but contexts may still own it; its own destructor (include/jnivm/env.h) does not use the VM.
-/
namespace Jnivm

inductive VmStatus where
  | unmade | alive | gone
deriving DecidableEq, Repr

/-- The threads and VMs of a process. -/
structure Process where
  threads : Threads
  vms : Nat → VmStatus

def Process.initial : Process := ⟨.initial, fun _ => .unmade⟩

inductive ProcOp where
  /-- `FakeJni::Jvm()` -/
  | make (vm : Nat)
  /-- its destructor -/
  | destroy (vm : Nat)
  | ctx (op : CtxOp)
  /-- `getJniEnv` of the innermost context, followed by a JNI function -/
  | use
  /-- `Jvm::findClass`, `VM::GetJNIEnv`, `createGlobalReference`: they use `VM::GetEnv()` without a test for null,
  src/fake-jni/fake-jni.cpp:49-55, src/jnivm/vm.cpp:542-552 -/
  | direct (vm : Nat)
deriving DecidableEq, Repr

/-- What a step of a thread looks at: the environment it worked with, if any. -/
inductive ProcEnd where
  | ended (e : StepEnd)
  | env (e : EnvObj)
deriving DecidableEq, Repr

/-- The VM a step calls: `vm.AttachCurrentThread` (src/fake-jni/fake-jni.cpp:11), `vm->DetachCurrentThread`
(src/fake-jni/fake-jni.cpp:25), `_env->getVM().DetachCurrentThread` (src/fake-jni/fake-jni.cpp:32). -/
def Thr.calls (th : Thr) : CtxOp → Option Nat
  | .enter vm => if th.lock.isNone then some vm else none
  | .enterDefault => none
  | .leave => match th.ctxs with
    | [] => none
    | c :: _ => c.vm
  | .attach vm => some vm
  | .detach vm => some vm
  | .exit => th.lock.map (·.vm)

/-- Thread `t` gets another state. -/
def Threads.set (s : Threads) (t : Nat) (th : Thr) (next : Nat) : Threads :=
  ⟨fun u => if u = t then th else s.thr u, next⟩

/-- `jnienvs` of the VM is destroyed: its entries for all threads. -/
def Threads.forget (s : Threads) (vm : Nat) : Threads :=
  ⟨fun u => (s.thr u).detach vm, s.next⟩

def Process.setVm (p : Process) (vm : Nat) (s : VmStatus) : Process :=
  { p with vms := fun w => if w = vm then s else p.vms w }

/-- `FakeJni::Jvm::Jvm`: the environment of the thread is made by `CreateEnv` (src/fake-jni/jvm.cpp:26-37).  If that
throws there is no VM. -/
def Process.make (p : Process) (t vm : Nat) : Process × StepEnd :=
  let th := p.threads.thr t
  match th.lock with
  | some _ => (p, .throws .runtimeError)
  | none =>
    let e : EnvObj := ⟨p.threads.next, vm⟩
    let th := { th with tls := some e, entries := (vm, some e) :: th.entries }
    (({ p with threads := p.threads.set t th (p.threads.next + 1) } : Process).setVm vm .alive, .done)

/-- One step of thread `t`.  A step that uses a VM that does not exist any more, or not yet, is undefined. -/
def Process.step (p : Process) (t : Nat) : ProcOp → Res (Process × ProcEnd)
  | .make vm =>
    if p.vms vm = .unmade then
      let r := p.make t vm
      .ok (r.1, .ended r.2)
    else .ok (p, .ended .invalid)
  | .destroy vm =>
    if p.vms vm = .alive then
      .ok (({ p with threads := p.threads.forget vm } : Process).setVm vm .gone, .ended .done)
    else .ub .dangling
  | .ctx op =>
    let run : Res (Process × ProcEnd) :=
      let r := p.threads.step t op
      .ok ({ p with threads := r.1 }, .ended r.2)
    match (p.threads.thr t).calls op with
    | none => run
    | some vm => if p.vms vm = .alive then run else .ub .dangling
  | .use => match (p.threads.thr t).ctxs with
    | [] => .ok (p, .ended .invalid)
    | c :: _ => match c.getJniEnv with
      | .ok e => if p.vms e.vm = .alive then .ok (p, .env e) else .ub .dangling
      | .throws x => .ok (p, .ended (.throws x))
      | .ub u => .ub u
      | .diverges => .diverges
  | .direct vm =>
    if p.vms vm = .alive then match (p.threads.thr t).envOf vm with
      | some e => .ok (p, .env e)
      | none => .ub .nullDeref
    else .ub .dangling

/-- A schedule; the second component lists how the steps ended. -/
def Process.run (p : Process) : List (Nat × ProcOp) → Res (Process × List (Nat × ProcEnd))
  | [] => .ok (p, [])
  | (t, op) :: l => (p.step t op).bind fun (q, e) => (Process.run q l).bind fun (r, es) => .ok (r, (t, e) :: es)

end Jnivm
