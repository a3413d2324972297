import Verif.Model.Basic
/-!
Environments of threads in fake-jni VMs and `JniEnvContext`: src/fake-jni/fake-jni.cpp:7-40 on top of
`AttachCurrentThread` and `DetachCurrentThread`, src/jnivm/vm.cpp:468-498.

All state is kept per thread: the thread-local weak pointer, the entries of the maps `jnienvs` under the id
of the thread, and the context objects.  The maps are accessed under the VM's mutex here; the unlocked access
in `VM::GetEnv` (src/jnivm/vm.cpp:546-552) is not modelled.
-/
namespace Jnivm

/-- A `FakeJni::Env` object and the VM (`getVM`) it was made for. -/
structure EnvObj where
  id : Nat
  vm : Nat
deriving DecidableEq, Repr

/-- `JniEnvContext`, include/fake-jni/fake-jni.h: `env2` and `vm`.  `made` records the VM given to the
constructor, it is not in the code. -/
structure Ctx where
  env2 : Option EnvObj
  vm : Option Nat
  made : Option Nat
deriving DecidableEq, Repr

/-- What belongs to one thread: the object the thread-local weak pointer `JniEnvContext::env.env` was last
set to, the thread's entries in the maps `jnienvs` of the VMs (an entry may hold a null pointer), and the
living contexts, innermost first. -/
structure Thr where
  tls : Option EnvObj
  entries : List (Nat × Option EnvObj)
  ctxs : List Ctx
deriving DecidableEq, Repr

def Thr.initial : Thr := ⟨none, [], []⟩

/-- Someone holds a `shared_ptr` to the object. -/
def Thr.alive (th : Thr) (e : EnvObj) : Bool :=
  th.entries.any (fun x => x.2 == some e) || th.ctxs.any (fun c => c.env2 == some e)

/-- `env.env.lock()` -/
def Thr.lock (th : Thr) : Option EnvObj := th.tls.filter th.alive

/-- The environment the map of a VM holds for the thread. -/
def Thr.envOf (th : Thr) (vm : Nat) : Option EnvObj := (th.entries.lookup vm).join

/-- `jnienvs.erase` -/
def eraseEntry (vm : Nat) (l : List (Nat × Option EnvObj)) : List (Nat × Option EnvObj) :=
  l.filter (fun x => x.1 != vm)

/-- How a step ends. -/
inductive StepEnd where
  | done
  | throws (e : Exn)
  | aborts
  /-- the step makes no sense: there is no context to destroy -/
  | invalid
deriving DecidableEq, Repr

/-- `AttachCurrentThread`, src/jnivm/vm.cpp:468-486, with `FakeJni::Jvm::CreateEnv`,
src/fake-jni/jvm.cpp:26-37; `next` names the object `make_shared` returns. -/
def Thr.attach (th : Thr) (next vm : Nat) : Thr × Nat × StepEnd :=
  match th.envOf vm with
  | some _ => (th, next, .done)
  | none =>
    let th := { th with entries := (vm, none) :: eraseEntry vm th.entries }
    match th.lock with
    | some _ => (th, next, .throws .runtimeError)
    | none =>
      let e : EnvObj := ⟨next, vm⟩
      ({ th with tls := some e, entries := (vm, some e) :: eraseEntry vm th.entries }, next + 1, .done)

/-- `DetachCurrentThread`, src/jnivm/vm.cpp:487-498. -/
def Thr.detach (th : Thr) (vm : Nat) : Thr := { th with entries := eraseEntry vm th.entries }

/-- What a thread does. -/
inductive CtxOp where
  /-- `JniEnvContext(vm)` -/
  | enter (vm : Nat)
  /-- `JniEnvContext()` -/
  | enterDefault
  /-- the innermost context is destroyed -/
  | leave
  | attach (vm : Nat)
  | detach (vm : Nat)
  /-- the thread ends: `~ThreadContext` -/
  | exit
deriving DecidableEq, Repr

/-- One step of a thread: src/fake-jni/fake-jni.cpp:7-16, 18-21, 23-27, 29-38. -/
def Thr.step (th : Thr) (next : Nat) : CtxOp → Thr × Nat × StepEnd
  | .enter vm =>
    match th.lock with
    | some e => ({ th with ctxs := ⟨some e, none, some vm⟩ :: th.ctxs }, next, .done)
    | none =>
      match th.attach next vm with
      | (th, next, .done) => ({ th with ctxs := ⟨th.lock, some vm, some vm⟩ :: th.ctxs }, next, .done)
      | r => r
  | .enterDefault => ({ th with ctxs := ⟨th.lock, none, none⟩ :: th.ctxs }, next, .done)
  | .leave =>
    match th.ctxs with
    | [] => (th, next, .invalid)
    | c :: cs =>
      let th := match c.vm with
        | some vm => th.detach vm
        | none => th
      ({ th with ctxs := cs }, next, .done)
  | .attach vm => th.attach next vm
  | .detach vm => (th.detach vm, next, .done)
  | .exit =>
    match th.lock with
    | none => (th, next, .done)
    | some e =>
      let th := th.detach e.vm
      match th.lock with
      | some _ => (th, next, .aborts)
      | none => (th, next, .done)

/-- `JniEnvContext::getJniEnv`, src/fake-jni/fake-jni.cpp:42-47. -/
def Ctx.getJniEnv (c : Ctx) : Res EnvObj :=
  match c.env2 with
  | none => .throws .runtimeError
  | some e => .ok e

/-- All threads; objects made so far are numbered below `next`. -/
structure Threads where
  thr : Nat → Thr
  next : Nat

def Threads.initial : Threads := ⟨fun _ => .initial, 0⟩

/-- Thread `t` takes a step. -/
def Threads.step (s : Threads) (t : Nat) (op : CtxOp) : Threads × StepEnd :=
  let r := (s.thr t).step s.next op
  (⟨fun u => if u = t then r.1 else s.thr u, r.2.1⟩, r.2.2)

/-- A schedule: who does what in which order; the second component lists how the steps ended. -/
def Threads.run (s : Threads) : List (Nat × CtxOp) → Threads × List (Nat × StepEnd)
  | [] => (s, [])
  | (t, op) :: l =>
    let r := s.step t op
    let q := Threads.run r.1 l
    (q.1, (t, r.2) :: q.2)

end Jnivm
