import Verif.Model.Jni
import Verif.Model.Proxy
/-!
Hooked and registered functions that use the VM themselves: C++ code that makes JNI calls, calls methods
and accesses fields, whose functions are again such code, on the same thread.

A script is C++ code seen from the VM: what it does next depends on the answers it got.  Calls can be
nested as deep as the stack of the thread allows; the number of nested calls that are followed is a
parameter, beyond which the code has the outcome `diverges`.
-/
namespace Jnivm

/-- C++ code that uses the VM: it returns, throws, makes a call of Model/Jni.lean, a call or an access of
Model/Calls.lean, uses `Method::invoke` (Model/Proxy.lean), or has a `try` block that catches everything. -/
inductive Script where
  | ret (v : BitVec 64)
  | raise (e : Exn)
  | jni (op : JniOp) (k : JniAnswer → Script)
  | callA (ty : JType) (form : Form) (id : Option Nat) (args : List (BitVec 64)) (k : BitVec 64 → Script)
  | callV (ty : JType) (form : Form) (id : Option Nat) (va : List Spec.CArg) (k : BitVec 64 → Script)
  | getField (ty : JType) (owner : Owner) (id : Option Nat) (k : BitVec 64 → Script)
  | setField (ty : JType) (owner : Owner) (id : Option Nat) (v : BitVec 64) (k : Script)
  | invoke (target : Recipient) (id : Nat) (args : List (BitVec 64)) (k : BitVec 64 → Script)
  | attempt (body : Script) (handler : Exn → Script) (k : BitVec 64 → Script)

/-- `try { .. } catch (..) { .. }` -/
def Outcome.orElse {σ α : Type} : Outcome σ α → (σ → Exn → Outcome σ α) → Outcome σ α
  | .raises s e, f => f s e
  | o, _ => o

/-- A call needs the `JNIEnv` of the thread. -/
def Vm.attached {α : Type} (vm : Vm) (t : Nat) (o : Outcome Vm α) : Outcome Vm α :=
  if (vm.heap.envs t).isNone then .ub .dangling else o

/-- What the hooked functions and the functions given to `RegisterNatives` do. -/
structure Code where
  hooks : Nat → Hook
  natives : NativeCode

/-- The script runs on thread `t`. -/
def Script.run (d2f : BitVec 64 → BitVec 32) (code : Code) (t : Nat) : Script → Vm → Outcome Vm (BitVec 64)
  | .ret v, vm => .returns vm v
  | .raise e, vm => .raises vm e
  | .jni op k, vm => Outcome.lift vm (op.run vm t) fun p => (k p.2).run d2f code t p.1
  | .callA ty form id args k, vm =>
    vm.attached t ((vm.callA code.hooks t ty form id args).andThen fun vm v => (k v).run d2f code t vm)
  | .callV ty form id va k, vm =>
    vm.attached t ((vm.callV d2f code.hooks t ty form id va).andThen fun vm v => (k v).run d2f code t vm)
  | .getField ty owner id k, vm =>
    vm.attached t ((vm.getField code.hooks ty owner id).andThen fun vm v => (k v).run d2f code t vm)
  | .setField ty owner id v k, vm =>
    vm.attached t ((vm.setField code.hooks ty owner id v).andThen fun vm _ => k.run d2f code t vm)
  | .invoke target id args k, vm =>
    vm.attached t ((vm.invokeMethod code.natives code.hooks t target id args).andThen
      fun vm v => (k v).run d2f code t vm)
  | .attempt body handler k, vm =>
    ((body.run d2f code t vm).orElse fun vm e => (handler e).run d2f code t vm).andThen
      fun vm v => (k v).run d2f code t vm

/-- The functions of a client.  A hooked function was hooked in some way, has a type of result and code that
gets the object or class and the arguments; a registered function is called with a result type. -/
structure Natives where
  kind : Nat → HookKind
  type : Nat → JType
  hooked : Nat → Self → List (BitVec 64) → Script
  registered : Nat → JType → Recipient → List (BitVec 64) → Script

/-- The functions as thread `t` runs them, when their calls may be nested `depth` times. -/
def Natives.code (d2f : BitVec 64 → BitVec 32) (fs : Natives) (t : Nat) : Nat → Code
  | 0 => ⟨fun f => ⟨fs.kind f, fs.type f, fun _ _ _ => .diverges⟩, fun _ _ _ _ _ => .diverges⟩
  | depth + 1 =>
    ⟨fun f => ⟨fs.kind f, fs.type f, fun vm self args =>
        (fs.hooked f self args).run d2f (fs.code d2f t depth) t vm⟩,
      fun p ty vm target args => (fs.registered p ty target args).run d2f (fs.code d2f t depth) t vm⟩

end Jnivm
