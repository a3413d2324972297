import Verif.Spec.HookProgram
import Verif.Spec.Pending
/-!
Clients that check for exceptions.
-/
namespace Spec
open Jnivm

/-- `if (env->ExceptionCheck()) { jthrowable x = env->ExceptionOccurred(); env->ExceptionClear(); handler(x); } else k();` -/
def orCatch (handler : Option Nat → Script) (k : Script) : Script :=
  .jni (.heap .exceptionCheck) fun
    | .out (.bool true) => .jni (.heap .exceptionOccurred) fun
      | .out (.ref x) => .jni (.heap .exceptionClear) fun _ => handler x
      | _ => .raise .badCast
    | .out (.bool false) => k
    | _ => .raise .badCast

/-- Object `x` is a throwable that carries `p`. -/
def Carries (h : Heap) (x : Nat) (p : Option Exn) : Prop := ∃ o, h.objs x = some o ∧ o.kind = .throwable p

/-- The client has caught the exception `x`, which carries `p`: thread `u` made the three calls, no exception is pending
any more, and it has a local reference to the object. -/
structure Caught (u : Nat) (vm vm' : Vm) (x : Nat) (p : Option Exn) : Prop where
  calls : ∃ as, runJni vm [(u, .heap .exceptionCheck), (u, .heap .exceptionOccurred), (u, .heap .exceptionClear)] =
    .ok (vm', as)
  cleared : Reports vm'.heap u none
  held : HasLocal vm'.heap u x
  kind : Carries vm'.heap x p

/-- A call on thread `u` that ends in `e`: its function throws it, or its function, after whatever else, calls another
one that ends in `e` and returns without a look at the exception; and so on. -/
inductive EndsWith (d2f : BitVec 64 → BitVec 32) (fs : Natives) (u : Nat) (e : Exn) :
    Nat → Vm → JType → Form → Option Nat → List (BitVec 64) → Prop where
  | direct {depth vm vm' ty form id args} : Handled u (.raises vm' e) (vm.callA (fs.code d2f u depth).hooks u ty form id args) →
      (vm'.heap.envs u).isSome → EndsWith d2f fs u e depth vm ty form id args
  | through {depth vm ty form id args vm2 ty2 form2 id2 args2} (g : BitVec 64 → BitVec 64) :
      Handled u ((Script.callA ty2 form2 id2 args2 fun v => .ret (g v)).run d2f (fs.code d2f u depth) u vm2)
        (vm.callA (fs.code d2f u (depth + 1)).hooks u ty form id args) →
      JniReachable vm2 → (vm2.heap.envs u).isSome → EndsWith d2f fs u e depth vm2 ty2 form2 id2 args2 →
      EndsWith d2f fs u e (depth + 1) vm ty form id args

end Spec
