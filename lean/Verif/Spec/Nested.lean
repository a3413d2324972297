import Verif.Model.Nested
import Verif.Spec.Jni
import Verif.Spec.Proxy
/-!
What nested calls may do to the VM: no more than calls made one after the other.
-/
namespace Spec
open Jnivm

/-- Calls of a kind that thread `t` makes one after the other lead from one state to the other. -/
def ByCallsOf (t : Nat) (P : JniOp → Prop) (vm vm' : Vm) : Prop :=
  ∃ ops as, (∀ x ∈ ops, x.1 = t ∧ P x.2) ∧ runJni vm ops = .ok (vm', as)

/-- The calls that running a function consists of, apart from the function: the class of the object is asked
for, the object gets a local reference, an exception becomes pending. -/
def CallsOwn : JniOp → Prop
  | .heap (.getObjectClass _) | .heap (.returnObject _ _) | .heap (.raise _) => True
  | _ => False

/-- The code makes only calls of a kind itself. -/
def _root_.Jnivm.Script.Only (P : JniOp → Prop) : Script → Prop
  | .ret _ | .raise _ => True
  | .jni op k => P op ∧ ∀ a, (k a).Only P
  | .callA _ _ _ _ k | .callV _ _ _ _ k | .getField _ _ _ k | .invoke _ _ _ k => ∀ v, (k v).Only P
  | .setField _ _ _ _ k => k.Only P
  | .attempt body handler k => body.Only P ∧ (∀ e, (handler e).Only P) ∧ ∀ v, (k v).Only P

/-- So do all functions. -/
def _root_.Jnivm.Natives.Only (P : JniOp → Prop) (fs : Natives) : Prop :=
  (∀ f self args, (fs.hooked f self args).Only P) ∧ ∀ p ty target args, (fs.registered p ty target args).Only P

/-- The functions change the VM only by calls of a kind on thread `t`. -/
def ActByCalls (t : Nat) (P : JniOp → Prop) (code : Code) : Prop :=
  (∀ f vm self args, JniReachable vm → EndsIn (ByCallsOf t P vm) ((code.hooks f).run vm self args)) ∧
  ∀ p ty vm target args, JniReachable vm → EndsIn (ByCallsOf t P vm) (code.natives p ty vm target args)

/-- The call takes no local reference away. -/
def KeepsLocals : JniOp → Prop
  | .heap (.deleteLocalRef _) | .heap (.popLocalFrame _) | .heap .detach => False
  | _ => True

/-- The second outcome is what the first one becomes when code is followed for longer. -/
def Refines {σ α : Type} (o o' : Outcome σ α) : Prop := o = .diverges ∨ o' = o

/-- A function that counts its argument down by calling itself. -/
def countdown (cl : Option Nat) (id : Nat) : List (BitVec 64) → Script
  | [n] => if n = 0 then .ret 0 else .callA .int (.static cl) (some id) [n - 1] fun v => .ret (v + 1)
  | _ => .raise (.user 0)

end Spec
