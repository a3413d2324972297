import Verif.Spec.Jni
import Verif.Spec.Refs
/-!
Objects that are handed from thread to thread.
-/
namespace Spec
open Jnivm

/-- The object is what it was: of the same C++ type with the same content, except for elements and variables, which may
have been assigned, and of the same class once it has one. -/
def StillIs (o o' : Obj) : Prop :=
  ((∀ s, o.kind ≠ .array s) → (∀ s, o.kind ≠ .record s) → o'.kind = o.kind) ∧
    (∀ s, o.kind = .array s → ∃ s', o'.kind = .array s' ∧ s'.length = s.length) ∧
    (∀ s, o.kind = .record s → ∃ s', o'.kind = .record s' ∧ s'.length = s.length) ∧
    ∀ c, o.cls = some c → o'.cls = some c

/-- `P` holds of every call of the history, in the state it is made in. -/
def AlongJni (P : Vm → JniOp → Prop) : Vm → List (Nat × JniOp) → Prop
  | _, [] => True
  | vm, (t, op) :: ops => P vm op ∧ ∀ vm' a, op.run vm t = .ok (vm', a) → AlongJni P vm' ops

/-- The call does not store into element `n` of the array `x`. -/
def SparesElement (x n : Nat) (vm : Vm) (op : JniOp) : Prop :=
  ∀ a i v, op = .heap (.setObjectArrayElement a i v) → Denotes vm.heap a (some x) → i ≠ n

end Spec
