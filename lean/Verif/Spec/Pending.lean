import Verif.Spec.Refs
/-!
Which calls raise and clear the pending exception of the calling thread.
-/
namespace Spec
open Jnivm

/-- The call, made in state `h` and ending in state `h'`, raises the exception object `x`. -/
def Raises (h h' : Heap) (x : Nat) : HeapOp → Prop
  | .throw r => Denotes h r (some x)
  | .raise p => h.next ≤ x ∧ ∃ o, h'.objs x = some o ∧ o.kind = .throwable (some p)
  | _ => False

/-- The call may raise an exception, clear it, or destroy the environment. -/
def TouchesPending : HeapOp → Prop
  | .throw _ | .raise _ | .exceptionClear | .detach => True
  | _ => False

/-- `x` is what `ExceptionOccurred` reports in thread `t`. -/
def Reports (h : Heap) (t : Nat) (x : Option Nat) : Prop :=
  (∃ h', HeapOp.exceptionCheck.run h t = .ok (h', .bool x.isSome)) ∧
  ∃ h', HeapOp.exceptionOccurred.run h t = .ok (h', .ref x)

end Spec
