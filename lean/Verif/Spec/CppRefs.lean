import Verif.Model.CppRefs
import Verif.Spec.Refs
/-!
What a variable of C++ code promises.
-/
namespace Spec
open Jnivm

/-- The step names no hidden owner.  C++ code cannot do so, as it never gets to see one. -/
def Honest (s : CppState) : CppOp → Prop
  | .jni (.deleteGlobalRef (some g)) => ∀ x, s.vars x ≠ some g
  | _ => True

/-- States that programs get into. -/
inductive PtrsReachable : CppState → Prop where
  | start : PtrsReachable CppState.initial
  | step {s s' t op out} : PtrsReachable s → Honest s op → op.run s t = .ok (s', out) → PtrsReachable s'

/-- The variable `x` holds this object, or null. -/
def CppHolds (s : CppState) (x : Nat) (o : Option Nat) : Prop := Denotes s.heap (s.vars x) o

/-- The step assigns to `x`. -/
def AssignsTo (x : Nat) : CppOp → Prop
  | .resolve y _ | .assign y _ | .reset y => y = x
  | _ => False

/-- Every step of a history satisfies a condition on the state in which it is made. -/
def AlongCpp (P : CppState → Nat → CppOp → Prop) : CppState → List (Nat × CppOp) → Prop
  | _, [] => True
  | s, (t, op) :: ops => P s t op ∧ ∀ s' out, op.run s t = .ok (s', out) → AlongCpp P s' ops

end Spec
