import Verif.Model.FieldVars
import Verif.Spec.Refs
import Verif.Spec.ObjArgs
/-! What fields that are C++ variables should do. -/
namespace Spec
open Jnivm

/-- An access through the field with this object reaches the variables of `x`. -/
def OwnerIs (w : CppTypes) (h : Heap) (f : FieldVar) (obj : Option Nat) (x : Nat) : Prop :=
  match f.owner with
  | .inst c => Denotes h obj (some x) ∧ w.isa x c = true
  | .static b => x = b ∧ ∃ o vars, h.objs b = some o ∧ o.kind = .record vars

/-- What a static field is accessed with is a class or null. -/
def ClassArg (h : Heap) (f : FieldVar) (obj : Option Nat) : Prop :=
  match f.owner with
  | .inst _ => True
  | .static _ => ∃ x, Denotes h obj x ∧ ∀ i, x = some i → ∃ o n, h.objs i = some o ∧ o.kind = .cls n

/-- The size of a primitive type in bits. -/
def primSize : JType → Nat
  | .boolean | .byte => 8
  | .char | .short => 16
  | .int | .float => 32
  | .long | .double => 64
  | .object | .void => 0

/-- The value a variable has after it was set: the value itself, cut to the size of the type; a `bool` is 0 or
1. -/
def stored : VarTy → BitVec 64 → BitVec 64
  | .prim ty, b => BitVec.ofNat 64 (b.toNat % 2 ^ primSize ty)
  | .bool, b => if b.toNat % 256 = 0 then 0 else 1
  | _, b => b

/-- Which variables there are, and their types. -/
abbrev VarLayout := Nat → Nat → Option VarTy

/-- The field is hooked to a variable of its type, in every object it can be used with. -/
def Hooked (lay : VarLayout) (w : CppTypes) (f : FieldVar) : Prop :=
  match f.owner with
  | .inst c => ∀ x, w.isa x c = true → lay x f.index = some f.type
  | .static b => lay b f.index = some f.type

/-- The call is an access through a hooked field, or is not about variables. -/
def Regular (lay : VarLayout) (w : CppTypes) : VarOp → Prop
  | .get f _ _ | .set f _ _ => Hooked lay w f
  | .jni (.setVar _ _ _) => False
  | .jni _ => True

/-- Variables of type `std::shared_ptr<T>` are null or point to an instance of `T`. -/
def TypedVars (lay : VarLayout) (w : CppTypes) (s : VarHeap) : Prop :=
  ∀ x i c y, lay x i = some (.shared c) → VarIs s.heap x i (some y) → w.isa y c = true

/-- The call does not set variable `i` of `x`. -/
def KeepsField (w : CppTypes) (x i : Nat) (s : VarHeap) (op : VarOp) : Prop :=
  match op with
  | .set f obj _ => f.index = i → ¬ OwnerIs w s.heap f obj x
  | .jni (.setVar a j _) => j = i → ¬ Denotes s.heap a (some x)
  | _ => True

/-- Every call of a history satisfies a condition on the state in which it is made. -/
def AlongVars (P : VarHeap → VarOp → Prop) (w : CppTypes) : VarHeap → List (Nat × VarOp) → Prop
  | _, [] => True
  | s, (t, op) :: ops => P s op ∧ (∀ s', op.run w s t = .ok s' → AlongVars P w s' ops) ∧
      ∀ e, op.run w s t = .throws e → AlongVars P w s ops

/-- A state that a history of calls leads to. -/
def VarsReachable (w : CppTypes) (s : VarHeap) : Prop := ∃ ops, runVars w VarHeap.initial ops = .ok s

end Spec
