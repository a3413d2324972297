import Verif.Model.Guards
import Verif.Spec.TypedArrays
/-!
What C++ code may rely on when it uses the elements of object arrays.
-/
namespace Spec
open Jnivm

/-- The state occurs in some program. -/
def ElemsReachable (h : CppHier) (std17 : Bool) (s : Elems) : Prop :=
  ∃ n cs, runElems h std17 (.start n) cs = some s

/-- Element `i` of array `a` is `x`. -/
def ElementIs (s : Elems) (a i : Nat) (x : Option Nat) : Prop :=
  ∃ arr, s.arrays[a]? = some arr ∧ arr.cells[i]? = some x

/-- Array `a` may be seen as an array of `view`: its element type is `view` or directly derived from it. -/
def SeenAs (h : CppHier) (s : Elems) (a view : Nat) : Prop :=
  ∃ arr, s.arrays[a]? = some arr ∧ (view = arr.elem ∨ view ∈ h.bases arr.elem)

/-- An object of that type may be an element of array `a`. -/
def Fits (h : CppHier) (s : Elems) (a ty : Nat) : Prop :=
  ∃ arr, s.arrays[a]? = some arr ∧ Derives h.bases ty arr.elem

/-- The statement assigns to element `i` of array `a`. -/
def AssignsElement (a : Nat) (i : Int) : ElemStmt → Prop
  | .assign a' _ i' _ => a' = a ∧ i' = i
  | .assignPtr a' _ i' _ _ => a' = a ∧ i' = i
  | .assignRef a' _ i' _ _ => a' = a ∧ i' = i
  | _ => False

/-- Nothing but element `i` of array `a` differs in the variables and arrays. -/
structure OnlyElement (a i : Nat) (s s' : Elems) : Prop where
  vars : s'.vars = s.vars
  types : ∀ b : Nat, (s'.arrays[b]?).map TypedArray.elem = (s.arrays[b]?).map TypedArray.elem
  others : ∀ b j, ¬ (b = a ∧ j = i) → ∀ x, ElementIs s' b j x ↔ ElementIs s b j x

/-- The objects from before are the same, but managed objects that nothing points to any more are gone. -/
structure OnlyReleased (s s' : Elems) : Prop where
  kept : ∀ p o, p < s.next → s'.objs p = some o → s.objs p = some o
  gone : ∀ p o, s.objs p = some o → s'.objs p = none → o.managed = true ∧ s'.held p = false

end Spec
