import Verif.Model.Defaults
import Verif.Spec.Descriptor

/-!
What a call that nothing implements should return, in terms of the types that were given to the VM.
-/
namespace Spec
open Jnivm

/-- A C++ type was given a class name, and can be made without arguments or not. -/
structure Given where
  type : Nat
  name : List Char
  makes : Bool
deriving DecidableEq, Repr

/-- The types that a history gives to the VM, in this order. -/
def givens : List MakerOp → List Given
  | [] => []
  | .bind t n _ b :: ops => ⟨t, n, b⟩ :: givens ops
  | .mem (.bindType t n _) :: ops => ⟨t, n, false⟩ :: givens ops
  | _ :: ops => givens ops

/-- The last type that was given the name. -/
def lastGiven (gs : List Given) (n : List Char) : Option Given :=
  gs.reverse.find? (·.name == n)

/-- The name that the type was given last. -/
def nameOf (gs : List Given) (t : Nat) : Option (List Char) :=
  (gs.reverse.find? (·.type == t)).map (·.name)

/-- README.md:23: an object of the type with this name if it can be made, a plain object for a
class without a type, an empty array for arrays, nothing for primitive types. -/
def wanted (gs : List Given) : Option Ty → Option (MadeKind × List Char)
  | none => none
  | some (.prim _) => none
  | some (.arr (.prim p)) => some (.prims p.letter, (Ty.arr (.prim p)).render)
  | some (.arr t) => some (.refs, (Ty.arr t).render)
  | some (.cls n) =>
    match lastGiven gs n with
    | none => some (.dummy, n)
    | some g => if g.makes then some (.cpp g.type, n) else none

/-- No type was given two names. -/
def OneName (gs : List Given) : Prop := ∀ g ∈ gs, ∀ g' ∈ gs, g.type = g'.type → g.name = g'.name

instance (gs : List Given) : Decidable (OneName gs) := inferInstanceAs (Decidable (∀ _ ∈ _, _))

/-- The signature of a method with this result, or the type of a field. -/
def Returns (sig : List Char) (ret : Option Ty) : Prop :=
  sig = renderRet ret ∨ ∃ ps, sig = renderSig ps ret

/-- A class name without closing parenthesis that is not the name of an array class. -/
def ElemName (n : List Char) : Prop := ')' ∉ n ∧ n.head? ≠ some '['

instance (n : List Char) : Decidable (ElemName n) := inferInstanceAs (Decidable (_ ∧ _))

/-- All class names in the type are plain. -/
def ElemNames : Ty → Prop
  | .prim _ => True
  | .cls n => ElemName n
  | .arr t => ElemNames t

instance : (t : Ty) → Decidable (ElemNames t)
  | .prim _ => .isTrue trivial
  | .cls n => inferInstanceAs (Decidable (ElemName n))
  | .arr t => instDecidableElemNames t

/-- `defaultVal` makes neither arrays of booleans nor, with the right class, arrays of arrays. -/
def Makeable : Ty → Prop
  | .arr (.prim .boolean) => False
  | .arr (.arr _) => False
  | _ => True

instance : DecidablePred Makeable := fun t => by unfold Makeable; split <;> infer_instance

/-- The returned reference is null or to an object of this kind whose class has this name. -/
def MadeAs (w : World) (r : Option Made) : Option (MadeKind × List Char) → Prop
  | none => r = none
  | some (k, n) => ∃ x c, r = some x ∧ x.kind = k ∧ x.clazz = some c ∧ w.IsClass n c

/-- `FindClass(n)` returns a class: any, a known one, or one that is known or not denied. -/
def Allows (f : Finder) (w : World) (n : List Char) : Prop :=
  match f with
  | .create => True
  | .known => ∃ c, w.IsClass n c
  | .baron d => (∃ c, w.IsClass n c) ∨ n ∉ d.classes

/-- Nothing but new classes: members, types and the functions that make objects are the same. -/
structure OnlyFound (m m' : Makers) : Prop where
  inst : m'.inst = m.inst
  bound : m'.bound = m.bound
  types : m'.world.types = m.world.types
  mem : m'.world.mem = m.world.mem
  loose : m'.world.loose = m.world.loose
  next : m'.world.next = m.world.next
  keep : ∀ n c, m.world.IsClass n c → m'.world.IsClass n c

end Spec
