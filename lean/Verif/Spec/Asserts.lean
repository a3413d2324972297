import Verif.Model.Asserts
import Verif.Spec.Hierarchy
/-!
The hierarchy of classes as declared by the C++ types of a program.
-/
namespace Spec
open Jnivm

/-- A C++ type was given to the VM under a class name; its base types (`none` for the base list of
`Object`). -/
structure Declared where
  type : Nat
  name : List Char
  bases : List (Option Nat)
deriving DecidableEq, Repr

/-- The types that a history gives to the VM. -/
def declareds : List MemOp → List Declared
  | [] => []
  | .bindType t n bs :: ops => ⟨t, n, bs⟩ :: declareds ops
  | _ :: ops => declareds ops

/-- Type `u` is a base of type `t`. -/
def TypeBase (ds : List Declared) (t u : Nat) : Prop := ∃ d ∈ ds, d.type = t ∧ some u ∈ d.bases

/-- Type `u` is `t` or a direct or indirect base of it. -/
inductive TypeSuper (ds : List Declared) : Nat → Nat → Prop
  | refl (t : Nat) : TypeSuper ds t t
  | step {t u v : Nat} : TypeBase ds t u → TypeSuper ds u v → TypeSuper ds t v

/-- A type has one class, a class has one type. -/
def OneToOne (ds : List Declared) : Prop :=
  ∀ d ∈ ds, ∀ e ∈ ds, d.type = e.type ∨ d.name = e.name → d = e

instance (ds : List Declared) : Decidable (OneToOne ds) := inferInstanceAs (Decidable (∀ _ ∈ _, _))

/-- Every base type was given to the VM too, before or after. -/
def BasesGiven (ds : List Declared) : Prop :=
  ∀ d ∈ ds, ∀ t, some t ∈ d.bases → ∃ e ∈ ds, e.type = t

/-- No C++ type is its own base. -/
def TypesAcyclic (ds : List Declared) : Prop :=
  ∃ rank : Nat → Nat, ∀ t u, TypeBase ds t u → rank u < rank t

/-- Base types are given before the types that extend them; `seen` were given already. -/
def BasesFirst (seen : List Nat) : List Declared → Prop
  | [] => True
  | d :: ds => (∀ o ∈ d.bases, ∀ t, o = some t → t ∈ seen) ∧ BasesFirst (d.type :: seen) ds

/-- A base type of the class was never given to the VM. -/
def Unregistered (w : World) (c : Nat) : Prop :=
  ∃ ts t, (w.mem c).bases = some ts ∧ some t ∈ ts ∧ w.types t = none

/-- Looking through the classes in this order for one that has what is looked for meets a class with an
unregistered base before that. -/
def MeetsUnregistered (w : World) (has : Nat → Prop) (order : List Nat) : Prop :=
  ∃ pre c post, order = pre ++ c :: post ∧ (∀ d ∈ pre, ¬ has d) ∧ ¬ has c ∧ Unregistered w c

end Spec
