import Verif.Model.Table
import Verif.Spec.Table
/-! What the member functions of `JNIEnv` and `JavaVM` are to do, chapter 4 of the JNI specification: in C++,
`env->F(a, b)` is `(*env)->F(env, a, b)`. -/
namespace Spec
open Jnivm

/-- Does the function take further arguments? -/
def Variadic (fn : CFn) : Prop := CTy.dots ∈ fn.params

instance (fn : CFn) : Decidable (Variadic fn) := by unfold Variadic; infer_instance

/-- The number of its named parameters. -/
def namedCount (fn : CFn) : Nat := (fn.params.filter (· ≠ .dots)).length

/-- A call has one argument for each named parameter, and perhaps more. -/
def Accepts {α : Type} (fn : CFn) (args : List α) : Prop :=
  if Variadic fn then namedCount fn ≤ args.length else args.length = namedCount fn

instance {α : Type} (fn : CFn) (args : List α) : Decidable (Accepts fn args) := by
  unfold Accepts; infer_instance

/-- The entry for a member function: the one of its name; further arguments are passed as a `va_list`, which
the entry with a V takes. -/
def entryName (name : String) (fn : CFn) : String := if Variadic fn then name ++ "V" else name

/-- The arguments of the entry. -/
def passedOn {α : Type} (self : α) (va : List α → α) (fn : CFn) (args : List α) : List α :=
  self :: (args.take (namedCount fn) ++ if Variadic fn then [va (args.drop (namedCount fn))] else [])

/-- The type of the entry. -/
def entryType (self : CTy) (fn : CFn) : CFn :=
  ⟨fn.ret, self :: fn.params.map fun t => if t = .dots then .vaList else t⟩

/-- A function that returns nothing. -/
def IsVoid (fn : CFn) : Prop := fn.ret = .val .void

instance (fn : CFn) : Decidable (IsVoid fn) := by unfold IsVoid; infer_instance

end Spec
