import Verif.Spec.Descriptor
/-!
Java class names as `FindClass` takes them.  Independent of the model.
-/
namespace Spec

/-- `Encloses m n`: `m` is `n` or an enclosing class of `n`: `n` continues after `m` with `$`
and `m` contains the whole package part of `n`.  Array names (`[…`) enclose only themselves. -/
def Encloses (m n : List Char) : Prop :=
  m = n ∨ (n.head? ≠ some '[' ∧ ∃ inner, n = m ++ '$' :: inner ∧ '/' ∉ inner)

/-- `SimpleName n s`: `s` is the simple name of class `n`: what follows the last `/`, and for a
class (not an array) the last `$` behind it. -/
def SimpleName (n s : List Char) : Prop :=
  '/' ∉ s ∧
  if n.head? = some '[' then s = n ∨ ∃ pre, n = pre ++ '/' :: s
  else '$' ∉ s ∧ (s = n ∨ (∃ pre, n = pre ++ '/' :: s) ∨ ∃ pre, n = pre ++ '$' :: s)

/-- Class names occurring in a type. -/
def Ty.classNames : Ty → List (List Char)
  | .prim _ => []
  | .cls name => [name]
  | .arr t => t.classNames

/-- Class names occurring in a signature. -/
def sigClassNames (params : List Ty) (ret : Option Ty) : List (List Char) :=
  params.flatMap Ty.classNames ++ (ret.map Ty.classNames).getD []

end Spec
