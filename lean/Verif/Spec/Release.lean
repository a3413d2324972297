import Verif.Model.Release
/-! Texts that `Declare` reads to their end, and the names and texts in a client's program. -/
namespace Spec
open Jnivm

/-- Every `L` that starts a class name is followed by a `;`, behind which the text goes on. -/
inductive Closed : List Char → Prop where
  | nil : Closed []
  | other {c : Char} {s : List Char} : c ≠ 'L' → Closed s → Closed (c :: s)
  | cls {name s : List Char} : ';' ∉ name → Closed s → Closed ('L' :: (name ++ ';' :: s))

/-- The signatures and types in an operation are closed and class names have no `;`. -/
def Readable : ClientOp → Prop
  | .getMethodID _ _ _ _ cl _ sig => Closed sig ∧ ∀ n, cl = some n → ';' ∉ n
  | .getFieldID _ _ _ _ _ type => Closed type
  | _ => True

/-- The class names in an operation. -/
def namesIn : ClientOp → List Str
  | .findClass n => [n]
  | .getMethodID _ _ _ _ cl _ _ => cl.toList
  | .getFieldID _ _ _ cl _ _ => cl.toList
  | .hookMethod cl _ _ _ _ => [cl]
  | .hookField cl _ _ _ _ _ => [cl]
  | .registerNatives cl _ => cl.toList
  | .unregisterNatives cl => cl.toList
  | .bindType _ n _ => [n]
  | .isAssignableFrom _ c1 c2 => c1.toList ++ c2.toList
  | .getSuperclass cl => [cl]

/-- The answers a client gets from a fresh VM of this build. -/
def answers (b : Build) (prog : List ClientOp) : Res (List ClientAnswer) :=
  (b.run b.start prog).bind fun p => .ok p.2

end Spec
