import Verif.Spec.Arrays
/-! What may happen to a primitive array over a history. -/
namespace Spec
open Jnivm

/-- The operation is no request to change array `a`, whose elements are in allocation `b`: it does not set a region
of it, destroy it, or write through a pointer to its elements. -/
def LeavesArray (a b : Nat) : ArrayOp → Prop
  | .setRegion _ x _ _ _ => x ≠ some a
  | .getRegion _ _ _ _ buf => ∀ p, buf = some p → p.block ≠ b
  | .write q _ => ∀ p, q = some p → p.block ≠ b
  | .destroy x => x ≠ a
  | _ => True

end Spec
