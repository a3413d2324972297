import Verif.Spec.Refs
/-!
What is left of the objects of a VM.
-/
namespace Spec
open Jnivm

/-- The object is `r`, or `r` owns it, directly or through others. -/
def From (h : Heap) (r i : Nat) : Prop := r = i ∨ OwnsPath h r i

/-- An object that owns itself, directly or through others, owns this one or is this one. -/
def Stuck (h : Heap) (i : Nat) : Prop := ∃ c, OwnsPath h c c ∧ From h c i

end Spec
