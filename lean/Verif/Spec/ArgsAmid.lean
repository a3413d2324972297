import Verif.Model.ArgsAmid
import Verif.Spec.ObjArgs
/-! What a hooked C++ function gets although other threads act while its arguments are converted. -/
namespace Spec
open Jnivm

/-- The arguments among the steps. -/
def amidArgs (steps : List AmidStep) : List (ObjParam × Option Nat) :=
  steps.filterMap fun
    | .arg p r => some (p, r)
    | .call _ _ => none

/-- Thread `t`, which is busy, makes no calls, and the global references `keep` are not deleted. -/
def OthersOnly (t : Nat) (keep : List Nat) (steps : List AmidStep) : Prop :=
  ∀ u op, .call u op ∈ steps → u ≠ t ∧ ∀ g ∈ keep, op ≠ .deleteGlobalRef (some g)

/-- Thread `t` may rely on the reference, which stands for the object `o`: it is null, a local reference of the
thread, or a global reference in `keep`. -/
inductive Secured (t : Nat) (keep : List Nat) (h : Heap) : Option Nat → Option Nat → Prop where
  | null : Secured t keep h none none
  | loc {i o} : HasLocal h t i → h.objs i = some o → (∀ x, o.kind ≠ .weak x ∧ o.kind ≠ .global x) →
      Secured t keep h (some i) (some i)
  | glob {g o i} : g ∈ keep → g ∈ h.globals → h.objs g = some o → o.kind = .global i →
      Secured t keep h (some g) (some i)

end Spec
