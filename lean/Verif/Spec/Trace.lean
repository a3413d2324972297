import Verif.Spec.Calls
/-! What printing may leave behind, said on the state only. -/
namespace Spec
open Jnivm

/-- The object is one whose class can be printed: it exists, and its class, if any, is a class of the VM. -/
def Printable (vm : Vm) (obj : Option Nat) : Prop :=
  (∃ c, ClassIs vm obj c) ∨
    ∃ i o, Denotes vm.heap obj (some i) ∧ vm.heap.objs i = some o ∧ o.cls = none

/-- The owner of a field is an object whose class can be printed, or a class or null given as class. -/
def PrintableOwner (vm : Vm) : Owner → Prop
  | .obj o => Printable vm o
  | .cls c => c = none ∨ ∃ k, IsClassRef vm c k

/-- The class of the owner has been asked for: at most a local reference to it was added. -/
def Printed (t : Nat) (vm vm' : Vm) : Owner → Prop
  | .obj o => AfterGetClass t o vm vm'
  | .cls _ => vm' = vm

/-- The two heaps differ in the local references of thread `t` only: its innermost frame has grown by `l`.
Every object exists before and after and is of the same kind. -/
structure OnlyLocals (t : Nat) (l : List Nat) (h h' : Heap) : Prop where
  frames : ∀ e, h.envs t = some e → ∃ f fs, e.frames = f :: fs ∧ h'.envs t = some { e with frames := (f ++ l) :: fs }
  others : ∀ u, u ≠ t → h'.envs u = h.envs u
  globals : h'.globals = h.globals
  live : ∀ i, (h'.objs i).map (·.kind) = (h.objs i).map (·.kind)
  classes : h'.classes = h.classes

end Spec
