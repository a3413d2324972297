import Verif.Spec.Calls
/-! What `NewObject` has to do, said on the states before and after the call only. -/
namespace Spec
open Jnivm

/-- Thread `t` has made one new object `i` of class `c` and got a local reference to it in its innermost frame;
nothing else has changed. -/
structure MadeObject (t : Nat) (vm vm' : Vm) (i c : Nat) : Prop where
  fresh : ¬ Live vm.heap i
  cls : ClassIs vm' (some i) c
  self : Denotes vm'.heap (some i) (some i)
  world : vm'.world = vm.world
  classes : vm'.heap.classes = vm.heap.classes
  globals : vm'.heap.globals = vm.heap.globals
  old : ∀ j, j ≠ i → vm'.heap.objs j = vm.heap.objs j
  frame : ∃ e f fs, vm.heap.envs t = some e ∧ e.frames = f :: fs ∧
    vm'.heap.envs t = some { e with frames := (f ++ [i]) :: fs }
  others : ∀ u, u ≠ t → vm'.heap.envs u = vm.heap.envs u

end Spec
