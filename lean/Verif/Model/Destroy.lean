import Verif.Model.Heap
/-!
The end of a VM: the implicit destructor of `VM`, include/jnivm/vm.h:34-99, and of the `ENV`s it owns.
-/
namespace Jnivm

/-- The members of the VM are destroyed: `globals`, `classes` and `typecheck` (with the methods and fields), and
`jnienvs` with local frames and pending exceptions.  C++ code may keep some objects with pointers of its own.
Simplification: if it keeps a class, the members of the class that it thereby keeps have to be given, too. -/
def Heap.dropVm (h : Heap) (kept : List Nat) : Heap :=
  { h with globals := kept, pinned := [], classes := [], envs := fun _ => none }

/-- The destructor, include/jnivm/vm.h:34-99.  The order in which the members are destroyed does not matter for
what is left at the end. -/
def Heap.destroy (h : Heap) (kept : List Nat) : Heap := (h.dropVm kept).collect

end Jnivm
