import Verif.Model.Heap
/-!
The invocation interface: the five functions in the table of a `JavaVM`, src/jnivm/vm.cpp:459-513, and
`GetVersion`, src/jnivm/vm.cpp:18-20.  Threads, environments and objects are those of `Heap`; an environment
is named by its number.  The build is the default one, with `EnableJNIVMGC`.
-/
namespace Jnivm

/-- What a function of the table gives back: the returned code and the environment it wrote to `*penv`,
`none` if it wrote nothing. -/
structure InvAnswer where
  code : Int
  env : Option Nat
deriving DecidableEq, Repr

/-- A call of a function of the table.  `penv` tells whether the pointer is not null. -/
inductive InvCall where
  | destroyJavaVM
  | attachCurrentThread (penv : Bool)
  | detachCurrentThread
  | getEnv (penv : Bool) (version : Int)
  | attachCurrentThreadAsDaemon (penv : Bool)
deriving DecidableEq, Repr

/-- An entry `AttachCurrentThread` of a table; the table may be overridden, src/jnivm/vm.cpp:554-563.  The
argument `args` is ignored by the entry the VM makes and left out. -/
abbrev AttachEntry := Heap → Nat → Bool → Res (Heap × InvAnswer)

/-- The entry `AttachCurrentThread` that the VM makes, src/jnivm/vm.cpp:468-486. -/
def attachEntry : AttachEntry := fun h t penv =>
  .ok ((h.attach t).1.collect, ⟨0, if penv then some (h.attach t).2 else none⟩)

/-- The entry `DetachCurrentThread`, src/jnivm/vm.cpp:487-498: erasing the entry destroys the environment and
with it what only its references held. -/
def detachEntry (h : Heap) (t : Nat) : Res (Heap × InvAnswer) := .ok ((h.detach t).collect, ⟨0, none⟩)

/-- The entry `GetEnv`, src/jnivm/vm.cpp:499-509, `attach` being the entry `AttachCurrentThread` of the same
table. -/
def getEnvEntry (attach : AttachEntry) (h : Heap) (t : Nat) (penv : Bool) (_version : Int) :
    Res (Heap × InvAnswer) :=
  if penv then attach h t true else .ok (h, ⟨0, none⟩)

/-- A call by thread `t` of the functions that the VM makes, except that the entry `AttachCurrentThread` is
`attach`: src/jnivm/vm.cpp:464-512. -/
def invokeVm (attach : AttachEntry) (h : Heap) (t : Nat) : InvCall → Res (Heap × InvAnswer)
  | .destroyJavaVM => .ok (h, ⟨0, none⟩)
  | .attachCurrentThread penv => attach h t penv
  | .detachCurrentThread => detachEntry h t
  | .getEnv penv version => getEnvEntry attach h t penv version
  | .attachCurrentThreadAsDaemon penv => attach h t penv

/-- What threads do: they call functions of the `JavaVM` or of their environment.  Attaching and detaching are
among the former. -/
inductive VmStep where
  | vm (c : InvCall)
  | env (op : HeapOp)

/-- Calls of any number of threads in turn, with the table that the VM makes. -/
def runVm (h : Heap) : List (Nat × VmStep) → Res Heap
  | [] => .ok h
  | (t, .vm c) :: l => (invokeVm attachEntry h t c).bind fun r => runVm r.1 l
  | (t, .env op) :: l => (op.run h t).bind fun r => runVm r.1 l

/-- `GetVersion`, src/jnivm/vm.cpp:18-20: `JNI_VERSION_1_6`. -/
def getVersion : Int := 0x00010006

end Jnivm
