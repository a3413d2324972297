import Verif.Model.Proxy
import Verif.Model.LocalFrame
import Verif.Model.CppArrays
/-!
`FakeJni::Jvm::start`, src/fake-jni/fake-jni.cpp:112-122.

The classes are given in the order of the container, which is unspecified, each as the class in the tables of
the VM and as object.  The loop does not change the container before `main` runs, and afterwards it is not
continued.  The argument is already converted, as in `Vm.invokeProxy`.  A `main` that detaches its thread counts
as undefined (see `Model/LocalFrame.lean`).
-/
namespace Jnivm

/-- The destructors of a `LocalFrame` at the end of a block, reached normally or by an exception. -/
def Vm.leaving {α : Type} (t : Nat) (made : Bool) : Outcome Vm α → Outcome Vm α
  | .returns vm a => match vm.heap.leaveFrame t made with
    | .ok h => .returns { vm with heap := h } a
    | .throws _ => .aborts
    | .ub u => .ub u
    | .diverges => .diverges
  | .raises vm e => match vm.heap.leaveFrame t made with
    | .ok h => .raises { vm with heap := h } e
    | .throws _ => .aborts
    | .ub u => .ub u
    | .diverges => .diverges
  | o => o

/-- The body of the loop, src/fake-jni/fake-jni.cpp:116-121, for class `c` with the object `k`; `true` if
`main` ran. -/
def Vm.startOn (natives : NativeCode) (code : Nat → Hook) (t depth : Nat) (vm : Vm) (c k : Nat)
    (args : List (BitVec 64)) : Outcome Vm Bool :=
  Outcome.lift vm (vm.heap.enterFrame t true) fun (h, made) =>
    Vm.leaving t made <|
      Outcome.lift { vm with heap := h } (vm.world.getMethod depth c mainSig mainName) fun (w, p) =>
      Outcome.lift { world := w, heap := h } p.toMethod fun
        | none => .returns { world := w, heap := h } false
        | some _ => (Vm.invokeProxy natives code t { world := w, heap := h } p (.cls k) args).andThen
            fun vm _ => .returns vm true

/-- `Jvm::start`, src/fake-jni/fake-jni.cpp:112-122. -/
def Vm.start (natives : NativeCode) (code : Nat → Hook) (t depth : Nat) (args : List (BitVec 64)) (vm : Vm) :
    List (Nat × Nat) → Outcome Vm Unit
  | [] => .raises vm .runtimeError
  | (c, k) :: cs => (vm.startOn natives code t depth c k args).andThen fun vm found =>
      if found then .returns vm () else Vm.start natives code t depth args vm cs

/-- The argument of `Jvm::start()` without arguments, src/fake-jni/fake-jni.cpp:106-110: a new array of one element,
to which the string is assigned.  `text` is the string object made for "main". -/
def startArguments {α : Type} (s : CppArrays α) (text : α) : Res (CppArrays α × Nat) :=
  (s.ofLength 1).bind fun (s, a) => (s.set a 0 text).bind fun s => .ok (s, a)

/-- `createMainMethod`, src/fake-jni/fake-jni.cpp:184-193, after the class "fakejni/impl/createMainMethod" was found as
`c`: a static function `main` is hooked.  The signature is the one that `HookSig` gives for an array of strings. -/
def World.createMain (w : World) (c f : Nat) : World := w.hookMethod c true mainName mainSig f

end Jnivm
