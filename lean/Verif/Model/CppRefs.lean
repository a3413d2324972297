import Verif.Model.Heap
/-!
References in C++ code that uses the interface of fake-jni: `Env::resolveReference`, `Env::createLocalReference`,
`Jvm::createGlobalReference` and `Object::getClass`.

The code has variables of type `std::shared_ptr<Object>`.  Such a variable owns its object.  In the model this
owner is a `Global` object that no call can name; so everything that is known about the state of
`Model/Heap.lean` stays true.  Simplification: variables are changed by attached threads only.
-/
namespace Jnivm

/-- The VM and the variables: `vars x` is the hidden owner of the object in `x`, or none if `x` is null. -/
structure CppState where
  heap : Heap
  vars : Nat → Option Nat

def CppState.initial : CppState := ⟨Heap.initial, fun _ => none⟩

inductive CppOp where
  /-- any call of the interface -/
  | jni (op : HeapOp)
  /-- `x = env.resolveReference(r)` -/
  | resolve (x : Nat) (r : Option Nat)
  /-- `x = y` -/
  | assign (x y : Nat)
  /-- `x = nullptr`, or the end of `x` -/
  | reset (x : Nat)
  /-- `vm.createGlobalReference(x)` -/
  | toGlobal (x : Nat)
  /-- `env.createLocalReference(x)` -/
  | toLocal (x : Nat)
  /-- `x->getClass()` -/
  | getClass (x : Nat)

/-- An assignment to a variable: first the new object is owned, then the old one is released. -/
def CppState.store (s : CppState) (t x : Nat) (r : Option Nat) : Res CppState :=
  ((HeapOp.newGlobalRef r).run s.heap t).bind fun (h, out) =>
  ((HeapOp.deleteGlobalRef (s.vars x)).run h t).bind fun (h, _) =>
    .ok ⟨h, fun y => if y = x then match out with | .ref g => g | _ => none else s.vars y⟩

/-- `Object::getClass`, src/fake-jni/fake-jni.cpp:175-182, with `getClassInternal`, src/jnivm/object.cpp:5-7, which
a class made by DEFINE_CLASS_NAME replaces (see `Model/Descriptor.lean`). -/
def CppState.classOf (s : CppState) (t x : Nat) : Res Nat :=
  match s.vars x with
  | none => .ub .nullDeref
  | some g =>
    match s.heap.envs t with
    | none => .throws .runtimeError
    | some _ => (s.heap.denote (some g)).bind fun
      | none => .ub .nullDeref
      | some i => match s.heap.objs i with
        | none => .ub .dangling
        | some o => match o.cls with
          | none => .throws .runtimeError
          | some c => .ok c

/-- One step of thread `t`.  `resolveReference`, src/fake-jni/fake-jni.cpp:98-100, is `JNICast`;
`createGlobalReference`, 53-55, is `NewGlobalRef` in the environment of the thread, which is null if there is none;
`createLocalReference`, include/fake-jni/fake-jni.h:111-113, is `ToJNIReturnType`. -/
def CppOp.run (s : CppState) (t : Nat) : CppOp → Res (CppState × Out)
  | jni op => (op.run s.heap t).bind fun (h, out) => .ok ({ s with heap := h }, out)
  | resolve x r => (s.store t x r).bind fun s => .ok (s, .unit)
  | assign x y => (s.store t x (s.vars y)).bind fun s => .ok (s, .unit)
  | reset x => (s.store t x none).bind fun s => .ok (s, .unit)
  | toGlobal x => match s.heap.envs t with
    | none => .ub .nullDeref
    | some _ => ((HeapOp.newGlobalRef (s.vars x)).run s.heap t).bind fun (h, out) => .ok ({ s with heap := h }, out)
  | toLocal x => ((HeapOp.returnObject (s.vars x) (some "java/lang/Object".toList)).run s.heap t).bind
      fun (h, out) => .ok ({ s with heap := h }, out)
  | getClass x => (s.classOf t x).bind fun c => .ok (s, .ref (some c))

/-- Run a history of steps, each by some thread. -/
def runCpp (s : CppState) : List (Nat × CppOp) → Res CppState
  | [] => .ok s
  | (t, op) :: ops => (op.run s t).bind fun (s, _) => runCpp s ops

end Jnivm
