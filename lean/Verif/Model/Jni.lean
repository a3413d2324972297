import Verif.Model.Calls
import Verif.Model.Release
/-!
JNI calls as a client makes them: on threads, and with classes given as references.  The state joins the
tables of `World` and the objects of `Heap` (`Vm`, Model/Calls.lean).

A class is one C++ object.  Here it is an entry of the registry and an object of the heap, which belong
together by name; the object is made when the class is found by its name or given to a C++ type for
the first time, which no client can see.  FindClass is that of a plain VM, which makes up classes.
-/
namespace Jnivm

/-- The VM after its constructor, src/jnivm/vm.cpp:514-536. -/
def Vm.initial : Vm := ⟨World.initial, Heap.initial⟩

/-- `InternalFindClass` enters a new class into the registry and makes its object,
src/jnivm/internal/findclass.cpp:7-100: the registry finds every class that has an object, the oldest
ones first. -/
def Vm.sync (vm : Vm) : Vm :=
  { vm with world := { vm.world with
      reg := vm.heap.classes.foldr (fun x r => (findClass false r x.1).1) vm.world.reg } }

/-- A call of Model/Heap.lean. -/
def Vm.heapCall (vm : Vm) (t : Nat) (op : HeapOp) : Res (Vm × Out) :=
  (op.run vm.heap t).bind fun (h, out) => .ok (Vm.sync { vm with heap := h }, out)

/-- A call of a client.  `heap` is a call that gets no class and no member.  `cpp` is what C++ code does that
has hold of a class by its name, like registering hooks and types. -/
inductive JniOp where
  | heap (op : HeapOp)
  | getMethodID (depth : Nat) (isStatic returnNull allowNative : Bool) (cl : Option Nat) (name sig : Str)
  | getFieldID (depth : Nat) (isStatic returnNull : Bool) (cl : Option Nat) (name type : Str)
  | registerNatives (cl : Option Nat) (l : List NativeMethod)
  | unregisterNatives (cl : Option Nat)
  | isAssignableFrom (depth : Nat) (cl1 cl2 : Option Nat)
  | isInstanceOf (depth : Nat) (obj cl : Option Nat)
  | getSuperclass (cl : Option Nat)
  | cpp (op : ClientOp)

/-- What a call returns. -/
inductive JniAnswer where
  | out (o : Out)
  | client (a : ClientAnswer)
deriving DecidableEq, Repr

/-- The classes C++ code gets hold of as objects: `ENV::GetClass`, src/jnivm/env.cpp:17-19, and
`ENV::GetClass<T>`, include/jnivm/env.h:87-93. -/
def ClientOp.makes : ClientOp → Option Str
  | .findClass n => some n
  | .bindType _ n _ => some n
  | _ => none

/-- `IsAssignableFrom`, src/jnivm/vm.cpp:72-74.  C++ does not say which argument is converted first; here it
is the first one. -/
def Vm.assignable (vm : Vm) (depth : Nat) (cl1 cl2 : Option Nat) : Res (Vm × JniAnswer) :=
  (vm.castClass cl1).bind fun (vm, c1) =>
  (vm.castClass cl2).bind fun (vm, c2) =>
  (vm.world.isAssignableFrom depth c1 c2).bind fun b => .ok (vm, .client (.bool b))

/-- `GetMethodID` etc., src/jnivm/internal/method.cpp:8-84; `GetFieldID` etc.,
src/jnivm/internal/field.cpp:11-70; `RegisterNatives` and `UnregisterNatives`, src/jnivm/vm.cpp:255-294;
`IsInstanceOf`, src/jnivm/vm.cpp:244-246; `GetSuperclass`, src/jnivm/vm.cpp:55-58, which returns the address
of the class without a local reference. -/
def JniOp.body (vm : Vm) (t : Nat) : JniOp → Res (Vm × JniAnswer)
  | .heap op => (vm.heapCall t op).bind fun (vm, o) => .ok (vm, .out o)
  | .getMethodID d s r a cl n sig =>
    (vm.castClass cl).bind fun (vm, c) =>
    (vm.world.getMethodID d s (r || a) a c n sig).bind fun (w, id) =>
      .ok ({ vm with world := w }, .client (.member id))
  | .getFieldID d s r cl n ty =>
    (vm.castClass cl).bind fun (vm, c) =>
    (vm.world.getFieldID d s r c n ty).bind fun (w, id) =>
      .ok ({ vm with world := w }, .client (.member id))
  | .registerNatives cl l =>
    (vm.castClass cl).bind fun (vm, c) =>
      .ok ({ vm with world := vm.world.registerNatives c l }, .client .unit)
  | .unregisterNatives cl =>
    (vm.castClass cl).bind fun (vm, c) =>
      .ok ({ vm with world := vm.world.unregisterNatives c }, .client .unit)
  | .isAssignableFrom d c1 c2 => vm.assignable d c1 c2
  | .isInstanceOf d obj cl =>
    match obj with
    | none => .ok (vm, .client (.bool false))
    | some o => (vm.heapCall t (.getObjectClass (some o))).bind fun (vm, out) =>
      match out with
      | .ref c => vm.assignable d c cl
      | _ => .ub .dangling
  | .getSuperclass cl =>
    (vm.castClass cl).bind fun (vm, c) => onClass c fun c =>
    (vm.world.getSuperclass c).bind fun b =>
      match vm.world.nameOf b with
      | none => .ok (vm, .out (.ref none))
      | some n => (vm.heapCall t (.classObject n)).bind fun (vm, o) => .ok (vm, .out o)
  | .cpp op =>
    (op.run .debug vm.world).bind fun (w, a) =>
      match op.makes with
      | none => .ok ({ vm with world := w }, .client a)
      | some n => (Vm.heapCall { vm with world := w } t (.classObject n)).bind fun (vm, _) => .ok (vm, .client a)

/-- Attaching and detaching need no `JNIEnv`. -/
def JniOp.needsEnv : JniOp → Bool
  | .heap op => op.needsEnv
  | _ => true

/-- One call on thread `t`. -/
def JniOp.run (vm : Vm) (t : Nat) (op : JniOp) : Res (Vm × JniAnswer) :=
  if op.needsEnv && (vm.heap.envs t).isNone then .ub .dangling else op.body vm t

/-- A history of calls and its answers. -/
def runJni : Vm → List (Nat × JniOp) → Res (Vm × List JniAnswer)
  | vm, [] => .ok (vm, [])
  | vm, (t, op) :: ops =>
    (op.run vm t).bind fun p => (runJni p.1 ops).bind fun q => .ok (q.1, p.2 :: q.2)

end Jnivm
