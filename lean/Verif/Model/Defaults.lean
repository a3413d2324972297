import Verif.Model.Baron
import Verif.Model.MemberOps

/-!
The results of calls and field reads that nothing implements, in a build with
`JNIVM_ENABLE_RETURN_NON_ZERO`: `defaultVal`, src/jnivm/internal/method.cpp:86-166.
-/
namespace Jnivm

/-- The classes of a VM with their `Instantiate` functions, include/jnivm/class.h:29, given by the
C++ type they make, and the keys of `VM::typecheck`. -/
structure Makers where
  world : World
  inst : Nat → Option Nat
  bound : List Nat

/-- No type has a class yet.  The classes that `VM::initialize` looks for are in `World.initial`. -/
def Makers.initial : Makers := ⟨World.initial, fun _ => none, []⟩

/-- `GetClass<T>(name)`, include/jnivm/env.h:87-93, for the C++ type `t`; `makes` says whether
the type is default constructible, include/jnivm/env.h:54-72. -/
def Makers.bind (m : Makers) (t : Nat) (name : Str) (bases : List (Option Nat)) (makes : Bool) :
    Res Makers :=
  match m.world.bindType t name bases with
  | (w, some c) =>
    .ok ⟨w, fun d => if d = c then (if makes then some t else none) else m.inst d, t :: m.bound⟩
  | (_, none) => .ub .nullDeref

/-- Which function the `FindClass` entry of the `JNIEnv` is: the one that makes up classes, the one
of fake-jni that does not, or the one of Baron. -/
inductive Finder where
  | create
  | known
  | baron (d : Deny)

/-- `FindClass`, src/jnivm/internal/findclass.cpp:7-98, src/baron/jvm.cpp:24-33. -/
def Finder.find : Finder → Registry → Str → Registry × Option Nat
  | .create, r, n => findClass false r n
  | .known, r, n => findClass true r n
  | .baron d, r, n => d.findClass r n

/-- What was made: an empty array of a primitive type, an empty array of references, an object of
a C++ type by its `Instantiate`, or a plain `Object` for a class without a C++ type. -/
inductive MadeKind where
  | prims (letter : Char)
  | refs
  | cpp (t : Nat)
  | dummy
deriving DecidableEq, Repr

/-- The object that is returned: what it is and its `clazz`. -/
structure Made where
  kind : MadeKind
  clazz : Option Nat
deriving DecidableEq, Repr

/-- `&signature[signature.find_last_of(")") + 1]`, src/jnivm/internal/method.cpp:95-96; the whole
text if there is no `)`. -/
def resultText (sig : Str) : Str := (sig.reverse.takeWhile (· ≠ ')')).reverse

def Makers.setReg (m : Makers) (r : Registry) : Makers := { m with world := { m.world with reg := r } }

/-- `New*Array(0)`, src/jnivm/internal/array.cpp:30-34. -/
def Makers.newPrims (m : Makers) (letter : Char) : Makers × Made :=
  match findClass false m.world.reg ['[', letter] with
  | (r, c) => (m.setReg r, ⟨.prims letter, c⟩)

/-- `NewObjectArray(0, FindClass(name), nullptr)`, src/jnivm/internal/method.cpp:118,
src/jnivm/internal/array.cpp:9-23: the class is dereferenced. -/
def Makers.newRefs (f : Finder) (m : Makers) (name : Str) : Res (Makers × Made) :=
  match f.find m.world.reg name with
  | (_, none) => .ub .nullDeref
  | (r, some c) =>
    match r.cls[c]? with
    | none => .ub .dangling
    | some cd =>
      let n := if cd.nativeprefix.head? = some '[' then '[' :: cd.nativeprefix
        else '[' :: 'L' :: (cd.nativeprefix ++ [';'])
      match findClass false r n with
      | (r, c) => .ok (m.setReg r, ⟨.refs, c⟩)

/-- The branch for classes, src/jnivm/internal/method.cpp:126-156; `Instantiate` gives the object the
class of its type, include/jnivm/env.h:63-70.  The object has a class then, so `ToJNIReturnType`
leaves it alone. -/
def Makers.newObject (m : Makers) (name : Str) : Res (Makers × Option Made) :=
  match findClass false m.world.reg name with
  | (_, none) => .ub .nullDeref
  | (r, some c) =>
    .ok (m.setReg r,
      match m.inst c with
      | some t => some ⟨.cpp t, m.world.types t⟩
      | none => if m.bound.any fun t => m.world.types t == some c then none else some ⟨.dummy, some c⟩)

/-- `defaultVal<jobject>(env, signature)` in a build with `JNI_RETURN_NON_ZERO`,
src/jnivm/internal/method.cpp:92-166. -/
def Makers.default (f : Finder) (m : Makers) (sig : Str) : Res (Makers × Option Made) :=
  match resultText sig with
  | '[' :: 'L' :: rest =>
    (m.newRefs f (if rest.getLast? = some ';' then rest.dropLast else '[' :: 'L' :: rest)).bind
      fun (m, x) => .ok (m, some x)
  | '[' :: '[' :: rest =>
    (m.newRefs f ('[' :: '[' :: rest)).bind fun (m, x) => .ok (m, some x)
  | '[' :: l :: _ =>
    if l ∈ ['B', 'S', 'C', 'I', 'J', 'F', 'D'] then
      match m.newPrims l with
      | (m, x) => .ok (m, some x)
    else .ok (m, none)
  | 'L' :: rest =>
    if rest.getLast? = some ';' then m.newObject rest.dropLast else .ok (m, none)
  | _ => .ok (m, none)

/-- Everything that changes classes: the operations of `MemOp` other than `GetClass<T>`, which has
`bind` here, and default results. -/
inductive MakerOp where
  | mem (op : MemOp)
  | bind (t : Nat) (name : Str) (bases : List (Option Nat)) (makes : Bool)
  | default (f : Finder) (sig : Str)

def MakerOp.run (m : Makers) : MakerOp → Res Makers
  | .mem (.bindType t n bs) => m.bind t n bs false
  | .mem op => (op.run m.world).bind fun w => .ok { m with world := w }
  | .bind t n bs b => m.bind t n bs b
  | .default f sig => (m.default f sig).bind fun p => .ok p.1

/-- Run a history. -/
def runMakers : Makers → List MakerOp → Res Makers
  | m, [] => .ok m
  | m, op :: ops => (op.run m).bind fun m => runMakers m ops

/-- `VM::initialize`, src/jnivm/vm.cpp:525-536; the types are numbered in this order.  `ByteBuffer` has
no default constructor, include/jnivm/bytebuffer.h:8. -/
def initializeOps : List MakerOp :=
  [.bind 0 "java/lang/Object".toList [none] true,
   .bind 1 "java/lang/Class".toList [none] true,
   .bind 2 "java/lang/String".toList [none] true,
   .bind 3 "java/nio/ByteBuffer".toList [none] false,
   .bind 4 "java/lang/Throwable".toList [none] true,
   .bind 5 "java/lang/reflect/Method".toList [none] true,
   .bind 6 "java/lang/reflect/Field".toList [none] true,
   .bind 7 "java/lang/ref/WeakReference".toList [some 0] true,
   .bind 8 "internal/lang/Global".toList [some 0] true]

end Jnivm
