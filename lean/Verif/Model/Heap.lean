import Verif.Model.Registry
/-!
Objects, references and threads: `shared_ptr` ownership, local frames, global and weak references,
object arrays, pending exceptions and thread attachment.

Conventions.  An object is a number that is never reused; a `jobject` is `none` (null) or such a
number, because the code hands out the address of the object.  `objs i = none` means that `i` is not
allocated (any more), so using it is undefined behaviour.  An object is released when no strong
reference is left (`Heap.collect`).  Temporaries of a running function keep objects until its end, so
releasing is the last part of every call (`HeapOp.run`).  Classes, methods and fields are kept by the VM's tables (`pinned`); the structure of
these tables is modelled in `Registry` and `Members`, here a class is just found by its name.
-/
namespace Jnivm

/-- What the modelled functions distinguish about an object by `dynamic_cast`. -/
inductive Kind where
  /-- any object without strong references to other objects (strings, primitive arrays, buffers,
  user objects) -/
  | plain
  /-- a user object with member variables of type `std::shared_ptr<Object>`, or the block of static
  variables of this type of a C++ class -/
  | record (vars : List (Option Nat))
  /-- `Weak`, include/jnivm/weak.h:8-11 -/
  | weak (target : Nat)
  /-- `Global`, include/jnivm/weak.h:13-16 -/
  | global (target : Nat)
  /-- `Array<Object>`, include/jnivm/array.h:167-191 -/
  | array (slots : List (Option Nat))
  /-- `Throwable` with its `exception_ptr`, which is null (none) in one made by hand,
  include/jnivm/throwable.h:5-8 -/
  | throwable (payload : Option Exn)
  /-- `Class` with its `nativeprefix` -/
  | cls (name : Str)
  /-- `Method` with its `_static`, include/jnivm/method.h:14-35 -/
  | method (isStatic : Bool)
  /-- `Field` with its `_static`, include/jnivm/field.h -/
  | field (isStatic : Bool)
deriving DecidableEq, Repr

/-- `Object`, include/jnivm/object.h:21-33: `cls` is the `clazz` pointer (classes never expire while
the VM exists). -/
structure Obj where
  kind : Kind
  cls : Option Nat
deriving DecidableEq, Repr

/-- The objects a `shared_ptr` member of this object points to. -/
def Kind.edges : Kind → List Nat
  | .global t => [t]
  | .array slots => slots.filterMap id
  | .record vars => vars.filterMap id
  | _ => []

/-- Is it a reference object? -/
def Kind.isWrapper : Kind → Bool
  | .weak _ => true
  | .global _ => true
  | _ => false

/-- `ENV`, include/jnivm/env.h:13-41; `frames` is `localframe` (front first), `free` is
`freeframes`, `eid` is the identity of the environment object. -/
structure Env where
  eid : Nat
  frames : List (List Nat)
  free : List (List Nat)
  pending : Option Nat
deriving DecidableEq, Repr

/-- The state of the VM as far as references are concerned.  `envs` is `jnienvs`; all attached
threads are below `nthreads`.  `nextEnv` numbers the environments. -/
structure Heap where
  objs : Nat → Option Obj
  next : Nat
  globals : List Nat
  pinned : List Nat
  classes : List (Str × Nat)
  envs : Nat → Option Env
  nthreads : Nat
  nextEnv : Nat

namespace Heap

def setObj (h : Heap) (i : Nat) (o : Obj) : Heap :=
  { h with objs := fun j => if j = i then some o else h.objs j }

def setEnv (h : Heap) (t : Nat) (e : Env) : Heap :=
  { h with envs := fun u => if u = t then some e else h.envs u }

/-- `std::make_shared` -/
def alloc (h : Heap) (o : Obj) : Heap × Nat :=
  ({ h.setObj h.next o with next := h.next + 1 }, h.next)

/-! ### Ownership -/

/-- Every `shared_ptr` that is not inside an object: `VM::globals` (include/jnivm/vm.h:65), the
tables of the VM, local frames and `current_exception` of every environment. -/
def roots (h : Heap) : List Nat :=
  h.globals ++ h.pinned ++ (List.range h.nthreads).flatMap fun t =>
    match h.envs t with
    | some e => e.frames.flatten ++ e.pending.toList
    | none => []

/-- Some `shared_ptr` points to the object. -/
def held (h : Heap) (i : Nat) : Bool :=
  h.roots.contains i || (List.range h.next).any fun j =>
    match h.objs j with
    | some o => o.kind.edges.contains i
    | none => false

/-- Release all objects without an owner. -/
def sweep (h : Heap) : Heap := { h with objs := fun i => if h.held i then h.objs i else none }

def collectN : Nat → Heap → Heap
  | 0, h => h
  | n + 1, h => collectN n h.sweep

/-- Release until every object has an owner: a released object gives up what it owns. -/
def collect (h : Heap) : Heap := collectN h.next h

/-! ### Casts -/

/-- `UnpackJObject<Object>`, include/jnivm/jnitypes.h:319-337, on a non-null pointer. -/
def unwrap (h : Heap) : Nat → Nat → Res (Option Nat)
  | 0, _ => .diverges
  | n + 1, i =>
    match h.objs i with
    | none => .ub .dangling
    | some o =>
      match o.kind with
      | .weak t => match h.objs t with
        | none => .ok none
        | some _ => h.unwrap n t
      | .global t => h.unwrap n t
      | _ => .ok (some i)

/-- `JNITypes<std::shared_ptr<Object>>::JNICast`, include/jnivm/jnitypes.h:319-337, 381-383: the
object a reference denotes. -/
def denote (h : Heap) : Option Nat → Res (Option Nat)
  | none => .ok none
  | some i => h.unwrap (h.next + 1) i

/-- `JNICast` to a type given by a test on the kind; a failing `dynamic_cast` throws,
include/jnivm/jnitypes.h:332-336. -/
def cast (h : Heap) (ok : Kind → Bool) (r : Option Nat) : Res (Option Nat) :=
  (h.denote r).bind fun
    | none => .ok none
    | some i => match h.objs i with
      | none => .ub .dangling
      | some o => if ok o.kind then .ok (some i) else .throws .badCast

/-- `UnpackJObject<Global>` and `UnpackJObject<Weak>`, include/jnivm/jnitypes.h:338-357: the
reference object itself. -/
def castWrapper (h : Heap) (ok : Kind → Bool) : Option Nat → Res (Option Nat)
  | none => .ok none
  | some i => match h.objs i with
    | none => .ub .dangling
    | some o => if ok o.kind then .ok (some i) else .throws .badCast

/-! ### Environments -/

/-- The environment behind the `JNIEnv` of thread `t`; after detaching it is destroyed. -/
def env (h : Heap) (t : Nat) : Res Env :=
  match h.envs t with
  | none => .ub .dangling
  | some e => .ok e

/-- `localframe.front().push_back(obj)` -/
def pushLocal (h : Heap) (t i : Nat) : Res Heap :=
  (h.env t).bind fun e =>
    match e.frames with
    | [] => .ub .outOfBounds
    | f :: fs => .ok (h.setEnv t { e with frames := (f ++ [i]) :: fs })

/-- `InternalFindClass`, modelled in `Registry`: find or create the class of that name. -/
def intern (h : Heap) (name : Str) : Heap × Nat :=
  match h.classes.lookup name with
  | some c => (h, c)
  | none =>
    let (h', c) := h.alloc ⟨.cls name, none⟩
    ({ h' with pinned := h'.pinned ++ [c], classes := (name, c) :: h'.classes }, c)

/-- `VM::typecheck[typeid(T)]` for a C++ type bound to a class of that name (`ENV::GetClass<T>`,
include/jnivm/env.h:87-93), as the built in types are by `VM::initialize`, src/jnivm/vm.cpp:525-536. -/
def typeClass (h : Heap) (name : Str) : Option Nat := h.classes.lookup name

/-- `JNITypesObjectBase<..>::ToJNIType` on a non-null pointer, include/jnivm/jnitypes.h:297-314:
set the class of a classless object to the class of the static type and append a local
reference. -/
def toJNI (h : Heap) (t : Nat) (staticClass : Option Nat) (i : Nat) : Res Heap :=
  match h.objs i with
  | none => .ub .dangling
  | some o =>
    let h := if o.cls.isNone then h.setObj i { o with cls := staticClass } else h
    h.pushLocal t i

/-- The same on a possibly null pointer. -/
def toJNI? (h : Heap) (t : Nat) (staticClass : Option Nat) : Option Nat → Res (Heap × Option Nat)
  | none => .ok (h, none)
  | some i => (h.toJNI t staticClass i).bind fun h => .ok (h, some i)

/-! ### Functions of the interface -/

/-- What `std::make_shared` makes for a type bound to that class: `VM::initialize` binds `Throwable` to
"java/lang/Throwable", src/jnivm/vm.cpp:531. -/
def _root_.Jnivm.Kind.made (ty : Option Str) : Kind :=
  if ty = some "java/lang/Throwable".toList then .throwable none else .plain

/-- A function of the VM or of user code makes an object of a type bound to the class `ty` (none: a
type that is not bound) and returns it as a local reference (for example NewStringUTF,
src/jnivm/internal/string.cpp:9-11, a hooked constructor, include/jnivm/wrap.h, or `Instantiate`,
include/jnivm/env.h:63-70). -/
def newObject (h : Heap) (t : Nat) (ty : Option Str) : Res (Heap × Option Nat) :=
  let (h, i) := h.alloc ⟨.made ty, none⟩
  (h.toJNI t (ty.bind h.typeClass) i).bind fun h => .ok (h, some i)

/-- User code receives a reference as `std::shared_ptr<Y>` and returns it, `ty` being the class bound
to `Y` (a hooked identity function, include/jnivm/wrap.h). -/
def returnObject (h : Heap) (t : Nat) (obj : Option Nat) (ty : Option Str) :
    Res (Heap × Option Nat) :=
  (h.denote obj).bind fun r => h.toJNI? t (ty.bind h.typeClass) r

/-- `FindClass`, src/jnivm/vm.cpp:28-33, src/jnivm/internal/findclass.cpp (creating mode). -/
def findClass (h : Heap) (t : Nat) (name : Str) : Res (Heap × Option Nat) :=
  let (h, c) := h.intern name
  (h.toJNI t (h.typeClass "java/lang/Class".toList) c).bind fun h => .ok (h, some c)

/-- A class gets a new method or field (src/jnivm/internal/method.cpp:63, field.cpp:50,
hookManager.h): an object owned by the class. -/
def newMember (h : Heap) (isMethod isStatic : Bool) : Heap × Nat :=
  let (h, i) := h.alloc ⟨if isMethod then .method isStatic else .field isStatic, none⟩
  ({ h with pinned := h.pinned ++ [i] }, i)

/-- `PushLocalFrame`, src/jnivm/vm.cpp:119-133 (reserving memory has no effect). -/
def pushLocalFrame (h : Heap) (t : Nat) : Res Heap :=
  (h.env t).bind fun e =>
    match e.free with
    | [] => .ok (h.setEnv t { e with frames := [] :: e.frames })
    | f :: fs => .ok (h.setEnv t { e with frames := f :: e.frames, free := fs })

/-- `PopLocalFrame`, src/jnivm/vm.cpp:134-152. -/
def popLocalFrame (h : Heap) (t : Nat) (result : Option Nat) : Res (Heap × Option Nat) :=
  (h.env t).bind fun e =>
  (h.denote result).bind fun res =>
    match e.frames with
    | [] => .ub .outOfBounds
    | _ :: fs =>
      let h := h.setEnv t { e with frames := if fs.isEmpty then [[]] else fs, free := [] :: e.free }
      match res with
      | some i => (h.toJNI t (h.typeClass "java/lang/Object".toList) i).bind fun h => .ok (h, some i)
      | none => .ok (h, result)

/-- `NewGlobalRef`, src/jnivm/vm.cpp:153-172. -/
def newGlobalRef (h : Heap) (obj : Option Nat) : Res (Heap × Option Nat) :=
  (h.denote obj).bind fun
    | none => .ok (h, none)
    | some i =>
      let (h, c) := h.intern "internal/lang/Global".toList
      let (h, g) := h.alloc ⟨.global i, some c⟩
      .ok ({ h with globals := h.globals ++ [g] }, some g)

/-- `NewWeakGlobalRef`, src/jnivm/vm.cpp:313-323. -/
def newWeakGlobalRef (h : Heap) (obj : Option Nat) : Res (Heap × Option Nat) :=
  (h.denote obj).bind fun
    | none => .ok (h, none)
    | some i =>
      let (h, c) := h.intern "java/lang/ref/WeakReference".toList
      let (h, w) := h.alloc ⟨.weak i, some c⟩
      .ok ({ h with globals := h.globals ++ [w] }, some w)

/-- `DeleteGlobalRef`, src/jnivm/vm.cpp:173-190: erase the first entry; an absent one is only
logged. -/
def deleteGlobalRef (h : Heap) (obj : Option Nat) : Res Heap :=
  (h.castWrapper (fun k => match k with | .global _ => true | _ => false) obj).bind fun
    | none => .ok h
    | some i => .ok { h with globals := h.globals.erase i }

/-- `DeleteWeakGlobalRef`, src/jnivm/vm.cpp:324-326, 173-187. -/
def deleteWeakGlobalRef (h : Heap) (obj : Option Nat) : Res Heap :=
  (h.castWrapper (fun k => match k with | .weak _ => true | _ => false) obj).bind fun
    | none => .ok h
    | some i => .ok { h with globals := h.globals.erase i }

/-- The loop of `DeleteLocalRef`, src/jnivm/vm.cpp:195-202: the first frame that contains the object
loses its first reference to it. -/
def eraseLocal (i : Nat) : List (List Nat) → List (List Nat)
  | [] => []
  | f :: fs => if f.contains i then f.erase i :: fs else f :: eraseLocal i fs

/-- `DeleteLocalRef`, src/jnivm/vm.cpp:191-208. -/
def deleteLocalRef (h : Heap) (t : Nat) (obj : Option Nat) : Res Heap :=
  (h.env t).bind fun e =>
  (h.denote obj).bind fun
    | none => .ok h
    | some i => .ok (h.setEnv t { e with frames := eraseLocal i e.frames })

/-- `NewLocalRef`, src/jnivm/vm.cpp:217-228; the class of the object is not touched. -/
def newLocalRef (h : Heap) (t : Nat) (obj : Option Nat) : Res (Heap × Option Nat) :=
  (h.denote obj).bind fun
    | none => .ok (h, none)
    | some i => (h.pushLocal t i).bind fun h => .ok (h, some i)

/-- `IsSameObject`, src/jnivm/vm.cpp:209-216. -/
def isSameObject (h : Heap) (a b : Option Nat) : Res Bool :=
  if a = b then .ok true else
    (h.denote a).bind fun x => (h.denote b).bind fun y => .ok (decide (x = y))

/-- `jobjectRefType`, include/jni.h -/
inductive RefType where
  | invalid | loc | glob | weakGlob
deriving DecidableEq, Repr

/-- `GetObjectRefType`, src/jnivm/vm.cpp:333-344. -/
def getObjectRefType (h : Heap) : Option Nat → Res RefType
  | none => .ok .invalid
  | some i => match h.objs i with
    | none => .ub .dangling
    | some o => match o.kind with
      | .weak _ => .ok .weakGlob
      | .global _ => .ok .glob
      | _ => .ok .loc

/-- `GetObjectClass`, src/jnivm/vm.cpp:241-243, with `Object::getClassInternal`,
src/jnivm/object.cpp:5-7.  A cleared weak reference is dereferenced as null. -/
def getObjectClass (h : Heap) (t : Nat) : Option Nat → Res (Heap × Option Nat)
  | none => h.findClass t "Invalid".toList
  | some r => (h.denote (some r)).bind fun
    | none => .ub .nullDeref
    | some i => match h.objs i with
      | none => .ub .dangling
      | some o => h.toJNI? t (h.typeClass "java/lang/Class".toList) o.cls

/-- `NewObjectArray`, src/jnivm/internal/array.cpp:9-22, for an element class without
`InstantiateArray`; `name` is the name of the array class.  A negative length throws
`std::bad_array_new_length`.  The initial element is stored as it is, not unwrapped (line 18). -/
def newObjectArray (h : Heap) (t : Nat) (length : Int) (name : Str) (init : Option Nat) :
    Res (Heap × Option Nat) :=
  let (h, c) := h.intern name
  if length < 0 then .throws .lengthError
  else if 0 < length && init.any (fun i => (h.objs i).isNone) then .ub .dangling
  else
    let (h, a) := h.alloc ⟨.array (List.replicate length.toNat init), some c⟩
    (h.toJNI t none a).bind fun h => .ok (h, some a)

/-- The array behind a `jobjectArray`; a null array is dereferenced. -/
def arrayOf (h : Heap) (a : Option Nat) : Res (Nat × Obj × List (Option Nat)) :=
  (h.denote a).bind fun
    | none => .ub .nullDeref
    | some i => match h.objs i with
      | none => .ub .dangling
      | some o => match o.kind with
        | .array slots => .ok (i, o, slots)
        | _ => .throws .badCast

/-- `getArray()[i]` for a `jsize` index -/
def slotIndex (slots : List (Option Nat)) (i : Int) : Res Nat :=
  if 0 ≤ i ∧ i.toNat < slots.length then .ok i.toNat else .ub .outOfBounds

/-- `GetObjectArrayElement`, src/jnivm/internal/array.cpp:23-25. -/
def getObjectArrayElement (h : Heap) (t : Nat) (a : Option Nat) (i : Int) : Res (Heap × Option Nat) :=
  (h.arrayOf a).bind fun (_, _, slots) =>
  (slotIndex slots i).bind fun n =>
    h.toJNI? t (h.typeClass "java/lang/Object".toList) (slots.getD n none)

/-- `SetObjectArrayElement`, src/jnivm/internal/array.cpp:26-28. -/
def setObjectArrayElement (h : Heap) (a : Option Nat) (i : Int) (v : Option Nat) : Res Heap :=
  (h.arrayOf a).bind fun (x, o, slots) =>
  (h.denote v).bind fun v =>
  (slotIndex slots i).bind fun n =>
    .ok (h.setObj x { o with kind := .array (slots.set n v) })

/-- `GetArrayLength`, src/jnivm/internal/array.cpp:6-8, for an object array. -/
def getArrayLength (h : Heap) : Option Nat → Res Nat
  | none => .ok 0
  | some a => (h.arrayOf (some a)).bind fun (_, _, slots) => .ok slots.length

/-! ### Variables of C++ objects -/

/-- User code makes an object with `n` member variables, all null, of a type bound to the class `ty`
and returns it as a local reference. -/
def newRecord (h : Heap) (t : Nat) (n : Nat) (ty : Option Str) : Res (Heap × Option Nat) :=
  let (h, i) := h.alloc ⟨.record (List.replicate n none), none⟩
  (h.toJNI t (ty.bind h.typeClass) i).bind fun h => .ok (h, some i)

/-- The `n` static variables of a C++ class, all null.  They are never released. -/
def newStatics (h : Heap) (n : Nat) : Heap × Nat :=
  let (h, i) := h.alloc ⟨.record (List.replicate n none), none⟩
  ({ h with pinned := h.pinned ++ [i] }, i)

/-- `JNITypes<std::shared_ptr<typename Function::This>>::JNICast(env, obj).get()`,
include/jnivm/wrap.h:187, 190, for a C++ type that has the variable `i`: a reference to null is
dereferenced, an object of another type throws. -/
def recordOf (h : Heap) (obj : Option Nat) (i : Nat) : Res (Nat × Obj × List (Option Nat)) :=
  (h.denote obj).bind fun
    | none => .ub .nullDeref
    | some x => match h.objs x with
      | none => .ub .dangling
      | some o => match o.kind with
        | .record vars => if i < vars.length then .ok (x, o, vars) else .throws .badCast
        | _ => .throws .badCast

/-- `GetObjectField` on a field that is hooked to a variable of type `std::shared_ptr<T>`,
src/jnivm/internal/field.cpp:107-131, include/jnivm/wrap.h:174-191, 322-328; `ty` is the name of the
class for `T`.  For a static variable `obj` is the block of static variables. -/
def getVar (h : Heap) (t : Nat) (obj : Option Nat) (i : Nat) (ty : Option Str) : Res (Heap × Option Nat) :=
  (h.recordOf obj i).bind fun (_, _, vars) => h.toJNI? t (ty.bind h.typeClass) (vars.getD i none)

/-- `SetObjectField` likewise, src/jnivm/internal/field.cpp:131-157: a null object is ignored.  The value
is converted before the object, the order of C++17. -/
def setVar (h : Heap) (obj : Option Nat) (i : Nat) (v : Option Nat) : Res Heap :=
  match obj with
  | none => .ok h
  | some r =>
    (h.denote v).bind fun v =>
    (h.recordOf (some r) i).bind fun (x, o, vars) =>
      .ok (h.setObj x { o with kind := .record (vars.set i v) })

/-- `GetObjectField` on a field that is hooked to a variable of class type, include/jnivm/wrap.h:174-191,
include/jnivm/jnitypes.h:73-84: the variable is copied into a new object, `clazz` included. -/
def newCopy (h : Heap) (t : Nat) (cls : Option Nat) (ty : Option Str) : Res (Heap × Option Nat) :=
  if cls.all (fun c => h.classes.any fun x => x.2 == c) then
    let (h, i) := h.alloc ⟨.plain, cls⟩
    (h.toJNI t (ty.bind h.typeClass) i).bind fun h => .ok (h, some i)
  else .ub .dangling

/-! ### Exceptions -/

/-- `Throw`, src/jnivm/vm.cpp:82-86. -/
def throw (h : Heap) (t : Nat) (ex : Option Nat) : Res Heap :=
  (h.env t).bind fun e =>
  (h.cast (fun k => match k with | .throwable _ => true | _ => false) ex).bind fun x =>
    .ok (h.setEnv t { e with pending := x })

/-- A caught C++ exception becomes the pending one: `ThrowNew`, src/jnivm/vm.cpp:87-96, and the
`catch` blocks of the calls, src/jnivm/internal/method.cpp:207-210. -/
def raise (h : Heap) (t : Nat) (payload : Exn) : Res Heap :=
  let (h, x) := h.alloc ⟨.throwable (some payload), none⟩
  (h.env t).bind fun e => .ok (h.setEnv t { e with pending := some x })

/-- `ExceptionOccurred`, src/jnivm/vm.cpp:97-99. -/
def exceptionOccurred (h : Heap) (t : Nat) : Res (Heap × Option Nat) :=
  (h.env t).bind fun e => h.toJNI? t (h.typeClass "java/lang/Throwable".toList) e.pending

/-- `ExceptionClear`, src/jnivm/vm.cpp:112-114. -/
def exceptionClear (h : Heap) (t : Nat) : Res Heap :=
  (h.env t).bind fun e => .ok (h.setEnv t { e with pending := none })

/-- `ExceptionCheck`, src/jnivm/vm.cpp:328-330. -/
def exceptionCheck (h : Heap) (t : Nat) : Res Bool :=
  (h.env t).bind fun e => .ok e.pending.isSome

/-! ### Reflection -/

/-- `ToReflectedMethod` and `ToReflectedField`, src/jnivm/vm.cpp:48-54, 75-81; `c` only has to be
non-null. -/
def toReflected (h : Heap) (t : Nat) (isMethod : Bool) (c : Option Nat) (id : Option Nat)
    (isStatic : Bool) : Res (Heap × Option Nat) :=
  match c, id with
  | some _, some m => match h.objs m with
    | none => .ub .dangling
    | some o =>
      if o.kind = (if isMethod then .method isStatic else .field isStatic) then h.newLocalRef t (some m)
      else .ok (h, none)
  | _, _ => .ok (h, none)

/-- `FromReflectedMethod` and `FromReflectedField`, src/jnivm/vm.cpp:34-47. -/
def fromReflected (h : Heap) (t : Nat) (isMethod : Bool) (obj : Option Nat) :
    Res (Heap × Option Nat) :=
  match obj with
  | none => .ok (h, none)
  | some r =>
    (h.getObjectClass t (some r)).bind fun (h, c) =>
    (h.findClass t (if isMethod then "java/lang/reflect/Method" else "java/lang/reflect/Field").toList).bind
      fun (h, m) =>
    (h.isSameObject c m).bind fun same => .ok (h, if same then some r else none)

/-! ### Threads -/

/-- A new `ENV`, src/jnivm/env.cpp:9-16: one empty frame. -/
def newEnv (h : Heap) : Env := ⟨h.nextEnv, [[]], [], none⟩

/-- `AttachCurrentThread`, src/jnivm/vm.cpp:468-486 (also `GetEnv` and
`AttachCurrentThreadAsDaemon`, 499-512): the environment of the thread, made if missing. -/
def attach (h : Heap) (t : Nat) : Heap × Nat :=
  match h.envs t with
  | some e => (h, e.eid)
  | none =>
    ({ h.setEnv t h.newEnv with nthreads := max h.nthreads (t + 1), nextEnv := h.nextEnv + 1 }, h.nextEnv)

/-- `DetachCurrentThread`, src/jnivm/vm.cpp:487-498. -/
def detach (h : Heap) (t : Nat) : Heap :=
  { h with envs := fun u => if u = t then none else h.envs u }

/-- `VM::initialize`, src/jnivm/vm.cpp:525-536, on thread 0. -/
def initial : Heap :=
  let h : Heap := ⟨fun _ => none, 0, [], [], [], fun _ => none, 0, 0⟩
  let h := (h.attach 0).1
  ["java/lang/Object", "java/lang/Class", "java/lang/String", "java/nio/ByteBuffer",
    "java/lang/Throwable", "java/lang/reflect/Method", "java/lang/reflect/Field",
    "java/lang/ref/WeakReference", "internal/lang/Global"].foldl
      (fun h n => (h.intern n.toList).1) h

end Heap

/-! ### Histories -/

/-- One call, made by a thread. -/
inductive HeapOp where
  | newObject (ty : Option Str)
  | returnObject (obj : Option Nat) (ty : Option Str)
  | findClass (name : Str)
  | newMember (isMethod isStatic : Bool)
  | pushLocalFrame
  | popLocalFrame (result : Option Nat)
  | newGlobalRef (obj : Option Nat)
  | newWeakGlobalRef (obj : Option Nat)
  | deleteGlobalRef (obj : Option Nat)
  | deleteWeakGlobalRef (obj : Option Nat)
  | deleteLocalRef (obj : Option Nat)
  | newLocalRef (obj : Option Nat)
  | isSameObject (a b : Option Nat)
  | getObjectRefType (obj : Option Nat)
  | getObjectClass (obj : Option Nat)
  | newObjectArray (length : Int) (name : Str) (init : Option Nat)
  | getObjectArrayElement (a : Option Nat) (i : Int)
  | setObjectArrayElement (a : Option Nat) (i : Int) (v : Option Nat)
  | newRecord (n : Nat) (ty : Option Str)
  | newStatics (n : Nat)
  /-- the class object itself, without a local reference: `ENV::GetClass`, include/jnivm/env.h:87-93,
  src/jnivm/env.cpp:17-19 -/
  | classObject (name : Str)
  | getVar (obj : Option Nat) (i : Nat) (ty : Option Str)
  | setVar (obj : Option Nat) (i : Nat) (v : Option Nat)
  | newCopy (cls : Option Nat) (ty : Option Str)
  | throw (ex : Option Nat)
  | raise (payload : Exn)
  | exceptionOccurred
  | exceptionClear
  | exceptionCheck
  | toReflected (isMethod : Bool) (c id : Option Nat) (isStatic : Bool)
  | fromReflected (isMethod : Bool) (obj : Option Nat)
  | attach
  | detach
deriving DecidableEq, Repr

/-- What a call returns. -/
inductive Out where
  | unit
  | ref (r : Option Nat)
  | bool (b : Bool)
  | type (k : Heap.RefType)
  | env (e : Nat)
deriving DecidableEq, Repr

def outRef (x : Res (Heap × Option Nat)) : Res (Heap × Out) :=
  x.bind fun (h, r) => .ok (h, .ref r)
def outUnit (x : Res Heap) : Res (Heap × Out) := x.bind fun h => .ok (h, .unit)
def outBool (h : Heap) (x : Res Bool) : Res (Heap × Out) := x.bind fun b => .ok (h, .bool b)

/-- The body of one call on thread `t`. -/
def HeapOp.body (h : Heap) (t : Nat) : HeapOp → Res (Heap × Out)
  | newObject c => outRef (h.newObject t c)
  | returnObject o c => outRef (h.returnObject t o c)
  | findClass n => outRef (h.findClass t n)
  | newMember m s => .ok ((h.newMember m s).1, .ref (some (h.newMember m s).2))
  | pushLocalFrame => outUnit (h.pushLocalFrame t)
  | popLocalFrame r => outRef (h.popLocalFrame t r)
  | newGlobalRef o => outRef (h.newGlobalRef o)
  | newWeakGlobalRef o => outRef (h.newWeakGlobalRef o)
  | deleteGlobalRef o => outUnit (h.deleteGlobalRef o)
  | deleteWeakGlobalRef o => outUnit (h.deleteWeakGlobalRef o)
  | deleteLocalRef o => outUnit (h.deleteLocalRef t o)
  | newLocalRef o => outRef (h.newLocalRef t o)
  | isSameObject a b => outBool h (h.isSameObject a b)
  | getObjectRefType o => (h.getObjectRefType o).bind fun k => .ok (h, .type k)
  | getObjectClass o => outRef (h.getObjectClass t o)
  | newObjectArray n c i => outRef (h.newObjectArray t n c i)
  | getObjectArrayElement a i => outRef (h.getObjectArrayElement t a i)
  | setObjectArrayElement a i v => outUnit (h.setObjectArrayElement a i v)
  | newRecord n c => outRef (h.newRecord t n c)
  | newStatics n => .ok ((h.newStatics n).1, .ref (some (h.newStatics n).2))
  | classObject n => .ok ((h.intern n).1, .ref (some (h.intern n).2))
  | getVar a i c => outRef (h.getVar t a i c)
  | setVar a i v => outUnit (h.setVar a i v)
  | newCopy k c => outRef (h.newCopy t k c)
  | throw x => outUnit (h.throw t x)
  | raise p => outUnit (h.raise t p)
  | exceptionOccurred => outRef (h.exceptionOccurred t)
  | exceptionClear => outUnit (h.exceptionClear t)
  | exceptionCheck => outBool h (h.exceptionCheck t)
  | toReflected m c i s => outRef (h.toReflected t m c i s)
  | fromReflected m o => outRef (h.fromReflected t m o)
  | attach => .ok ((h.attach t).1, .env (h.attach t).2)
  | detach => .ok (h.detach t, .unit)

/-- All calls but attaching and detaching are made through the `JNIEnv` of the thread. -/
def HeapOp.needsEnv : HeapOp → Bool
  | attach => false
  | detach => false
  | _ => true

/-- A call through the `JNIEnv` of a detached thread uses a destroyed object. -/
def HeapOp.exec (h : Heap) (t : Nat) (op : HeapOp) : Res (Heap × Out) :=
  if op.needsEnv && (h.envs t).isNone then .ub .dangling else op.body h t

/-- One call on thread `t`: the body, then everything without an owner is released. -/
def HeapOp.run (h : Heap) (t : Nat) (op : HeapOp) : Res (Heap × Out) :=
  (op.exec h t).bind fun (h, out) => .ok (h.collect, out)

/-- Run a history of calls, each by some thread. -/
def runHeap (h : Heap) : List (Nat × HeapOp) → Res Heap
  | [] => .ok h
  | (t, op) :: ops => (op.run h t).bind fun (h, _) => runHeap h ops

def HeapReachable (h : Heap) : Prop := ∃ ops, runHeap Heap.initial ops = .ok h

end Jnivm
