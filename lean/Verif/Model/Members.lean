import Verif.Model.Registry
/-!
Model of the method and field tables: src/jnivm/internal/method.cpp:7-84,
src/jnivm/internal/field.cpp:11-63, include/jnivm/hookManager.h:46-177,
src/jnivm/vm.cpp:256-294 and include/jnivm/env.h:87-93.

A `Method*`/`Field*` (the value of a `jmethodID`/`jfieldID`) is a number given out once.  The
tables of a class are kept apart from its naming record in the registry and addressed by the
same class number; a class that was just created has empty tables.  The model is of one thread;
the interleavings of several threads are in Model/Race.lean.
-/
namespace Jnivm

/-- `jnivm::Method`, include/jnivm/method.h:14-35.  `native` and `handle` are the pointers
`native` and `nativehandle`, `none` if null; a function is named by a number. -/
structure MethodRec where
  id : Nat
  name : Str
  signature : Str
  static : Bool
  native : Option Nat
  handle : Option Nat
deriving DecidableEq, Repr

/-- `jnivm::Field`, include/jnivm/field.h. -/
structure FieldRec where
  id : Nat
  name : Str
  type : Str
  static : Bool
  getter : Option Nat
  setter : Option Nat
deriving DecidableEq, Repr

/-- The tables of a `jnivm::Class`, include/jnivm/class.h:18-35.  `bases` is what the function
`baseclasses` was set to (`none` if it is empty): the C++ base types in order, `none` for the
literal `nullptr` of src/jnivm/object.cpp:9-11. -/
structure Members where
  methods : List MethodRec
  fields : List FieldRec
  natives : List (Str × Option Nat)
  bases : Option (List (Option Nat))
deriving DecidableEq, Repr

def Members.empty : Members := ⟨[], [], [], none⟩

/-- The VM as far as classes and members are concerned: the registry, the tables of each class,
`VM::typecheck` (C++ type to class), the methods made for a null class and the next unused
member address. -/
structure World where
  reg : Registry
  mem : Nat → Members
  types : Nat → Option Nat
  loose : List MethodRec
  next : Nat

/-- A VM after `VM::initialize`, src/jnivm/vm.cpp:525-536, as far as names are concerned.  The C++ types
the built-in classes get there are added by `startOps` in Model/Asserts.lean. -/
def World.initial : World :=
  { reg := Registry.initial, mem := fun _ => Members.empty, types := fun _ => none, loose := [],
    next := 0 }

/-- Replace the tables of class `c`. -/
def World.setMem (w : World) (c : Nat) (m : Members) : World :=
  { w with mem := fun d => if d = c then m else w.mem d }

/-- `cur->baseclasses(env)`, include/jnivm/extends.h:16-27: each base type is looked up in
`typecheck`.  A base type that was never registered gives a null entry, as with `NDEBUG`; without it
the C++ throws `std::runtime_error`, see Model/Asserts.lean. -/
def World.bases (w : World) (c : Nat) : Option (List (Option Nat)) :=
  (w.mem c).bases.map fun ts => ts.map fun t => t.bind w.types

/-- Iteration over `baseclasses`: the first non-null answer for a non-null entry,
src/jnivm/internal/method.cpp:44-54, src/jnivm/internal/field.cpp:32-41. -/
def firstAnswer {α : Type} (f : Nat → Res (Option α)) : List (Option Nat) → Res (Option α)
  | [] => .ok none
  | none :: bs => firstAnswer f bs
  | some b :: bs => (f b).bind fun
    | some x => .ok (some x)
    | none => firstAnswer f bs

/-- The recursion shared by `GetMethodID<_, true, _>`, src/jnivm/internal/method.cpp:26-54,
`GetFieldID<_, true>`, src/jnivm/internal/field.cpp:20-41, and `HasBaseClass`,
src/jnivm/vm.cpp:59-71: the class itself, then its base classes in order, recursively.  The
first argument is the number of nested calls the stack has room for; `diverges` means that it
was exhausted. -/
def dfs {α : Type} (bases : Nat → Option (List (Option Nat))) (own : Nat → Option α) :
    Nat → Nat → Res (Option α)
  | 0, _ => .diverges
  | depth + 1, c =>
    match own c with
    | some x => .ok (some x)
    | none =>
      match bases c with
      | none => .ok none
      | some bs => firstAnswer (dfs bases own depth) bs

/-- What a method lookup compares: the template arguments `isStatic` and `AllowNative`, the name
and the signature. -/
structure MethodKey where
  static : Bool
  native : Bool
  name : Str
  signature : Str
deriving DecidableEq, Repr

/-- The predicate of the `find_if`, src/jnivm/internal/method.cpp:32-34. -/
def MethodKey.hits (k : MethodKey) (m : MethodRec) : Bool :=
  m.static == k.static && k.native == m.native.isSome && m.name == k.name &&
    m.signature == k.signature

/-- `find_if` over `cur->methods`, src/jnivm/internal/method.cpp:28-38. -/
def World.ownMethod (w : World) (k : MethodKey) (c : Nat) : Option Nat :=
  ((w.mem c).methods.find? k.hits).map (·.id)

/-- `ssig.erase(ssig.find(')') + 1)` followed by appending "L", the class name and ";",
src/jnivm/internal/method.cpp:19-23.  Without ')' the position wraps to 0 and the whole text is
erased. -/
def initSignature (cls : Str) (sig : Str) : Str :=
  (match cutAt ')' sig with
    | (before, some _) => before ++ [')']
    | (_, none) => []) ++ 'L' :: cls ++ [';']

/-- The creation of a missing method, src/jnivm/internal/method.cpp:63-79: append a record, then
declare the classes of its signature (`JNI_DEBUG`). -/
def World.createMethod (w : World) (c : Nat) (static : Bool) (name sig : Str) :
    Res (World × Option Nat) :=
  let m : MethodRec := ⟨w.next, name, sig, static, none, none⟩
  let t := w.mem c
  (declare w.reg sig).bind fun reg =>
    .ok ({ w.setMem c { t with methods := t.methods ++ [m] } with reg := reg, next := w.next + 1 },
      some w.next)

/-- `GetMethodID` on a class after the constructor rewriting, src/jnivm/internal/method.cpp:26-84. -/
def World.methodOf (depth : Nat) (returnNull : Bool) (w : World) (c : Nat) (k : MethodKey) :
    Res (World × Option Nat) :=
  (dfs w.bases (w.ownMethod k) depth c).bind fun
    | some id => .ok (w, some id)
    | none => if returnNull then .ok (w, none) else w.createMethod c k.static k.name k.signature

/-- `GetMethodID<isStatic, ReturnNull, AllowNative>`, src/jnivm/internal/method.cpp:7-84.  A null
class has no tables: in creating mode a method is made that only the local frame owns
(lines 66-72), and "<init>" is not rewritten.  A class handle that is not a class of this VM is
undefined behaviour. -/
def World.getMethodID (depth : Nat) (isStatic returnNull allowNative : Bool) (w : World)
    (cl : Option Nat) (name sig : Str) : Res (World × Option Nat) :=
  match cl with
  | none =>
    if returnNull then .ok (w, none) else
      (declare w.reg sig).bind fun reg =>
        .ok ({ w with reg := reg, next := w.next + 1,
                      loose := w.loose ++ [⟨w.next, name, sig, isStatic, none, none⟩] }, some w.next)
  | some c =>
    match w.reg.cls[c]? with
    | none => .ub .dangling
    | some cls =>
      if !isStatic && name == "<init>".toList then
        w.methodOf depth returnNull c ⟨true, allowNative, name, initSignature cls.nativeprefix sig⟩
      else
        w.methodOf depth returnNull c ⟨isStatic, allowNative, name, sig⟩

/-- What a field lookup compares. -/
structure FieldKey where
  static : Bool
  name : Str
  type : Str
deriving DecidableEq, Repr

/-- The predicate of the `find_if`, src/jnivm/internal/field.cpp:23. -/
def FieldKey.hits (k : FieldKey) (f : FieldRec) : Bool :=
  f.static == k.static && f.name == k.name && f.type == k.type

/-- `find_if` over `cur->fields`, src/jnivm/internal/field.cpp:20-27. -/
def World.ownField (w : World) (k : FieldKey) (c : Nat) : Option Nat :=
  ((w.mem c).fields.find? k.hits).map (·.id)

/-- The creation of a missing field, src/jnivm/internal/field.cpp:50-57. -/
def World.createField (w : World) (c : Nat) (k : FieldKey) : Res (World × Option Nat) :=
  let f : FieldRec := ⟨w.next, k.name, k.type, k.static, none, none⟩
  let t := w.mem c
  (declare w.reg k.type).bind fun reg =>
    .ok ({ w.setMem c { t with fields := t.fields ++ [f] } with reg := reg, next := w.next + 1 },
      some w.next)

/-- `GetFieldID<isStatic, ReturnNull>`, src/jnivm/internal/field.cpp:11-63.  A null class is
dereferenced (line 14). -/
def World.getFieldID (depth : Nat) (isStatic returnNull : Bool) (w : World) (cl : Option Nat)
    (name type : Str) : Res (World × Option Nat) :=
  match cl with
  | none => .ub .nullDeref
  | some c =>
    match w.reg.cls[c]? with
    | none => .ub .dangling
    | some _ =>
      (dfs w.bases (w.ownField ⟨isStatic, name, type⟩) depth c).bind fun
        | some id => .ok (w, some id)
        | none => if returnNull then .ok (w, none) else w.createField c ⟨isStatic, name, type⟩

/-- `*std::find_if(..)` is changed in place by `f`. -/
def updateFirst {α : Type} (p : α → Bool) (f : α → α) : List α → List α
  | [] => []
  | x :: xs => if p x then f x :: xs else x :: updateFirst p f xs

/-- The predicate of the `find_if` of `FunctionBase::install`, include/jnivm/hookManager.h:52 and
73; it does not look at `native`. -/
def hookHits (static : Bool) (name sig : Str) (m : MethodRec) : Bool :=
  m.static == static && m.name == name && m.signature == sig

/-- `FunctionBase::install`, include/jnivm/hookManager.h:47-86: reuse the first method with this
staticness, name and signature or append one, then set `nativehandle`. -/
def World.hookMethod (w : World) (c : Nat) (static : Bool) (name sig : Str) (fn : Nat) : World :=
  let t := w.mem c
  if t.methods.any (hookHits static name sig) then
    let methods :=
      updateFirst (hookHits static name sig) (fun m => { m with handle := some fn }) t.methods
    w.setMem c { t with methods := methods }
  else
    { w.setMem c { t with methods := t.methods ++ [⟨w.next, name, sig, static, none, some fn⟩] } with
      next := w.next + 1 }

/-- `field.get()->*handle = ..`, include/jnivm/hookManager.h:117 and 138. -/
def FieldRec.setHandle (isGetter : Bool) (fn : Nat) (f : FieldRec) : FieldRec :=
  if isGetter then { f with getter := some fn } else { f with setter := some fn }

/-- `PropertyBase::install`, include/jnivm/hookManager.h:99-140, for a getter (`GetterBase`,
142-144) or a setter (`SetterBase`, 146-147). -/
def World.hookField (w : World) (c : Nat) (isGetter static : Bool) (name type : Str) (fn : Nat) :
    World :=
  let t := w.mem c
  let k : FieldKey := ⟨static, name, type⟩
  if t.fields.any k.hits then
    w.setMem c { t with fields := updateFirst k.hits (FieldRec.setHandle isGetter fn) t.fields }
  else
    let f : FieldRec := ⟨w.next, name, type, static, none, none⟩
    { w.setMem c { t with fields := t.fields ++ [f.setHandle isGetter fn] } with next := w.next + 1 }

/-- `JNINativeMethod`, include/jni.h. -/
structure NativeMethod where
  name : Str
  signature : Str
  fnPtr : Option Nat
deriving DecidableEq, Repr

/-- One round of the loop of `RegisterNatives`, src/jnivm/vm.cpp:262-275.  `natives` keeps the
newest binding of a name first. -/
def World.registerOne (w : World) (c : Nat) (n : NativeMethod) : World :=
  let t := w.mem c
  { w.setMem c { t with natives := (n.name, n.fnPtr) :: t.natives,
                        methods := t.methods ++ [⟨w.next, n.name, n.signature, false, n.fnPtr, none⟩] }
    with next := w.next + 1 }

/-- `RegisterNatives`, src/jnivm/vm.cpp:256-278; a null class is only logged. -/
def World.registerNatives (w : World) (cl : Option Nat) (l : List NativeMethod) : World :=
  match cl with
  | none => w
  | some c => l.foldl (fun w n => w.registerOne c n) w

/-- `UnregisterNatives`, src/jnivm/vm.cpp:279-294. -/
def World.unregisterNatives (w : World) (cl : Option Nat) : World :=
  match cl with
  | none => w
  | some c =>
    let t := w.mem c
    w.setMem c { t with natives := [], methods := t.methods.filter fun m => m.native.isNone }

/-- `ENV::GetClass<T>(name)`, include/jnivm/env.h:87-93: find or create the class, bind the C++
type to it and set `baseclasses`.  `Instantiate` is not modelled. -/
def World.bindType (w : World) (t : Nat) (name : Str) (bs : List (Option Nat)) : World × Option Nat :=
  match findClass false w.reg name with
  | (reg, some c) =>
    ({ w.setMem c { w.mem c with bases := some bs } with
        reg := reg, types := fun u => if u = t then some c else w.types u }, some c)
  | (reg, none) => ({ w with reg := reg }, none)

/-- `HasBaseClass`, src/jnivm/vm.cpp:59-71. -/
def World.hasBaseClass (depth : Nat) (w : World) (c1 c2 : Nat) : Res Bool :=
  (dfs w.bases (fun c => if c = c2 then some () else none) depth c1).bind fun r => .ok r.isSome

/-- `IsAssignableFrom`, src/jnivm/vm.cpp:72-74; null classes compare equal to each other, a null
first class is otherwise dereferenced by `HasBaseClass`. -/
def World.isAssignableFrom (depth : Nat) (w : World) : Option Nat → Option Nat → Res Bool
  | none, none => .ok true
  | none, some _ => .ub .nullDeref
  | some c1, some c2 => w.hasBaseClass depth c1 c2
  | some c1, none => (dfs w.bases (fun _ => none (α := Unit)) depth c1).bind fun r => .ok r.isSome

/-- `IsInstanceOf`, src/jnivm/vm.cpp:244-246.  The object is given by what `getClassInternal`
(src/jnivm/object.cpp:5-7) answers for it: `none` for a null object, `some none` for an object
without a class, whose null class is then compared. -/
def World.isInstanceOf (depth : Nat) (w : World) (obj : Option (Option Nat)) (cl : Option Nat) :
    Res Bool :=
  match obj with
  | none => .ok false
  | some objClass => w.isAssignableFrom depth objClass cl

/-- `GetSuperclass`, src/jnivm/vm.cpp:55-58.  An empty base list would be indexed out of bounds. -/
def World.getSuperclass (w : World) (c : Nat) : Res (Option Nat) :=
  match w.bases c with
  | none => .ok none
  | some [] => .ub .outOfBounds
  | some (b :: _) => .ok b

end Jnivm
