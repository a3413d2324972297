import Verif.Model.MemberOps
/-!
Model of the build without `JNI_DEBUG` (CMake option `JNIVM_ENABLE_DEBUG=OFF`, CMakeLists.txt:34-37)
as far as it differs from the default build in what classes and members are concerned:
src/jnivm/internal/findclass.cpp:83-94 without the namespaces of lines 17-82, and
src/jnivm/internal/method.cpp:72-74 and src/jnivm/internal/field.cpp:55-57 left out.

There are no namespaces and no nested classes in this build; the fields `ns` and `classes` of the
registry stay as they are at the start.
-/
namespace Jnivm

/-- `InternalFindClass` without `JNI_DEBUG`, src/jnivm/internal/findclass.cpp:83-94. -/
def findClassR (returnZero : Bool) (r : Registry) (name : Str) : Registry × Option Nat :=
  match r.byName.lookup name with
  | some c => (r, some c)
  | none =>
    if returnZero then (r, none)
    else
      ({ r with cls := r.cls ++ [⟨afterLastSlash name, name, []⟩],
                byName := (name, r.cls.length) :: r.byName }, some r.cls.length)

/-- The registry after `VM::initialize`, src/jnivm/vm.cpp:525-536. -/
def Registry.initialR : Registry :=
  builtinClasses.foldl (fun r n => (findClassR false r n.toList).1)
    { ns := [], cls := [], byName := [] }

/-- The VM after `VM::initialize`, with the simplification of `World.initial`. -/
def World.initialR : World :=
  { reg := Registry.initialR, mem := fun _ => Members.empty, types := fun _ => none, loose := [],
    next := 0 }

/-- The creation of a missing method, src/jnivm/internal/method.cpp:63-79 without lines 72-74. -/
def World.createMethodR (w : World) (c : Nat) (static : Bool) (name sig : Str) :
    World × Option Nat :=
  let m : MethodRec := ⟨w.next, name, sig, static, none, none⟩
  let t := w.mem c
  ({ w.setMem c { t with methods := t.methods ++ [m] } with next := w.next + 1 }, some w.next)

/-- `GetMethodID` on a class after the constructor rewriting, src/jnivm/internal/method.cpp:26-84. -/
def World.methodOfR (depth : Nat) (returnNull : Bool) (w : World) (c : Nat) (k : MethodKey) :
    Res (World × Option Nat) :=
  (dfs w.bases (w.ownMethod k) depth c).bind fun
    | some id => .ok (w, some id)
    | none =>
      if returnNull then .ok (w, none) else .ok (w.createMethodR c k.static k.name k.signature)

/-- `GetMethodID<isStatic, ReturnNull, AllowNative>`, src/jnivm/internal/method.cpp:7-84. -/
def World.getMethodIDR (depth : Nat) (isStatic returnNull allowNative : Bool) (w : World)
    (cl : Option Nat) (name sig : Str) : Res (World × Option Nat) :=
  match cl with
  | none =>
    if returnNull then .ok (w, none) else
      .ok ({ w with next := w.next + 1,
                    loose := w.loose ++ [⟨w.next, name, sig, isStatic, none, none⟩] }, some w.next)
  | some c =>
    match w.reg.cls[c]? with
    | none => .ub .dangling
    | some cls =>
      if !isStatic && name == "<init>".toList then
        w.methodOfR depth returnNull c ⟨true, allowNative, name, initSignature cls.nativeprefix sig⟩
      else
        w.methodOfR depth returnNull c ⟨isStatic, allowNative, name, sig⟩

/-- The creation of a missing field, src/jnivm/internal/field.cpp:50-57 without lines 55-57. -/
def World.createFieldR (w : World) (c : Nat) (k : FieldKey) : World × Option Nat :=
  let f : FieldRec := ⟨w.next, k.name, k.type, k.static, none, none⟩
  let t := w.mem c
  ({ w.setMem c { t with fields := t.fields ++ [f] } with next := w.next + 1 }, some w.next)

/-- `GetFieldID<isStatic, ReturnNull>`, src/jnivm/internal/field.cpp:11-63. -/
def World.getFieldIDR (depth : Nat) (isStatic returnNull : Bool) (w : World) (cl : Option Nat)
    (name type : Str) : Res (World × Option Nat) :=
  match cl with
  | none => .ub .nullDeref
  | some c =>
    match w.reg.cls[c]? with
    | none => .ub .dangling
    | some _ =>
      (dfs w.bases (w.ownField ⟨isStatic, name, type⟩) depth c).bind fun
        | some id => .ok (w, some id)
        | none =>
          if returnNull then .ok (w, none) else .ok (w.createFieldR c ⟨isStatic, name, type⟩)

/-- `ENV::GetClass<T>(name)`, include/jnivm/env.h:87-93. -/
def World.bindTypeR (w : World) (t : Nat) (name : Str) (bs : List (Option Nat)) :
    World × Option Nat :=
  match findClassR false w.reg name with
  | (reg, some c) =>
    ({ w.setMem c { w.mem c with bases := some bs } with
        reg := reg, types := fun u => if u = t then some c else w.types u }, some c)
  | (reg, none) => ({ w with reg := reg }, none)

/-- The functions in which the two builds differ. -/
structure Build where
  find : Bool → Registry → Str → Registry × Option Nat
  method : Nat → Bool → Bool → Bool → World → Option Nat → Str → Str → Res (World × Option Nat)
  field : Nat → Bool → Bool → World → Option Nat → Str → Str → Res (World × Option Nat)
  bind : World → Nat → Str → List (Option Nat) → World × Option Nat
  start : World

/-- `JNIVM_ENABLE_DEBUG=ON`. -/
def Build.debug : Build :=
  ⟨findClass, World.getMethodID, World.getFieldID, World.bindType, World.initial⟩

/-- `JNIVM_ENABLE_DEBUG=OFF`. -/
def Build.release : Build :=
  ⟨findClassR, World.getMethodIDR, World.getFieldIDR, World.bindTypeR, World.initialR⟩

/-- What a client can do with classes and members.  A class is named by the text the client
passes to `FindClass` to get hold of it, `none` is the null class. -/
inductive ClientOp where
  | findClass (name : Str)
  | getMethodID (depth : Nat) (isStatic returnNull allowNative : Bool) (cl : Option Str)
      (name sig : Str)
  | getFieldID (depth : Nat) (isStatic returnNull : Bool) (cl : Option Str) (name type : Str)
  | hookMethod (cl : Str) (static : Bool) (name sig : Str) (fn : Nat)
  | hookField (cl : Str) (isGetter static : Bool) (name type : Str) (fn : Nat)
  | registerNatives (cl : Option Str) (l : List NativeMethod)
  | unregisterNatives (cl : Option Str)
  | bindType (t : Nat) (name : Str) (bs : List (Option Nat))
  | isAssignableFrom (depth : Nat) (cl1 cl2 : Option Str)
  | getSuperclass (cl : Str)

/-- What a client sees: the name of a class (`Class::getName`, include/jnivm/class.h:39-41), the
address of a member, a truth value. -/
inductive ClientAnswer where
  | cls (name : Option Str)
  | member (id : Option Nat)
  | bool (b : Bool)
  | unit
deriving DecidableEq, Repr

/-- `Class::getName`, include/jnivm/class.h:39-41, of the class at this address; null for null. -/
def World.nameOf (w : World) (c : Option Nat) : Option Str :=
  c.bind fun c => (w.reg.cls[c]?).map (·.nativeprefix)

/-- The `FindClass` call by which a client gets hold of a class. -/
def Build.resolve (b : Build) (w : World) : Option Str → World × Option Nat
  | none => (w, none)
  | some n => ({ w with reg := (b.find false w.reg n).1 }, (b.find false w.reg n).2)

/-- Act on a class that `FindClass` just returned; it cannot be null (see `find_total`), so the
null case is the undefined behaviour of the member functions of `Class` on a null pointer. -/
def onClass {α : Type} (c : Option Nat) (f : Nat → Res α) : Res α :=
  match c with
  | none => .ub .nullDeref
  | some c => f c

/-- One operation in one of the builds. -/
def ClientOp.run (b : Build) (w : World) : ClientOp → Res (World × ClientAnswer)
  | .findClass n =>
    let p := b.resolve w (some n)
    .ok (p.1, .cls (p.1.nameOf p.2))
  | .getMethodID d s r a cl n sig =>
    let p := b.resolve w cl
    (b.method d s (r || a) a p.1 p.2 n sig).bind fun q => .ok (q.1, .member q.2)
  | .getFieldID d s r cl n t =>
    let p := b.resolve w cl
    (b.field d s r p.1 p.2 n t).bind fun q => .ok (q.1, .member q.2)
  | .hookMethod cl s n sig fn =>
    let p := b.resolve w (some cl)
    onClass p.2 fun c => .ok (p.1.hookMethod c s n sig fn, .unit)
  | .hookField cl g s n t fn =>
    let p := b.resolve w (some cl)
    onClass p.2 fun c => .ok (p.1.hookField c g s n t fn, .unit)
  | .registerNatives cl l =>
    let p := b.resolve w cl
    .ok (p.1.registerNatives p.2 l, .unit)
  | .unregisterNatives cl =>
    let p := b.resolve w cl
    .ok (p.1.unregisterNatives p.2, .unit)
  | .bindType t n bs =>
    let p := b.bind w t n bs
    .ok (p.1, .cls (p.1.nameOf p.2))
  | .isAssignableFrom d c1 c2 =>
    let p := b.resolve w c1
    let q := b.resolve p.1 c2
    (q.1.isAssignableFrom d p.2 q.2).bind fun x => .ok (q.1, .bool x)
  | .getSuperclass cl =>
    let p := b.resolve w (some cl)
    onClass p.2 fun c => (p.1.getSuperclass c).bind fun x => .ok (p.1, .cls (p.1.nameOf x))

/-- A client program and its answers. -/
def Build.run (b : Build) : World → List ClientOp → Res (World × List ClientAnswer)
  | w, [] => .ok (w, [])
  | w, op :: ops =>
    (op.run b w).bind fun p => (b.run p.1 ops).bind fun q => .ok (q.1, p.2 :: q.2)

end Jnivm
