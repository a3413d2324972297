import Verif.Model.Heap
import Verif.Model.MemberOps
/-!
Method calls and field accesses: src/jnivm/internal/method.cpp:168-317,
src/jnivm/internal/field.cpp:107-159 and the wrappers of include/jnivm/wrap.h and
include/jnivm/methodhandlebase.h.

A hooked function is named by a number (`MethodRec.handle`); what it does is an arbitrary function on
the state of the VM.  The state joins the tables of `World` and the objects of `Heap`; a class object
of the heap and a class of the registry belong together by name.
-/
namespace Jnivm

/-- The state of the VM. -/
structure Vm where
  world : World
  heap : Heap

/-- The ten result types for which `MethodHandleBase` is instantiated,
include/jnivm/methodhandlebase.h:38-44. -/
inductive JType where
  | object | boolean | byte | char | short | int | long | float | double | void
deriving DecidableEq, Repr

/-- A piece of user code returns, throws, is undefined, ends the process or loops.  The state at the
time of a throw matters, because the exception may be caught. -/
inductive Outcome (σ α : Type) where
  | returns (s : σ) (a : α)
  | raises (s : σ) (e : Exn)
  | ub (u : UB)
  | aborts
  | diverges

/-- Continue with code of the VM that started in state `s`. -/
def Outcome.lift {σ α β : Type} (s : σ) : Res α → (α → Outcome σ β) → Outcome σ β
  | .ok a, f => f a
  | .throws e, _ => .raises s e
  | .ub u, _ => .ub u
  | .diverges, _ => .diverges

/-- How a function was hooked: as a static function (`StaticFunction`), as an instance function given
by a plain function or lambda (`InstanceFunction` over `StaticBase<true, ..>`), or as an instance
function given by a pointer to a member function (over `InstanceBase`); include/jnivm/wrap.h:62-135,
242-336. -/
inductive HookKind where
  | static | inst | member
deriving DecidableEq, Repr

/-- The second argument of a wrapper: a `jobject` or a `Class*`. -/
inductive Self where
  | obj (o : Option Nat)
  | cls (c : Option Nat)
deriving DecidableEq, Repr

/-- A `MethodHandle`: its kind, the JNI type of its result and what the wrapped function does,
including the conversion of the arguments and of the result.  A `jvalue` is 64 bits. -/
structure Hook where
  kind : HookKind
  type : JType
  run : Vm → Self → List (BitVec 64) → Outcome Vm (BitVec 64)

/-- Which virtual function of the handle is called. -/
inductive Access where
  | inst | nonVirtual | static
deriving DecidableEq, Repr

/-- The virtual call on `MethodHandleBase<ty>`.  A wrapper overrides the functions of its own result
type and kind only, all others throw, include/jnivm/methodhandlebase.h:10-36,
include/jnivm/wrap.h:247-336; a pointer to a member function cannot be called non-virtually,
include/jnivm/wrap.h:69-71, 204-206. -/
def Hook.invoke (k : Hook) (a : Access) (ty : JType) (vm : Vm) (self : Self)
    (args : List (BitVec 64)) : Outcome Vm (BitVec 64) :=
  if k.type = ty then
    match k.kind, a with
    | .static, .static => k.run vm self args
    | .inst, .inst => k.run vm self args
    | .inst, .nonVirtual => k.run vm self args
    | .member, .inst => k.run vm self args
    | .member, .nonVirtual => .raises vm .notSupported
    | _, _ => .raises vm .mismatchedHandle
  else .raises vm .mismatchedHandle

/-- The method behind a `jmethodID`.  Methods for a null class (`World.loose`) are kept by local
frames; here they are never released. -/
def World.method? (w : World) (id : Nat) : Option MethodRec :=
  ((List.range w.reg.cls.length).flatMap (fun c => (w.mem c).methods) ++ w.loose).find? (·.id == id)

/-- `findNonVirtualOverload`, src/jnivm/internal/method.cpp:168-180. -/
def findNonVirtualOverload (w : World) (cl : Option Nat) (mid : MethodRec) : Option MethodRec :=
  match cl with
  | none => some mid
  | some c => (w.mem c).methods.find? fun m =>
      !m.static && mid.name == m.name && mid.signature == m.signature && m.handle.isSome

/-- `findVirtualOverload`, src/jnivm/internal/method.cpp:182-189.  `mid->GetBaseClasses(env)` are the
base classes of the C++ class `Method`, that is one null pointer (include/jnivm/method.h:14,
src/jnivm/object.cpp:9-11), so the recursive call is made with a null class. -/
def findVirtualOverload (w : World) (cl : Option Nat) (mid : MethodRec) : MethodRec :=
  match findNonVirtualOverload w cl mid with
  | some m => m
  | none =>
    match findNonVirtualOverload w none mid with
    | some m => m
    | none => mid

/-- The `Class` a class object stands for.  The registry knows every class except "Invalid", which
`GetObjectClass(null)` creates. -/
def Vm.classOf (vm : Vm) : Option Nat → Res (Vm × Option Nat)
  | none => .ok (vm, none)
  | some i => match vm.heap.objs i with
    | none => .ub .dangling
    | some o => match o.kind with
      | .cls n => .ok ({ vm with world := { vm.world with reg := (findClass false vm.world.reg n).1 } },
          (findClass false vm.world.reg n).2)
      | _ => .ub .dangling

/-- `JNICast(env, env->GetObjectClass(obj))`, src/jnivm/internal/method.cpp:200. -/
def Vm.objectClass (vm : Vm) (t : Nat) (obj : Option Nat) : Res (Vm × Option Nat) :=
  ((HeapOp.getObjectClass obj).run vm.heap t).bind fun (h, out) =>
    match out with
    | .ref c => Vm.classOf { vm with heap := h } c
    | _ => .ub .dangling

/-- `JNITypes<std::shared_ptr<Class>>::JNICast(env, cl)` -/
def Vm.castClass (vm : Vm) (cl : Option Nat) : Res (Vm × Option Nat) :=
  (vm.heap.cast (fun k => match k with | .cls _ => true | _ => false) cl).bind fun c => vm.classOf c

/-- `catch (...)`, src/jnivm/internal/method.cpp:207-214: the exception becomes pending and the
default value, zero (src/jnivm/internal/method.cpp:86-92, 165), is returned. -/
def Vm.catchAll (t : Nat) : Outcome Vm (BitVec 64) → Outcome Vm (BitVec 64)
  | .raises vm e =>
    Outcome.lift vm ((HeapOp.raise e).run vm.heap t) fun (h, _) => .returns { vm with heap := h } 0
  | o => o

/-- The `try` block on the chosen method; a null method or null handle is dereferenced. -/
def Vm.invoke (code : Nat → Hook) (t : Nat) (ty : JType) (a : Access) (self : Self)
    (args : List (BitVec 64)) (vm : Vm) : Option MethodRec → Outcome Vm (BitVec 64)
  | none => .ub .nullDeref
  | some m => match m.handle with
    | none => .ub .nullDeref
    | some f => Vm.catchAll t ((code f).invoke a ty vm self args)

/-- `if (mid && mid->nativehandle) .. else return defaultVal` -/
def Vm.withMethod (vm : Vm) (id : Option Nat) (f : MethodRec → Outcome Vm (BitVec 64)) :
    Outcome Vm (BitVec 64) :=
  match id with
  | none => .returns vm 0
  | some i => match vm.world.method? i with
    | none => .ub .dangling
    | some m => if m.handle.isSome then f m else .returns vm 0

/-- The receiver of a call. -/
inductive Form where
  | virtual (obj : Option Nat)
  | nonVirtual (obj cl : Option Nat)
  | static (cl : Option Nat)
deriving DecidableEq, Repr

/-- `Call<ty>MethodA`, `CallNonvirtual<ty>MethodA` and `CallStatic<ty>MethodA`,
src/jnivm/internal/method.cpp:191-223, 251-285, 287-317. -/
def Vm.callA (code : Nat → Hook) (t : Nat) (ty : JType) (vm : Vm) (form : Form) (id : Option Nat)
    (args : List (BitVec 64)) : Outcome Vm (BitVec 64) :=
  match form with
  | .virtual obj => vm.withMethod id fun mid =>
      Outcome.lift vm (vm.objectClass t obj) fun (vm, c) =>
        Vm.invoke code t ty .inst (.obj obj) args vm (some (findVirtualOverload vm.world c mid))
  | .nonVirtual obj cl => vm.withMethod id fun mid =>
      Outcome.lift vm (vm.castClass cl) fun (vm, c) =>
        Vm.invoke code t ty .nonVirtual (.obj obj) args vm (findNonVirtualOverload vm.world c mid)
  | .static cl => Outcome.lift vm (vm.castClass cl) fun (vm, c) =>
      vm.withMethod id fun mid => Vm.invoke code t ty .static (.cls c) args vm (some mid)

/-- The `va_list` and `...` variants, src/jnivm/internal/method.cpp:225-249: the arguments are read
according to the signature of the method, whether or not it is hooked. -/
def Vm.callV (d2f : BitVec 64 → BitVec 32) (code : Nat → Hook) (t : Nat) (ty : JType) (vm : Vm)
    (form : Form) (id : Option Nat) (va : List Spec.CArg) : Outcome Vm (BitVec 64) :=
  match id with
  | none => .returns vm 0
  | some i => match vm.world.method? i with
    | none => .ub .dangling
    | some m => Outcome.lift vm (jvaluesFromValist d2f m.signature va) fun args =>
        vm.callA code t ty form id args.1

/-- The field behind a `jfieldID`. -/
def World.field? (w : World) (id : Nat) : Option FieldRec :=
  ((List.range w.reg.cls.length).flatMap fun c => (w.mem c).fields).find? (·.id == id)

/-- The virtual `InstanceGet`/`StaticGet`/`InstanceSet`/`StaticSet` of a handle: the wrappers of
include/jnivm/wrap.h:247-336 override the one of their own kind and type. -/
def Hook.access (k : Hook) (static : Bool) (ty : JType) (vm : Vm) (self : Self)
    (args : List (BitVec 64)) : Outcome Vm (BitVec 64) :=
  if k.type = ty ∧ (k.kind = .static ↔ static = true) then k.run vm self args
  else .raises vm .mismatchedHandle

/-- The owner of an accessed field. -/
inductive Owner where
  | obj (o : Option Nat)
  | cls (c : Option Nat)
deriving DecidableEq, Repr

/-- `Util::GetParam`, src/jnivm/internal/field.cpp:72-83. -/
def Vm.ownerSelf (vm : Vm) : Owner → Res (Vm × Self)
  | .obj o => .ok (vm, .obj o)
  | .cls c => (vm.castClass c).bind fun (vm, c) => .ok (vm, .cls c)

def Owner.isClass : Owner → Bool
  | .obj _ => false
  | .cls _ => true

def Owner.isNull : Owner → Bool
  | .obj o => o.isNone
  | .cls c => c.isNone

/-- `GetField`, src/jnivm/internal/field.cpp:107-131.  There is no `try` block. -/
def Vm.getField (code : Nat → Hook) (ty : JType) (vm : Vm) (owner : Owner) (id : Option Nat) :
    Outcome Vm (BitVec 64) :=
  match id with
  | none => .returns vm 0
  | some i => match vm.world.field? i with
    | none => .ub .dangling
    | some f => match f.getter with
      | none => .returns vm 0
      | some g =>
        if f.static = owner.isClass then
          Outcome.lift vm (vm.ownerSelf owner) fun (vm, self) =>
            (code g).access f.static ty vm self []
        else .aborts

/-- `SetField`, src/jnivm/internal/field.cpp:133-159; the result is ignored. -/
def Vm.setField (code : Nat → Hook) (ty : JType) (vm : Vm) (owner : Owner) (id : Option Nat)
    (value : BitVec 64) : Outcome Vm (BitVec 64) :=
  if owner.isNull then .returns vm 0 else
  match id with
  | none => .returns vm 0
  | some i => match vm.world.field? i with
    | none => .ub .dangling
    | some f => match f.setter with
      | none => .returns vm 0
      | some s =>
        if f.static = owner.isClass then
          Outcome.lift vm (vm.ownerSelf owner) fun (vm, self) =>
            (code s).access f.static ty vm self [value]
        else .aborts

end Jnivm
