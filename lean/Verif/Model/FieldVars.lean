import Verif.Model.Invoke
/-!
Fields that are hooked to C++ variables: pointers to variables (`FunctionType::Property`) and pointers to
member variables (`FunctionType::InstanceProperty`), include/jnivm/wrap.h:141-191, accessed through
`Get<T>Field` and `Set<T>Field`, src/jnivm/internal/field.cpp:64-157.

Simplifications: a variable is named by the object it belongs to and a number, the static variables of a
class belong to one block that is never released; by-value variables are known by their `clazz` only; a
call that throws changes nothing (the conversions in it create no references).
-/
namespace Jnivm

/-- The types of variables for which the wrappers compile: `MethodHandle` has a base for the ten JNI types
only (include/jnivm/methodhandlebase.h:38-44), so `T*`, `jclass` and `jstring` do not. -/
inductive VarTy where
  /-- `jboolean` … `jdouble` -/
  | prim (ty : JType)
  /-- `bool` -/
  | bool
  /-- `std::shared_ptr<T>` -/
  | shared (c : CppClass)
  /-- `T` for a class `T` -/
  | value (c : CppClass)
  | jobject
deriving DecidableEq, Repr

/-- `__JNIType<T>`, include/jnivm/wrap.h:251-252. -/
def VarTy.jni : VarTy → JType
  | .prim ty => ty
  | .bool => .boolean
  | .shared _ | .value _ | .jobject => .object

/-- A variable is a member of a class or static. -/
inductive VarOwner where
  | inst (c : CppClass)
  | static (block : Nat)
deriving DecidableEq, Repr

/-- A field hooked to a variable. -/
structure FieldVar where
  owner : VarOwner
  index : Nat
  type : VarTy
deriving DecidableEq, Repr

/-- What `Set<T>Field` is given and `Get<T>Field` returns. -/
inductive VarVal where
  | bits (ty : JType) (v : BitVec 64)
  | ref (r : Option Nat)
deriving DecidableEq, Repr

/-- Which `Set<T>Field` it is. -/
def VarVal.jni : VarVal → JType
  | .bits ty _ => ty
  | .ref _ => .object

/-- The objects, with the variables that are not `std::shared_ptr`s: primitive ones, those of type
`jobject`, and the `clazz` of those of class type. -/
structure VarHeap where
  heap : Heap
  bits : Nat → Nat → BitVec 64
  refs : Nat → Nat → Option Nat
  copies : Nat → Nat → Option Nat

/-- Assignment to one variable. -/
def assign {α : Type} (m : Nat → Nat → α) (x i : Nat) (a : α) : Nat → Nat → α := fun y j =>
  if y = x ∧ j = i then a else m y j

namespace VarHeap

/-- Before any access; static variables without initialiser are zero, and so are the members of the objects
(a member without initialiser would be indeterminate). -/
def initial : VarHeap := ⟨Heap.initial, fun _ _ => 0, fun _ _ => none, fun _ _ => none⟩

/-- `Util::GetParam(env, obj)`, src/jnivm/internal/field.cpp:79-84: a class is converted. -/
def param (h : Heap) (f : FieldVar) (obj : Option Nat) : Res Unit :=
  match f.owner with
  | .inst _ => .ok ()
  | .static _ => (h.cast (fun k => match k with | .cls _ => true | _ => false) obj).bind fun _ => .ok ()

/-- The object `handle` points into, include/jnivm/wrap.h:166-178 (static), 187, 190 (member): a null object
is dereferenced.  A static variable is in an existing block. -/
def owner (w : CppTypes) (h : Heap) (f : FieldVar) (obj : Option Nat) : Res Nat :=
  match f.owner with
  | .static b => match h.objs b with
    | some ⟨.record _, _⟩ => .ok b
    | _ => .ub .dangling
  | .inst c => (h.unpack w c obj).bind fun
    | none => .ub .nullDeref
    | some x => .ok x

/-- `Get<ty>Field` on thread `t`, src/jnivm/internal/field.cpp:107-131, include/jnivm/wrap.h:303-310, 322-329. -/
def get (w : CppTypes) (s : VarHeap) (t : Nat) (f : FieldVar) (ty : JType) (obj : Option Nat) :
    Res (VarHeap × VarVal) :=
  (s.heap.env t).bind fun _ =>
  (param s.heap f obj).bind fun _ =>
  if f.type.jni ≠ ty then .throws .mismatchedHandle else
  (owner w s.heap f obj).bind fun x =>
    match f.type with
    | .prim _ | .bool => .ok (s, .bits ty (s.bits x f.index))
    | .jobject => .ok (s, .ref (s.refs x f.index))
    | .shared c => ((HeapOp.getVar (some x) f.index (w.name c)).run s.heap t).bind fun
        | (h, .ref r) => .ok ({ s with heap := h }, .ref r)
        | _ => .ub .dangling
    | .value c => ((HeapOp.newCopy (s.copies x f.index) (w.name c)).run s.heap t).bind fun
        | (h, .ref r) => .ok ({ s with heap := h }, .ref r)
        | _ => .ub .dangling

/-- `*handle = JNICast(env, values[0])`, include/jnivm/wrap.h:167, 173, 187: the value is converted first,
the order of C++17.  A `jboolean` that is assigned to a `bool` becomes 0 or 1. -/
def store (w : CppTypes) (s : VarHeap) (t : Nat) (f : FieldVar) (obj : Option Nat) (v : VarVal) :
    Res VarHeap :=
  match f.type, v with
  | .prim ty, .bits _ v => (owner w s.heap f obj).bind fun x =>
      .ok { s with bits := assign s.bits x f.index (ty.member v) }
  | .bool, .bits _ v => (owner w s.heap f obj).bind fun x =>
      .ok { s with bits := assign s.bits x f.index (if JType.boolean.member v = 0 then 0 else 1) }
  | .jobject, .ref r => (owner w s.heap f obj).bind fun x =>
      .ok { s with refs := assign s.refs x f.index r }
  | .shared c, .ref r => (s.heap.unpack w c r).bind fun y => (owner w s.heap f obj).bind fun x =>
      ((HeapOp.setVar (some x) f.index y).run s.heap t).bind fun (h, _) => .ok { s with heap := h }
  | .value c, .ref r => (s.heap.unpack w c r).bind fun
      | none => .throws .runtimeError
      | some y => (owner w s.heap f obj).bind fun x => match s.heap.objs y with
        | none => .ub .dangling
        | some o => .ok { s with copies := assign s.copies x f.index o.cls }
  | _, _ => .throws .mismatchedHandle

/-- `Set<v.jni>Field` on thread `t`, src/jnivm/internal/field.cpp:131-157: without an object or class nothing
happens. -/
def set (w : CppTypes) (s : VarHeap) (t : Nat) (f : FieldVar) (obj : Option Nat) (v : VarVal) : Res VarHeap :=
  (s.heap.env t).bind fun _ =>
  match obj with
  | none => .ok s
  | some _ =>
    (param s.heap f obj).bind fun _ =>
    if f.type.jni ≠ v.jni then .throws .mismatchedHandle else s.store w t f obj v

end VarHeap

/-- A call of a thread: one that is not about variables, or an access to a variable. -/
inductive VarOp where
  | jni (op : HeapOp)
  | get (f : FieldVar) (ty : JType) (obj : Option Nat)
  | set (f : FieldVar) (obj : Option Nat) (v : VarVal)
deriving DecidableEq, Repr

/-- What the call does. -/
def VarOp.run (w : CppTypes) (s : VarHeap) (t : Nat) : VarOp → Res VarHeap
  | .jni op => (op.run s.heap t).bind fun (h, _) => .ok { s with heap := h }
  | .get f ty obj => (s.get w t f ty obj).bind fun (s, _) => .ok s
  | .set f obj v => s.set w t f obj v

/-- A history; an access that throws changes nothing and the caller goes on, any other call that throws ends
it. -/
def runVars (w : CppTypes) : VarHeap → List (Nat × VarOp) → Res VarHeap
  | s, [] => .ok s
  | s, (t, op) :: ops => match op.run w s t, op with
    | .ok s, _ => runVars w s ops
    | .throws e, .jni _ => .throws e
    | .throws _, _ => runVars w s ops
    | .ub u, _ => .ub u
    | .diverges, _ => .diverges

end Jnivm
