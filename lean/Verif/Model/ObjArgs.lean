import Verif.Model.Heap
import Verif.Model.HookSig
/-!
Objects as arguments and results of hooked C++ functions: `JNICast` to the type of each parameter
(include/jnivm/jnitypes.h:317-383), the temporaries that own objects while the function runs
(include/jnivm/wrap.h:66-67, 86, 113-117) and `ToJNIReturnType` (include/jnivm/jnitypes.h:43-85,
297-313).

Simplifications: the class types are neither `Weak` nor `Global`; functions return normally (an exception
drops the same temporaries); C++ leaves open in which order arguments are converted, here they are
converted in the order of the list, which may be any.
-/
namespace Jnivm

/-- What is known about C++ types: which objects are instances (`dynamic_cast<T*>`; the dynamic type of
an object never changes), and the name of the class `VM::typecheck` has for a type. -/
structure CppTypes where
  isa : Nat → CppClass → Bool
  name : CppClass → Option Str

/-- The parameter types that take objects. -/
inductive ObjParam where
  /-- `std::shared_ptr<T>` -/
  | shared (c : CppClass)
  /-- `T*` -/
  | pointer (c : CppClass)
  /-- `T&` and `const T&` -/
  | ref (c : CppClass)
  /-- `T` -/
  | value (c : CppClass)
  /-- `jobject` -/
  | jobject
  /-- `jclass` and `jthrowable` -/
  | jhandle (c : CppClass)
deriving DecidableEq, Repr

/-- The conversion `JNITypes<P>` has for the parameter type, include/jnivm/jnitypes.h:84-111, 138-146,
248-256.  There is none for primitive types, and for `const std::shared_ptr<T>&`, which selects the
primary `OrgTypeConverter` and does not compile, as do `jstring` and an array by value. -/
def CppTy.objParam (ci : CppInfo) (string : Nat) : CppTy → Option ObjParam
  | .handle t => if t = ci.object then some .jobject else if t = string then none
    else some (.jhandle (.cls t))
  | .data .shared c => if c.isClass then some (.shared c) else none
  | .data .pointer c => if c.isClass then some (.pointer c) else none
  | .data .ref c => if c.isClass then some (.ref c) else none
  | .data .constRef c => if c.isClass then some (.ref c) else none
  | .data .value (.cls t) => some (.value (.cls t))
  | _ => none

/-- What the function receives. -/
inductive ObjArg where
  /-- a `std::shared_ptr`, which owns the object during the call -/
  | shared (o : Option Nat)
  | pointer (o : Option Nat)
  | ref (o : Nat)
  /-- a copy made from the object -/
  | copy (o : Nat)
  /-- a `jobject`, `jclass` or `jthrowable` -/
  | handle (r : Option Nat)
deriving DecidableEq, Repr

namespace Heap

/-- `UnpackJObject<T>`, include/jnivm/jnitypes.h:317-337. -/
def unpack (w : CppTypes) (h : Heap) (c : CppClass) (r : Option Nat) : Res (Option Nat) :=
  (h.denote r).bind fun
    | none => .ok none
    | some i => if w.isa i c then .ok (some i) else .throws .badCast

/-- The class for objects of static type `T` that have none, include/jnivm/jnitypes.h:286-295. -/
def staticClass (w : CppTypes) (h : Heap) (c : CppClass) : Option Nat := (w.name c).bind h.typeClass

/-- `OrgTypeConverter<orgtype, T>::Convert`, include/jnivm/jnitypes.h:359-366, for a reference or a
value. -/
def nonNull (f : Nat → ObjArg) (h : Heap) : Option Nat → Res (Heap × ObjArg)
  | none => .throws .runtimeError
  | some i => .ok (h, f i)

/-- `OrgTypeConverter<orgtype*, T>::Convert`, include/jnivm/jnitypes.h:374-379: the object gets a local
reference. -/
def asPointer (w : CppTypes) (h : Heap) (t : Nat) (c : CppClass) (f : Option Nat → ObjArg)
    (o : Option Nat) : Res (Heap × ObjArg) :=
  (h.toJNI? t (h.staticClass w c) o).bind fun (h, o) => .ok (h, f o)

/-- `JNITypes<P>::JNICast(env, v)` on thread `t`, include/jnivm/jnitypes.h:39-42, 140-142, 381-383. -/
def convert (w : CppTypes) (h : Heap) (t : Nat) (r : Option Nat) : ObjParam → Res (Heap × ObjArg)
  | .jobject => .ok (h, .handle r)
  | .shared c => (h.unpack w c r).bind fun o => .ok (h, .shared o)
  | .pointer c => (h.unpack w c r).bind fun o => h.asPointer w t c .pointer o
  | .jhandle c => (h.unpack w c r).bind fun o => h.asPointer w t c .handle o
  | .ref c => (h.unpack w c r).bind fun o => h.nonNull .ref o
  | .value c => (h.unpack w c r).bind fun o => h.nonNull .copy o

/-- `(JNITypes<P>::JNICast(env, values[I]))...` -/
def convertAll (w : CppTypes) (t : Nat) : Heap → List (ObjParam × Option Nat) → Res (Heap × List ObjArg)
  | h, [] => .ok (h, [])
  | h, (p, r) :: as => (h.convert w t r p).bind fun (h, x) =>
      (convertAll w t h as).bind fun (h, xs) => .ok (h, x :: xs)

/-- Temporary `shared_ptr`s own these objects too. -/
def hold (h : Heap) (os : List Nat) : Heap := { h with pinned := os ++ h.pinned }

/-- These `shared_ptr`s are destroyed. -/
def letGo (h : Heap) (os : List Nat) : Heap :=
  { h with pinned := os.foldl (fun l i => l.erase i) h.pinned }

end Heap

/-- The object that a parameter of type `std::shared_ptr` owns. -/
def ObjArg.owned : ObjArg → Option Nat
  | .shared o => o
  | _ => none

/-- What the function returns. -/
inductive ObjRet where
  | void
  /-- a `std::shared_ptr<T>` -/
  | shared (c : CppClass) (o : Option Nat)
  /-- a `T`, copied from an object or constructed without one -/
  | value (c : CppClass) (source : Option Nat)
  /-- a `jobject` -/
  | jobject (r : Option Nat)
deriving DecidableEq, Repr

/-- The objects that live at least as long as the returned C++ value needs them: a `std::shared_ptr` owns
its object, a copy is made before its source can go away. -/
def ObjRet.owned : ObjRet → List Nat
  | .shared _ o => o.toList
  | .value _ o => o.toList
  | _ => []

/-- One call of a hooked function: for a pointer to a member function its class and the receiver, the
arguments, what the function does with references (its own calls and those other threads make
meanwhile) and what it returns. -/
structure ObjCall where
  this : Option (CppClass × Option Nat)
  args : List (ObjParam × Option Nat)
  body : List (Nat × HeapOp)
  returns : ObjRet

namespace Heap

/-- `std::make_shared<Y>(p)`, include/jnivm/jnitypes.h:75: the new object has the `clazz` of the value it is
copied from (the copy constructor of `Object` is implicit, include/jnivm/object.h:21-33). -/
def copyOf (h : Heap) : Option Nat → Res (Heap × Nat)
  | none => .ok (h.alloc ⟨.plain, none⟩)
  | some i => match h.objs i with
    | none => .ub .dangling
    | some o => .ok (h.alloc ⟨.plain, o.cls⟩)

/-- `ToJNIReturnType`, include/jnivm/jnitypes.h:52-54, 73-84, 116-122, 297-313. -/
def convertResult (w : CppTypes) (h : Heap) (t : Nat) : ObjRet → Res (Heap × Option Nat)
  | .void => .ok (h, none)
  | .jobject r => .ok (h, r)
  | .shared c o => h.toJNI? t (h.staticClass w c) o
  | .value c o => (h.copyOf o).bind fun (h, k) => h.toJNI? t (h.staticClass w c) (some k)

/-- `JNITypes<std::shared_ptr<This>>::JNICast(env, obj).get()->*funk`, include/jnivm/wrap.h:67: a null
receiver is dereferenced. -/
def receiver (w : CppTypes) (h : Heap) : Option (CppClass × Option Nat) → Res (List Nat)
  | none => .ok []
  | some (c, r) => (h.unpack w c r).bind fun
      | none => .ub .nullDeref
      | some i => .ok [i]

/-- The receiver and the arguments are converted: the state in which the function starts, what the
temporaries own and what the function receives. -/
def hookEnter (w : CppTypes) (h : Heap) (t : Nat) (this : Option (CppClass × Option Nat))
    (args : List (ObjParam × Option Nat)) : Res (Heap × List Nat × List ObjArg) :=
  (h.receiver w this).bind fun self =>
  (convertAll w t h args).bind fun (h, xs) =>
    .ok ((h.hold (self ++ xs.filterMap ObjArg.owned)).collect, self ++ xs.filterMap ObjArg.owned, xs)

/-- The function has returned: the temporaries are destroyed and the result gets a reference.  A function
that returns a pointer to a released object has undefined behaviour. -/
def hookLeave (w : CppTypes) (h : Heap) (t : Nat) (temps : List Nat) (ret : ObjRet) :
    Res (Heap × Option Nat) :=
  if ret.owned.all (fun i => (h.objs i).isSome) then
    ((h.letGo temps |>.hold ret.owned).collect.convertResult w t ret).bind fun (h, r) =>
      .ok ((h.letGo ret.owned).collect, r)
  else .ub .dangling

/-- The whole call on thread `t`, include/jnivm/wrap.h:66-67, 86, 113-117 (the call) and
298-327 (the result).  A leading parameter that takes the receiver is converted like the others (lines
26-30). -/
def hookCall (w : CppTypes) (h : Heap) (t : Nat) (c : ObjCall) : Res (Heap × Option Nat) :=
  (h.hookEnter w t c.this c.args).bind fun (h, temps, _) =>
  (runHeap h c.body).bind fun h => h.hookLeave w t temps c.returns

end Heap
end Jnivm
