import Verif.Model.ObjArgs
import Verif.Model.Proxy
/-!
C++ code calls a hooked C++ function through `Method::invoke` (include/jnivm/method.h:96-152): its
arguments become `jvalue`s by `ToJNIReturnType` (include/jnivm/jnitypes.h:52-84, 114-123, 297-314), and the
hooked function gets C++ values again by `JNICast` (`Model/ObjArgs.lean`).

Simplifications: objects that are copied contain no references to other objects; the call returns
normally.  The dispatch on the signature and exceptions are in `Model/Proxy.lean`.
-/
namespace Jnivm

/-- An argument of `invoke`; the template takes it by value (include/jnivm/method.h:146).  A `jclass`,
`jthrowable` or `jstring` does not compile: the overload for `Y*` (include/jnivm/jnitypes.h:57) asks it
for `weak_from_this`. -/
inductive InvokeArg where
  /-- a number or `bool` -/
  | prim (ty : JType) (v : BitVec 64)
  | jobject (r : Option Nat)
  /-- `std::shared_ptr<T>` -/
  | shared (c : CppClass) (o : Option Nat)
  /-- `T*`, null or to an object that some `shared_ptr` owns -/
  | pointer (c : CppClass) (o : Option Nat)
  /-- `T*` to an object that no `shared_ptr` owns, with the `clazz` of the object -/
  | unowned (c : CppClass) (cls : Option Nat)
  /-- `T`, with the `clazz` of the object -/
  | value (c : CppClass) (cls : Option Nat)
deriving DecidableEq, Repr

/-- A `jvalue`: a number or a reference. -/
inductive JArg where
  | bits (v : BitVec 64)
  | ref (r : Option Nat)
deriving DecidableEq, Repr

/-- What a parameter of type `std::shared_ptr` owns until `invoke` returns. -/
def InvokeArg.owned : InvokeArg → Option Nat
  | .shared _ o => o
  | _ => none

namespace Heap

/-- `ToJNIType(env, std::make_shared<Y>(p))`, include/jnivm/jnitypes.h:61, 74-76.  `clazz` is a weak
pointer to a class, and classes never expire. -/
def passCopy (w : CppTypes) (h : Heap) (t : Nat) (c : CppClass) (cls : Option Nat) : Res (Heap × JArg) :=
  if cls.all (fun k => (h.classes.map (·.2)).contains k) then
    ((h.alloc ⟨.plain, cls⟩).1.toJNI? t (h.staticClass w c) (some (h.alloc ⟨.plain, cls⟩).2)).bind
      fun (h, r) => .ok (h, .ref r)
  else .ub .dangling

/-- `toJValue(JNITypes<param>::ToJNIReturnType(env, param))`, include/jnivm/method.h:137 (line 101 and
following without `toJValue`).  `share` tells whether the caller is compiled with the
`weak_from_this` of C++17; without it every `T*` is copied (include/jnivm/jnitypes.h:57-65). -/
def passArg (w : CppTypes) (share : Bool) (h : Heap) (t : Nat) : InvokeArg → Res (Heap × JArg)
  | .prim ty v => .ok (h, .bits (ty.toJValue v))
  | .jobject r => .ok (h, .ref r)
  | .shared c o => (h.toJNI? t (h.staticClass w c) o).bind fun (h, r) => .ok (h, .ref r)
  | .pointer _ none => .ok (h, .ref none)
  | .pointer c (some i) =>
    if share then (h.toJNI? t (h.staticClass w c) (some i)).bind fun (h, r) => .ok (h, .ref r)
    else match h.objs i with
      | none => .ub .dangling
      | some o => h.passCopy w t c o.cls
  | .unowned c cls => h.passCopy w t c cls
  | .value c cls => h.passCopy w t c cls

/-- `{ toJValue(ToJNIReturnType(env, params))... }`, include/jnivm/method.h:137: from left to right. -/
def passAll (w : CppTypes) (share : Bool) (t : Nat) : Heap → List InvokeArg → Res (Heap × List JArg)
  | h, [] => .ok (h, [])
  | h, a :: as => (h.passArg w share t a).bind fun (h, j) =>
      (passAll w share t h as).bind fun (h, js) => .ok (h, j :: js)

end Heap

/-- A parameter of the hooked function. -/
inductive Param where
  | prim (ty : JType)
  | obj (p : ObjParam)
deriving DecidableEq, Repr

/-- What the hooked function receives. -/
inductive Arg where
  | bits (v : BitVec 64)
  | obj (x : ObjArg)
deriving DecidableEq, Repr

/-- The member of the union `jvalue` that `JNITypes<ty>::JNICast` reads, include/jnivm/jnitypes.h:126-223. -/
def JType.member (ty : JType) (v : BitVec 64) : BitVec 64 :=
  match ty with
  | .boolean | .byte => (v.truncate 8).zeroExtend 64
  | .char | .short => (v.truncate 16).zeroExtend 64
  | .int | .float => (v.truncate 32).zeroExtend 64
  | .long | .double => v
  | .void | .object => 0

namespace Heap

/-- `JNITypes<P>::JNICast(env, values[I])`; numbers and references must not be mixed up. -/
def receiveArg (w : CppTypes) (h : Heap) (t : Nat) : Param → JArg → Res (Heap × Arg)
  | .prim ty, .bits v => .ok (h, .bits (ty.member v))
  | .obj p, .ref r => (h.convert w t r p).bind fun (h, x) => .ok (h, .obj x)
  | _, _ => .ub .typePun

/-- `(JNITypes<P>::JNICast(env, values[I]))...`, include/jnivm/wrap.h:113-117: surplus values are ignored,
missing ones are read behind the end of the array. -/
def receiveAll (w : CppTypes) (t : Nat) : Heap → List Param → List JArg → Res (Heap × List Arg)
  | h, [], _ => .ok (h, [])
  | _, _ :: _, [] => .ub .outOfBounds
  | h, p :: ps, j :: js => (h.receiveArg w t p j).bind fun (h, x) =>
      (receiveAll w t h ps js).bind fun (h, xs) => .ok (h, x :: xs)

end Heap

/-- The object that an argument of the hooked function owns. -/
def Arg.owned : Arg → Option Nat
  | .obj x => x.owned
  | .bits _ => none

/-- A hooked function: the class of `this` if it is a member function, its parameters, what it (and
other threads meanwhile) does with references and what it returns. -/
structure HookedFn where
  this : Option CppClass
  params : List Param
  body : List (Nat × HeapOp)
  returns : ObjRet

/-- What `shared_ptr`s own until `invoke` returns: the receiver (the temporaries of
include/jnivm/method.h:147, 151) and the parameters. -/
def invokeOwned (target : Recipient) (args : List InvokeArg) : List Nat :=
  target.ref :: args.filterMap InvokeArg.owned

namespace Heap

/-- The caller's side: the receiver and the arguments become references, `Call..MethodA` asks an object for its class (src/jnivm/internal/method.cpp:200). -/
def invokeBegin (w : CppTypes) (share : Bool) (h : Heap) (t : Nat) (target : Recipient)
    (args : List InvokeArg) : Res (Heap × List JArg) :=
  let h := h.hold (invokeOwned target args)
  (h.toJNI? t (h.typeClass target.type) (some target.ref)).bind fun (h, _) =>
  (passAll w share t h args).bind fun (h, js) =>
    match target with
    | .cls _ => .ok (h.collect, js)
    | .obj i => (h.getObjectClass t (some i)).bind fun (h, _) => .ok (h.collect, js)

/-- The callee's side: `this` and the arguments are converted, and temporaries own objects. -/
def invokeEnter (w : CppTypes) (h : Heap) (t : Nat) (target : Recipient) (f : HookedFn)
    (js : List JArg) : Res (Heap × List Nat × List Arg) :=
  (h.receiver w (f.this.map fun c => (c, some target.ref))).bind fun self =>
  (receiveAll w t h f.params js).bind fun (h, xs) =>
    .ok ((h.hold (self ++ xs.filterMap Arg.owned)).collect, self ++ xs.filterMap Arg.owned, xs)

/-- `method->invoke(env, target, args...)` on a hooked function: the state after it, the resulting
reference and what the function received. -/
def invoke (w : CppTypes) (share : Bool) (h : Heap) (t : Nat) (target : Recipient) (args : List InvokeArg)
    (f : HookedFn) : Res (Heap × Option Nat × List Arg) :=
  (h.invokeBegin w share t target args).bind fun (h, js) =>
  (h.invokeEnter w t target f js).bind fun (h, temps, xs) =>
  (runHeap h f.body).bind fun h =>
  (h.hookLeave w t temps f.returns).bind fun (h, r) =>
    .ok ((h.letGo (invokeOwned target args)).collect, r, xs)

end Heap
end Jnivm
