import Verif.Model.Calls
/-!
Hooking C++ functions: the JNI signature made from the C++ types of a function
(include/jnivm/jnitypes.h, include/jnivm/wrap.h:14-24), the methods and fields a hook installs
(include/jnivm/class.h:64-139, include/jnivm/hookManager.h) and the arguments the wrapper hands to the
function (include/jnivm/wrap.h:26-135).

Everything the C++ decides at compile time is computed from a description of the types.  Functions that
do not compile have a model too; nothing is claimed about them.
-/
namespace Jnivm
open Spec (Prim)

/-- The C++ types `T` for which `JNITypes<T>` is instantiated: `jboolean` (or `bool`) to `jdouble`, a
class, or `jnivm::impl::Array<T>`.  Classes are named by numbers. -/
inductive CppClass where
  | prim (p : Prim)
  | cls (t : Nat)
  | arr (e : CppClass)
deriving DecidableEq, Repr

/-- `T`, `T*`, `T&`, `const T&`, `std::shared_ptr<T>` and `const std::shared_ptr<T>&`. -/
inductive PassBy where
  | value | pointer | ref | constRef | shared | constShared
deriving DecidableEq, Repr

/-- The type of a parameter or of the result.  `env t` is `ENV*` or `JNIEnv*`, `handle t` is `jobject`,
`jstring`, `jclass` or `jthrowable` with the class `Object`, `String`, `Class` or `Throwable`. -/
inductive CppTy where
  | void
  | env (t : Nat)
  | handle (t : Nat)
  | data (by_ : PassBy) (c : CppClass)
deriving DecidableEq, Repr

/-- What is known about the C++ types: their `std::type_index`, `T::getClassName()` if there is one
(`hasname`, include/jnivm/jnitypes.h:20-26), whether they derive from `Object`, the numbers of `Object`
and `Class`, and the types for which `VM::typecheck` holds a null pointer. -/
structure CppInfo where
  id : CppClass → Nat
  declared : CppClass → Option Str
  isObject : CppClass → Bool
  object : Nat
  clazz : Nat
  nulls : Nat → Bool

/-- `GetBaseClasses` uses `typecheck[typeid(Base)]`, include/jnivm/extends.h:17: asking class `c` for
its base classes leaves a null pointer for each base type that was never registered. -/
def World.touchBases (w : World) (c : Nat) (nulls : Nat → Bool) : Nat → Bool := fun t =>
  nulls t || (((w.mem c).bases.getD []).contains (some t) && (w.types t).isNone)

/-- `JNITypesObjectBase::GetJNISignature`, include/jnivm/jnitypes.h:276-284, 252-261. -/
def objectSig (ci : CppInfo) (w : World) (c : CppClass) : Res Str :=
  match w.types (ci.id c) with
  | some k => match w.reg.cls[k]? with
    | some cd => .ok ('L' :: (cd.nativeprefix ++ [';']))
    | none => .ub .dangling
  | none =>
    if ci.nulls (ci.id c) then .ub .nullDeref
    else match ci.declared c with
      | some n => .ok ('L' :: (n ++ [';']))
      | none => .throws .runtimeError

/-- `JNITypes<jboolean>::GetJNISignature` to `JNITypes<jchar>::GetJNISignature`,
include/jnivm/jnitypes.h:128-218. -/
def primSig : Prim → Str
  | .boolean => ['Z'] | .byte => ['B'] | .short => ['S'] | .int => ['I'] | .long => ['J']
  | .float => ['F'] | .double => ['D'] | .char => ['C']

/-- `std::is_class<T>::value` -/
def CppClass.isClass : CppClass → Bool
  | .prim _ => false
  | _ => true

/-- `JNITypes<T>::GetJNISignature` for a value of type `T`.  The signature of an array of classes also
creates the class of that array, include/jnivm/jnitypes.h:229-253; `InstantiateArray` is not modelled. -/
def CppClass.sig (ci : CppInfo) : World → CppClass → Res (World × Str)
  | w, .prim p => .ok (w, primSig p)
  | w, .cls t => (objectSig ci w (.cls t)).bind fun s => .ok (w, s)
  | w, .arr e => (e.sig ci w).bind fun (w, s) =>
      if e.isClass then .ok ({ w with reg := (findClass false w.reg ('[' :: s)).1 }, '[' :: s)
      else .ok (w, '[' :: s)

/-- `JNITypes<P>::GetJNISignature` for the type of a parameter or of the result,
include/jnivm/jnitypes.h:84-109, 219-224, 246-256.  `JNITypes<impl::Array<T>>` is chosen for an array
by value and by `std::shared_ptr`; an array passed otherwise is treated as a class. -/
def CppTy.sig (ci : CppInfo) (w : World) : CppTy → Res (World × Str)
  | .void => .ok (w, ['V'])
  | .env t => (objectSig ci w (.cls t)).bind fun s => .ok (w, s)
  | .handle t => (objectSig ci w (.cls t)).bind fun s => .ok (w, s)
  | .data .value c => c.sig ci w
  | .data .shared (.arr e) => (CppClass.arr e).sig ci w
  | .data _ c => (objectSig ci w c).bind fun s => .ok (w, s)

/-- `UnfoldJNISignature`, include/jnivm/wrap.h:14-24.  C++ leaves open which operand of `+` is evaluated
first; here the left one. -/
def unfoldSig (ci : CppInfo) : World → List CppTy → Res (World × Str)
  | w, [] => .ok (w, [])
  | w, p :: ps => (p.sig ci w).bind fun (w, s) => (unfoldSig ci w ps).bind fun (w, r) => .ok (w, s ++ r)

/-- `Function<T>::type`, include/jnivm/function.h: a function or lambda, a pointer to a member function,
a pointer to a variable, a pointer to a data member. -/
inductive FnKind where
  | plain | member | variable | dataMember
deriving DecidableEq, Repr

/-- `Function<T>`, include/jnivm/function.h:17-71. -/
structure CppFn where
  kind : FnKind
  ret : CppTy
  params : List CppTy
deriving DecidableEq, Repr

/-- `GetJNIInstanceInvokeSignature` and `GetJNIStaticInvokeSignature`, include/jnivm/wrap.h:75-77,
99-101, 123-125; the first `lead` parameters get the environment, the object or the class. -/
def CppFn.invokeSig (ci : CppInfo) (w : World) (f : CppFn) (lead : Nat) : Res (World × Str) :=
  (unfoldSig ci w (f.params.drop lead)).bind fun (w, ps) =>
    (f.ret.sig ci w).bind fun (w, r) => .ok (w, '(' :: (ps ++ ')' :: r))

/-- `GetJNIInstanceGetterSignature` and `GetJNIStaticGetterSignature`, include/jnivm/wrap.h:102-105,
126-129, 145-153. -/
def CppFn.getterSig (ci : CppInfo) (w : World) (f : CppFn) : Res (World × Str) := f.ret.sig ci w

/-- `GetJNIInstanceSetterSignature` and `GetJNIStaticSetterSignature`, include/jnivm/wrap.h:78-81,
106-109, 130-133, 148-156.  A missing parameter is `void`, include/jnivm/function.h:21. -/
def CppFn.setterSig (ci : CppInfo) (w : World) (f : CppFn) (lead : Nat) : Res (World × Str) :=
  match f.kind with
  | .variable => f.ret.sig ci w
  | .dataMember => f.ret.sig ci w
  | _ => ((f.params[lead]?).getD .void).sig ci w

/-- What the hook becomes. -/
inductive HookAs where
  | method | getter | setter | property
deriving DecidableEq, Repr

/-- `FunctionType` as the target of a hook, include/jnivm/function.h:6-15. -/
structure Bind where
  inst : Bool
  what : HookAs
deriving DecidableEq, Repr

/-- The target of `Class::Hook`, include/jnivm/class.h:113-115. -/
def FnKind.bind : FnKind → Bind
  | .plain => ⟨false, .method⟩
  | .member => ⟨true, .method⟩
  | .variable => ⟨false, .property⟩
  | .dataMember => ⟨true, .property⟩

/-- The target of `Class::HookInstance`, include/jnivm/class.h:117-119. -/
def FnKind.bindInstance (k : FnKind) : Bind := ⟨true, k.bind.what⟩

/-- `EnvArg`, include/jnivm/class.h:98: 1 if the first parameter is the environment. -/
def CppFn.envArg (f : CppFn) : Nat :=
  match f.params with
  | .env _ :: _ => 1
  | _ => 0

/-- The compile time condition of `HookManagerHelper`, include/jnivm/class.h:67, on the parameter that
may be the object or the class. -/
def CppTy.canBeSelf (ci : CppInfo) (inst : Bool) : CppTy → Bool
  | .data .value c => inst && ci.isObject c
  | .data .pointer c => if inst then ci.isObject c else c == .cls ci.clazz
  | .handle t => if inst then t == ci.object else t == ci.clazz
  | _ => false

/-- The run time condition, include/jnivm/class.h:73-79, 86-92: an object parameter other than
`Object*` and `jobject` has to have the type registered for the hooked class. -/
def CppTy.isSelf (ci : CppInfo) (w : World) (cl : Nat) (inst : Bool) : CppTy → Bool
  | .data b c => !inst || (b == .pointer && c == .cls ci.object) || w.types (ci.id c) == some cl
  | _ => true

/-- `HookManagerHelper<.., lead>`: the function is also installed with one more leading parameter,
include/jnivm/class.h:66-93. -/
def CppFn.takesSelf (ci : CppInfo) (w : World) (cl : Nat) (inst : Bool) (f : CppFn) (lead : Nat) : Bool :=
  f.kind == .plain && match f.params[lead]? with
    | none => false
    | some p => p.canBeSelf ci inst && p.isSelf ci w cl inst

/-- `HookManagerHelper2`, include/jnivm/class.h:98-110: with too many parameters for a getter or setter
only the form with one more leading parameter is installed. -/
def CppFn.needsSelf (b : Bind) (f : CppFn) : Bool :=
  ((b.what == .getter || b.what == .property) && decide (f.params.length > f.envArg)) ||
    ((b.what == .setter || b.what == .property) && decide (f.params.length > f.envArg + 1))

/-- The numbers of leading parameters with which the function is installed, in order. -/
def CppFn.leads (ci : CppInfo) (w : World) (cl : Nat) (b : Bind) (f : CppFn) : List Nat :=
  (if f.needsSelf b then [] else [f.envArg]) ++
    (if f.takesSelf ci w cl b.inst f.envArg then [f.envArg + 1] else [])

/-- `HookManager<..>::install`, include/jnivm/hookManager.h:88-176, for one wrapper.  `fn lead` is the
number of the wrapper with `lead` leading parameters. -/
def CppFn.installOne (ci : CppInfo) (w : World) (cl : Nat) (b : Bind) (f : CppFn) (name : Str)
    (fn : Nat → Nat) (lead : Nat) : Res World :=
  match b.what with
  | .method => (f.invokeSig ci w lead).bind fun (w, s) => .ok (w.hookMethod cl (!b.inst) name s (fn lead))
  | .getter => (f.getterSig ci w).bind fun (w, s) => .ok (w.hookField cl true (!b.inst) name s (fn lead))
  | .setter => (f.setterSig ci w lead).bind fun (w, s) =>
      .ok (w.hookField cl false (!b.inst) name s (fn lead))
  | .property => (f.getterSig ci w).bind fun (w, s) =>
      (f.setterSig ci (w.hookField cl true (!b.inst) name s (fn lead)) lead).bind fun (w, s) =>
        .ok (w.hookField cl false (!b.inst) name s (fn lead))

/-- `HookManagerHelper2::install`: `Class::Hook` and its relatives, include/jnivm/class.h:98-139. -/
def CppFn.install (ci : CppInfo) (w : World) (cl : Nat) (b : Bind) (f : CppFn) (name : Str)
    (fn : Nat → Nat) : Res World :=
  (f.leads ci w cl b).foldl (fun r lead => r.bind fun w => f.installOne ci w cl b name fn lead) (.ok w)

/-- A value of a parameter: one member of the union `jvalue`, include/jni.h:95-105.  An object is kept
as the reference that is given to `UnpackJObject`. -/
inductive CppVal where
  | z (v : BitVec 8) | b (v : BitVec 8) | c (v : BitVec 16) | s (v : BitVec 16) | i (v : BitVec 32)
  | j (v : BitVec 64) | f (v : BitVec 32) | d (v : BitVec 64) | l (v : BitVec 64)
deriving DecidableEq, Repr

/-- `JNITypes<P>::JNICast(env, v)`, include/jnivm/jnitypes.h:128-217, 39-41: which member of the union
is read (little endian). -/
def CppTy.jniCast : CppTy → BitVec 64 → CppVal
  | .data .value (.prim .boolean), v => .z (v.truncate 8)
  | .data .value (.prim .byte), v => .b (v.truncate 8)
  | .data .value (.prim .char), v => .c (v.truncate 16)
  | .data .value (.prim .short), v => .s (v.truncate 16)
  | .data .value (.prim .int), v => .i (v.truncate 32)
  | .data .value (.prim .long), v => .j v
  | .data .value (.prim .float), v => .f (v.truncate 32)
  | .data .value (.prim .double), v => .d v
  | _, v => .l v

/-- An argument given to the hooked function: the environment, the object or class, or a value. -/
inductive CppArg where
  | env
  | self
  | val (v : CppVal)
deriving DecidableEq, Repr

/-- `AnotherHelper<P>::GetEnvOrObject` and `GetEnvOrClass`, include/jnivm/wrap.h:26-60. -/
def CppTy.leadArg : CppTy → CppArg
  | .env _ => .env
  | _ => .self

/-- `JNICast(env, values[I])...`: `values` points to that many `jvalue`s. -/
def castAll : List CppTy → List (BitVec 64) → Res (List CppArg)
  | [], _ => .ok []
  | _ :: _, [] => .ub .outOfBounds
  | p :: ps, v :: vs => (castAll ps vs).bind fun as => .ok (.val (p.jniCast v) :: as)

/-- The arguments the wrapper calls the function with, include/jnivm/wrap.h:66-68, 85-87, 112-114. -/
def CppFn.args (f : CppFn) (lead : Nat) (values : List (BitVec 64)) : Res (List CppArg) :=
  (castAll (f.params.drop lead) values).bind fun as => .ok ((f.params.take lead).map CppTy.leadArg ++ as)

/-- `__JNIType<Return>`, include/jnivm/wrap.h:251-252: the result type of the wrapper, if it is one of
those of `MethodHandle`. -/
def CppTy.result (ci : CppInfo) : CppTy → Option JType
  | .void => some .void
  | .data .value (.prim .boolean) => some .boolean
  | .data .value (.prim .byte) => some .byte
  | .data .value (.prim .char) => some .char
  | .data .value (.prim .short) => some .short
  | .data .value (.prim .int) => some .int
  | .data .value (.prim .long) => some .long
  | .data .value (.prim .float) => some .float
  | .data .value (.prim .double) => some .double
  | .data .value _ => some .object
  | .data .shared _ => some .object
  | .handle t => if t = ci.object then some .object else none
  | _ => none

/-- What the C++ function does with its arguments, including the conversion of objects. -/
abbrev CppBody := Vm → Self → List CppArg → Outcome Vm (BitVec 64)

/-- The wrapper as a handle, include/jnivm/wrap.h:242-336. -/
def CppFn.wrapper (f : CppFn) (b : Bind) (ty : JType) (lead : Nat) (body : CppBody) : Hook where
  kind := if !b.inst then .static else if f.kind == .member then .member else .inst
  type := ty
  run := fun vm self values => Outcome.lift vm (f.args lead values) fun as => body vm self as

end Jnivm
