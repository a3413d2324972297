import Verif.Model.HookSig
/-!
The class descriptors of fake-jni: `FakeJni::Descriptor` and the functions `registerClass` and
`getDescriptor` that `BEGIN_NATIVE_DESCRIPTOR` .. `END_NATIVE_DESCRIPTOR` define for a C++ class
(include/fake-jni/fake-jni.h:158-281).

The `LocalFrame` around the registration is not part of this model; it throws if
the thread has no environment.
-/
namespace Jnivm

/-- One entry of the list between the macros: a function, variable or member with a name and flags
(`none` for the constructor of `Descriptor` without flags), or `Constructor<U, T...>`.  `fn lead` is the
number of the wrapper with `lead` leading parameters. -/
inductive DescEntry where
  | named (f : CppFn) (name : Str) (flags : Option (BitVec 32)) (fn : Nat → Nat)
  | ctor (type : Nat) (params : List CppTy) (fn : Nat → Nat)

/-- `Descriptor::registre`: the call of `Hook` or `HookInstance` it makes. -/
structure Registration where
  f : CppFn
  name : Str
  bind : Bind
  fn : Nat → Nat

/-- `Function<U>::type & FunctionType::Instance`, include/fake-jni/fake-jni.h:218,
include/jnivm/function.h:36, 53. -/
def FnKind.isInstance : FnKind → Bool
  | .member => true
  | .dataMember => true
  | _ => false

/-- `Modifiers::PUBLIC` and `Modifiers::STATIC`, include/fake-jni/fake-jni.h:38-55: the same for
methods and fields. -/
def publicFlag : BitVec 32 := 1
def staticFlag : BitVec 32 := 8

/-- `Helper5<..>::GetFlags`, include/fake-jni/fake-jni.h:191-193, 208-214; `compat` is
`JNIVM_FAKE_JNI_MINECRAFT_LINUX_COMPAT`. -/
def FnKind.defaultFlags (compat : Bool) (k : FnKind) : BitVec 32 :=
  if k.isInstance then publicFlag
  else if compat then publicFlag ||| staticFlag else publicFlag

/-- `Constructor<U, T...>::ctr`, include/fake-jni/fake-jni.h:168-174: `std::shared_ptr<U> ctr(T...)`. -/
def ctorFn (type : Nat) (params : List CppTy) : CppFn := ⟨.plain, .data .shared (.cls type), params⟩

/-- The constructors of `Descriptor`, include/fake-jni/fake-jni.h:176-206, 218-239. -/
def DescEntry.make (compat : Bool) : DescEntry → Res Registration
  | .named f name flags fn =>
    if (flags.getD (f.kind.defaultFlags compat)) &&& staticFlag ≠ 0 then
      if f.kind.isInstance then .throws .runtimeError else .ok ⟨f, name, f.kind.bind, fn⟩
    else .ok ⟨f, name, f.kind.bindInstance, fn⟩
  | .ctor t ps fn => .ok ⟨ctorFn t ps, "<init>".toList, FnKind.plain.bind, fn⟩

/-- `static std::vector<FakeJni::Descriptor> desc({..})`, include/fake-jni/fake-jni.h:273: the first entry
that throws ends the initialisation, which starts again at the next call. -/
def makeAll (compat : Bool) : List DescEntry → Res (List Registration)
  | [] => .ok []
  | e :: es => (e.make compat).bind fun r => (makeAll compat es).bind fun rs => .ok (r :: rs)

/-- `for(auto&& des : desc) des.registre(env, clazz)`, include/fake-jni/fake-jni.h:277-279. -/
def World.registerAll (ci : CppInfo) (w : World) (c : Nat) : List Registration → Res World
  | [] => .ok w
  | r :: rs => (r.f.install ci w c r.bind r.name r.fn).bind fun w => w.registerAll ci c rs

/-- The C++ class of a descriptor: its type, `getClassName()`, the base types given to
`DEFINE_CLASS_NAME`, whether `std::is_default_constructible` holds, and the entries. -/
structure DescClass where
  type : Nat
  name : Str
  bases : List (Option Nat)
  constructible : Bool
  entries : List DescEntry

/-- `registerClass`, include/fake-jni/fake-jni.h:271-281.  `ENV::GetClass` never gives null
(`bindType_ok`). -/
def World.registerClass (compat : Bool) (ci : CppInfo) (w : World) (d : DescClass) : Res (World × Nat) :=
  (makeAll compat d.entries).bind fun rs =>
    match w.bindType d.type d.name d.bases with
    | (_, none) => .ub .nullDeref
    | (w, some c) => (w.registerAll ci c rs).bind fun w => .ok (w, c)

/-- `getDescriptor`, include/fake-jni/fake-jni.h:261-270, which is also `getClassInternal` of the objects of
the class: `GetClass` sets `Instantiate` (to a null function if the class is not default constructible)
and `baseclasses`, then the class is registered if it looks empty. -/
def World.getDescriptor (compat : Bool) (ci : CppInfo) (w : World) (d : DescClass) : Res (World × Nat) :=
  match w.bindType d.type d.name d.bases with
  | (_, none) => .ub .nullDeref
  | (w, some c) =>
    let cl := w.mem c
    if cl.methods.length = 0 ∧ cl.fields.length = 0 ∧ d.constructible = false ∧ cl.bases = none then
      (w.registerClass compat ci d).bind fun (w, _) => .ok (w, c)
    else .ok (w, c)

end Jnivm
