import Verif.Model.Calls
/-!
Finding and invoking methods from C++: `Class::getMethod` (src/fake-jni/method.cpp), `MethodProxy` and
`Method::invoke` (include/jnivm/method.h, src/jnivm/method.cpp), `Jvm::start` (src/fake-jni/fake-jni.cpp).
-/
namespace Jnivm

/-- `MethodProxy`, include/jnivm/method.h:37-46. -/
structure MethodProxy where
  member : Option Nat
  static : Option Nat
  native : Option Nat
deriving DecidableEq, Repr

/-- `Class::getMethod`, src/fake-jni/method.cpp:6-13; `c` is the class it is called on. -/
def World.getMethod (depth : Nat) (w : World) (c : Nat) (sig name : Str) : Res (World × MethodProxy) :=
  (w.getMethodID depth false true false (some c) name sig).bind fun (w, member) =>
  (w.getMethodID depth true true false (some c) name sig).bind fun (w, static) =>
    if member.isNone && static.isNone then
      (w.getMethodID depth false true true (some c) name sig).bind fun (w, native) =>
        .ok (w, ⟨none, none, native⟩)
    else .ok (w, ⟨member, static, none⟩)

namespace MethodProxy

/-- `MethodProxy::operator bool`, include/jnivm/method.h:60-62. -/
def toBool (p : MethodProxy) : Bool := (p.member.isSome ^^ p.static.isSome) || p.native.isSome

/-- `MethodProxy::operator Method*`, include/jnivm/method.h:63-77. -/
def toMethod (p : MethodProxy) : Res (Option Nat) :=
  if p.member.isSome && p.static.isSome then .throws .ambiguous
  else if p.member.isSome then .ok p.member
  else if p.static.isSome then .ok p.static
  else .ok p.native

/-- The method `MethodProxy::invoke(env, Class*, ..)` invokes, include/jnivm/method.h:47-51. -/
def onClass (p : MethodProxy) : Res Nat :=
  match p.static, p.native with
  | some m, _ => .ok m
  | none, some m => .ok m
  | none, none => .throws .noSuchMethod

/-- The method `MethodProxy::invoke(env, Object*, ..)` invokes, include/jnivm/method.h:52-56. -/
def onObject (p : MethodProxy) : Res Nat :=
  match p.member, p.native with
  | some m, _ => .ok m
  | none, some m => .ok m
  | none, none => .throws .noSuchMethod

end MethodProxy

/-- A `Class*` or an `Object*` given to `invoke`, as the number of the object.  Reference objects
(`Weak`, `Global`) are never handed out as such pointers. -/
inductive Recipient where
  | cls (k : Nat)
  | obj (i : Nat)
deriving DecidableEq, Repr

def Recipient.ref : Recipient → Nat
  | .cls k => k
  | .obj i => i

/-- The C++ type through which the pointer becomes a JNI reference, include/jnivm/method.h:146-152. -/
def Recipient.type : Recipient → Str
  | .cls _ => "java/lang/Class".toList
  | .obj _ => "java/lang/Object".toList

/-- `CallStatic..MethodA` for a class and `Call..MethodA` for an object, src/jnivm/method.cpp:15-103. -/
def Recipient.form : Recipient → Form
  | .cls k => .static (some k)
  | .obj i => .virtual (some i)

def CallKind.jtype : CallKind → JType
  | .void => .void | .boolean => .boolean | .byte => .byte | .short => .short | .char => .char
  | .int => .int | .long => .long | .float => .float | .double => .double | .object => .object

/-- `toJValue`, src/jnivm/method.cpp:7-13, on a value of that type: the bytes of the value, the rest
zero; `ret = {}` for `void`. -/
def JType.toJValue (ty : JType) (v : BitVec 64) : BitVec 64 :=
  match ty with
  | .void => 0
  | .boolean | .byte => (v.truncate 8).zeroExtend 64
  | .char | .short => (v.truncate 16).zeroExtend 64
  | .int | .float => (v.truncate 32).zeroExtend 64
  | .long | .double | .object => v

/-- The dispatch on the return type of a native function, include/jnivm/method.h:98-135: the same as
the one of `jinvoke`, but without the test for the empty signature, whose first char is NUL. -/
def nativeKind (sig : Str) : Res CallKind :=
  if sig = [] then .throws (.user 1) else jinvokeKind sig

/-- Code that runs after a normal return. -/
def Outcome.andThen {σ α β : Type} : Outcome σ α → (σ → α → Outcome σ β) → Outcome σ β
  | .returns s a, f => f s a
  | .raises s e, _ => .raises s e
  | .ub u, _ => .ub u
  | .aborts, _ => .aborts
  | .diverges, _ => .diverges

/-- The end of `j2invoke`, include/jnivm/method.h:140-143: a pending exception of the thread is
rethrown; it stays pending.  `std::rethrow_exception` must not be given a null pointer. -/
def Vm.rethrow (t : Nat) (vm : Vm) (v : BitVec 64) : Outcome Vm (BitVec 64) :=
  match vm.heap.envs t with
  | none => .ub .dangling
  | some env => match env.pending with
    | none => .returns vm v
    | some x => match vm.heap.objs x with
      | some ⟨.throwable (some e), _⟩ => .raises vm e
      | some ⟨.throwable none, _⟩ => .ub .nullDeref
      | _ => .ub .dangling

/-- What the functions given to `RegisterNatives` do, called through a pointer to a function with that
result type. -/
abbrev NativeCode := Nat → JType → Vm → Recipient → List (BitVec 64) → Outcome Vm (BitVec 64)

/-- `Method::invoke` and `j2invoke`, include/jnivm/method.h:96-152, on the method with that id; the
arguments are already converted.  The receiver becomes a local reference first. -/
def Vm.invokeMethod (natives : NativeCode) (code : Nat → Hook) (t : Nat) (vm : Vm) (target : Recipient)
    (id : Nat) (args : List (BitVec 64)) : Outcome Vm (BitVec 64) :=
  match vm.world.method? id with
  | none => .ub .dangling
  | some m =>
    Outcome.lift vm ((HeapOp.returnObject (some target.ref) (some target.type)).run vm.heap t) fun (h, _) =>
      let vm := { vm with heap := h }
      match m.native with
      | some p => Outcome.lift vm (nativeKind m.signature) fun k =>
          (natives p k.jtype vm target args).andThen fun vm v => vm.rethrow t (k.jtype.toJValue v)
      | none => Outcome.lift vm (jinvokeKind m.signature) fun k =>
          (vm.callA code t k.jtype target.form (some id) args).andThen fun vm v =>
            vm.rethrow t (k.jtype.toJValue v)

/-- `MethodProxy::invoke`, include/jnivm/method.h:47-56. -/
def Vm.invokeProxy (natives : NativeCode) (code : Nat → Hook) (t : Nat) (vm : Vm) (p : MethodProxy)
    (target : Recipient) (args : List (BitVec 64)) : Outcome Vm (BitVec 64) :=
  Outcome.lift vm (match target with | .cls _ => p.onClass | .obj _ => p.onObject) fun id =>
    vm.invokeMethod natives code t target id args

/-- The signature and the name `Jvm::start` looks for, src/fake-jni/fake-jni.cpp:115. -/
def mainSig : Str := "([Ljava/lang/String;)V".toList
def mainName : Str := "main".toList

/-- The search of `Jvm::start`, src/fake-jni/fake-jni.cpp:114-123, over the classes in the order of the
container: `main != nullptr` converts the proxy to `Method*`.  The class with its proxy, or none if
the loop ends. -/
def World.findMain (depth : Nat) (w : World) : List Nat → Res (Option (Nat × MethodProxy))
  | [] => .ok none
  | c :: cs =>
    (w.getMethod depth c mainSig mainName).bind fun (w, p) =>
    p.toMethod.bind fun
      | none => w.findMain depth cs
      | some _ => .ok (some (c, p))

end Jnivm
