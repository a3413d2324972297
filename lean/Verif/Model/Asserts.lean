import Verif.Model.MemberOps
/-!
Lookups in a build with assertions (no `NDEBUG`): `Extends::GetBaseClasses`,
include/jnivm/extends.h:16-27, throws if a base type of the class has no class yet.  Model/Members.lean
is the build with `NDEBUG`, where such a base is a null entry.  Also what `VM::initialize` binds.
-/
namespace Jnivm

/-- `!ret[i]` for a base type, include/jnivm/extends.h:20.  The literal `nullptr` of
`Object::GetBaseClasses`, src/jnivm/object.cpp:9-11, is not checked. -/
def World.missing (w : World) : Option Nat → Bool
  | none => false
  | some t => (w.types t).isNone

/-- `cur->baseclasses(env)` without `NDEBUG`, include/jnivm/extends.h:16-27; `none` if the function is
empty. -/
def World.basesA (w : World) (c : Nat) : Res (Option (List (Option Nat))) :=
  match (w.mem c).bases with
  | none => .ok none
  | some ts => if ts.any w.missing then .throws .runtimeError else .ok (some (ts.map fun t => t.bind w.types))

/-- The recursion of `dfs`, where asking for the base classes can throw. -/
def dfsA {α : Type} (bases : Nat → Res (Option (List (Option Nat)))) (own : Nat → Option α) :
    Nat → Nat → Res (Option α)
  | 0, _ => .diverges
  | depth + 1, c =>
    match own c with
    | some x => .ok (some x)
    | none => (bases c).bind fun
      | none => .ok none
      | some bs => firstAnswer (dfsA bases own depth) bs

/-- `GetMethodID` on a class after the constructor rewriting, src/jnivm/internal/method.cpp:26-84. -/
def World.methodOfA (depth : Nat) (returnNull : Bool) (w : World) (c : Nat) (k : MethodKey) :
    Res (World × Option Nat) :=
  (dfsA w.basesA (w.ownMethod k) depth c).bind fun
    | some id => .ok (w, some id)
    | none => if returnNull then .ok (w, none) else w.createMethod c k.static k.name k.signature

/-- `GetMethodID<isStatic, ReturnNull, AllowNative>`, src/jnivm/internal/method.cpp:7-84.  A null class
has no base classes to ask for. -/
def World.getMethodIDA (depth : Nat) (isStatic returnNull allowNative : Bool) (w : World)
    (cl : Option Nat) (name sig : Str) : Res (World × Option Nat) :=
  match cl with
  | none => w.getMethodID depth isStatic returnNull allowNative none name sig
  | some c =>
    match w.reg.cls[c]? with
    | none => .ub .dangling
    | some cls =>
      if !isStatic && name == "<init>".toList then
        w.methodOfA depth returnNull c ⟨true, allowNative, name, initSignature cls.nativeprefix sig⟩
      else
        w.methodOfA depth returnNull c ⟨isStatic, allowNative, name, sig⟩

/-- `GetFieldID<isStatic, ReturnNull>`, src/jnivm/internal/field.cpp:11-63. -/
def World.getFieldIDA (depth : Nat) (isStatic returnNull : Bool) (w : World) (cl : Option Nat)
    (name type : Str) : Res (World × Option Nat) :=
  match cl with
  | none => .ub .nullDeref
  | some c =>
    match w.reg.cls[c]? with
    | none => .ub .dangling
    | some _ =>
      (dfsA w.basesA (w.ownField ⟨isStatic, name, type⟩) depth c).bind fun
        | some id => .ok (w, some id)
        | none => if returnNull then .ok (w, none) else w.createField c ⟨isStatic, name, type⟩

/-- `HasBaseClass`, src/jnivm/vm.cpp:59-71, for two classes. -/
def World.isAssignableFromA (depth : Nat) (w : World) (c1 c2 : Nat) : Res Bool :=
  (dfsA w.basesA (fun c => if c = c2 then some () else none) depth c1).bind fun r => .ok r.isSome

/-- `GetSuperclass`, src/jnivm/vm.cpp:55-58. -/
def World.getSuperclassA (w : World) (c : Nat) : Res (Option Nat) :=
  (w.basesA c).bind fun
    | none => .ok none
    | some [] => .ub .outOfBounds
    | some (b :: _) => .ok b

/-- An operation in a build with assertions: the lookups differ. -/
def MemOp.runA (w : World) : MemOp → Res World
  | .getMethodID d s r a cl n sig => (w.getMethodIDA d s (r || a) a cl n sig).bind fun p => .ok p.1
  | .getFieldID d s r cl n t => (w.getFieldIDA d s r cl n t).bind fun p => .ok p.1
  | op => op.run w

/-- Run a history in a build with assertions. -/
def runMemA : World → List MemOp → Res World
  | w, [] => .ok w
  | w, op :: ops => (op.runA w).bind fun w' => runMemA w' ops

/-- `VM::initialize`, src/jnivm/vm.cpp:525-536, with the types numbered in this order.  All but the last two
classes inherit `Object::GetBaseClasses`, src/jnivm/object.cpp:9-11: include/jnivm/class.h:18,
include/jnivm/string.h:6, include/jnivm/bytebuffer.h:6, include/jnivm/throwable.h:5, include/jnivm/method.h:14,
include/jnivm/field.h:9.  `Weak` and `Global` use `Extends<Object>`, include/jnivm/weak.h:8 and 13. -/
def startOps : List MemOp :=
  [.bindType 0 "java/lang/Object".toList [none], .bindType 1 "java/lang/Class".toList [none],
   .bindType 2 "java/lang/String".toList [none], .bindType 3 "java/nio/ByteBuffer".toList [none],
   .bindType 4 "java/lang/Throwable".toList [none], .bindType 5 "java/lang/reflect/Method".toList [none],
   .bindType 6 "java/lang/reflect/Field".toList [none],
   .bindType 7 "java/lang/ref/WeakReference".toList [some 0],
   .bindType 8 "internal/lang/Global".toList [some 0]]

end Jnivm
