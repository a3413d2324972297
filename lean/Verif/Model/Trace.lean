import Verif.Model.Calls
import Verif.Model.Except
/-!
The build with `JNI_TRACE` (option `JNIVM_ENABLE_TRACE`, CMakeLists.txt:18-20): calls, field accesses and
method lookups with the statements between `#ifdef JNI_TRACE` and `#endif`.  What is printed is left out;
the arguments of the printing statements are computed.  Names and signatures of a call or lookup are never
null here.
-/
namespace Jnivm

/-- `auto cl = JNICast(env, env->GetObjectClass(obj))` of the traced calls that run nothing,
src/jnivm/internal/method.cpp:217-220, and of `Util::GetClass` for an object,
src/jnivm/internal/field.cpp:66-68. -/
def Vm.traceObject (t : Nat) (vm : Vm) (obj : Option Nat) : Res Vm :=
  (vm.objectClass t obj).bind fun p => .ok p.1

/-- `auto clz = JNICast(env, cl)`, src/jnivm/internal/method.cpp:279-282, and `Util::GetClass` for a class,
src/jnivm/internal/field.cpp:69-71. -/
def Vm.traceClass (vm : Vm) (cl : Option Nat) : Res Vm :=
  (vm.castClass cl).bind fun p => .ok p.1

/-- `Util::GetClass`, src/jnivm/internal/field.cpp:66-71. -/
def Vm.traceOwner (t : Nat) (vm : Vm) : Owner → Res Vm
  | .obj o => vm.traceObject t o
  | .cls c => vm.traceClass c

/-- `catch (...)` with the call of `ExceptionDescribe`, src/jnivm/internal/method.cpp:207-215, 269-277,
302-310. -/
def Vm.catchAllT (what : Exn → Option Str) (t : Nat) : Outcome Vm (BitVec 64) → Outcome Vm (BitVec 64)
  | .raises vm e =>
    Outcome.lift vm ((HeapOp.raise e).run vm.heap t) fun (h, _) =>
      Outcome.lift vm (h.describe what t) fun (h, _) => .returns { vm with heap := h } 0
  | o => o

/-- `Vm.invoke` with the traced `catch` block. -/
def Vm.invokeT (what : Exn → Option Str) (code : Nat → Hook) (t : Nat) (ty : JType) (a : Access) (self : Self)
    (args : List (BitVec 64)) (vm : Vm) : Option MethodRec → Outcome Vm (BitVec 64)
  | none => .ub .nullDeref
  | some m => match m.handle with
    | none => .ub .nullDeref
    | some f => Vm.catchAllT what t ((code f).invoke a ty vm self args)

/-- `if (mid && mid->nativehandle) .. else ..`: `unknown` is traced before the default value is returned. -/
def Vm.withMethodT (vm : Vm) (id : Option Nat) (unknown : Res Vm) (f : MethodRec → Outcome Vm (BitVec 64)) :
    Outcome Vm (BitVec 64) :=
  match id with
  | none => Outcome.lift vm unknown fun vm => .returns vm 0
  | some i => match vm.world.method? i with
    | none => .ub .dangling
    | some m => if m.handle.isSome then f m else Outcome.lift vm unknown fun vm => .returns vm 0

/-- `Vm.callA` in the traced build, src/jnivm/internal/method.cpp:191-223, 251-285, 287-317.  The known
methods print what they have already. -/
def Vm.callAT (what : Exn → Option Str) (code : Nat → Hook) (t : Nat) (ty : JType) (vm : Vm) (form : Form)
    (id : Option Nat) (args : List (BitVec 64)) : Outcome Vm (BitVec 64) :=
  match form with
  | .virtual obj => vm.withMethodT id (vm.traceObject t obj) fun mid =>
      Outcome.lift vm (vm.objectClass t obj) fun (vm, c) =>
        Vm.invokeT what code t ty .inst (.obj obj) args vm (some (findVirtualOverload vm.world c mid))
  | .nonVirtual obj cl => vm.withMethodT id (vm.traceClass cl) fun mid =>
      Outcome.lift vm (vm.castClass cl) fun (vm, c) =>
        Vm.invokeT what code t ty .nonVirtual (.obj obj) args vm (findNonVirtualOverload vm.world c mid)
  | .static cl => Outcome.lift vm (vm.castClass cl) fun (vm, c) =>
      vm.withMethodT id (.ok vm) fun mid => Vm.invokeT what code t ty .static (.cls c) args vm (some mid)

/-- `Vm.callV` in the traced build, src/jnivm/internal/method.cpp:225-234: for a null id a fixed text is
printed. -/
def Vm.callVT (d2f : BitVec 64 → BitVec 32) (what : Exn → Option Str) (code : Nat → Hook) (t : Nat) (ty : JType)
    (vm : Vm) (form : Form) (id : Option Nat) (va : List Spec.CArg) : Outcome Vm (BitVec 64) :=
  match id with
  | none => .returns vm 0
  | some i => match vm.world.method? i with
    | none => .ub .dangling
    | some m => Outcome.lift vm (jvaluesFromValist d2f m.signature va) fun args =>
        vm.callAT what code t ty form id args.1

/-- `GetField` in the traced build, src/jnivm/internal/field.cpp:107-131.  The class is looked up after the
check of the kind of the field, whether or not there is a getter. -/
def Vm.getFieldT (code : Nat → Hook) (t : Nat) (ty : JType) (vm : Vm) (owner : Owner) (id : Option Nat) :
    Outcome Vm (BitVec 64) :=
  match id with
  | none => Outcome.lift vm (vm.traceOwner t owner) fun vm => .returns vm 0
  | some i => match vm.world.field? i with
    | none => .ub .dangling
    | some f => match f.getter with
      | none => Outcome.lift vm (vm.traceOwner t owner) fun vm => .returns vm 0
      | some g =>
        if f.static = owner.isClass then
          Outcome.lift vm (vm.traceOwner t owner) fun vm =>
            Outcome.lift vm (vm.ownerSelf owner) fun (vm, self) =>
              (code g).access f.static ty vm self []
        else .aborts

/-- `SetField` in the traced build, src/jnivm/internal/field.cpp:133-159.  The field is read to print its
name even if the owner is null. -/
def Vm.setFieldT (code : Nat → Hook) (t : Nat) (ty : JType) (vm : Vm) (owner : Owner) (id : Option Nat)
    (value : BitVec 64) : Outcome Vm (BitVec 64) :=
  match id with
  | none => Outcome.lift vm (vm.traceOwner t owner) fun vm => .returns vm 0
  | some i => match vm.world.field? i with
    | none => .ub .dangling
    | some f => match f.setter with
      | none => Outcome.lift vm (vm.traceOwner t owner) fun vm => .returns vm 0
      | some s =>
        if owner.isNull then Outcome.lift vm (vm.traceOwner t owner) fun vm => .returns vm 0
        else if f.static = owner.isClass then
          Outcome.lift vm (vm.traceOwner t owner) fun vm =>
            Outcome.lift vm (vm.ownerSelf owner) fun (vm, self) =>
              (code s).access f.static ty vm self [value]
        else .aborts

/-- `GetMethodID` in the traced build, src/jnivm/internal/method.cpp:7-84.  For a null class the text to
print for "%s" is a null pointer (lines 57 and 76), which `printf` must not be given.  The lookups in base
classes have a class. -/
def World.getMethodIDT (depth : Nat) (isStatic returnNull allowNative : Bool) (w : World)
    (cl : Option Nat) (name sig : Str) : Res (World × Option Nat) :=
  match cl with
  | none => if returnNull then .ub .nullDeref else (declare w.reg sig).bind fun _ => .ub .nullDeref
  | some c => w.getMethodID depth isStatic returnNull allowNative (some c) name sig

end Jnivm
