import Verif.Model.Calls
/-!
`NewObject` and the constructors behind it.  `NewObject`, `NewObjectV` and `NewObjectA` are the functions of
static calls with an object as result (src/jnivm/vm.cpp:397-399), so nothing but the constructor makes the object.
-/
namespace Jnivm

/-- `NewObjectA`, src/jnivm/vm.cpp:399 with src/jnivm/internal/method.cpp:287-317. -/
def Vm.newObjectA (code : Nat → Hook) (t : Nat) (vm : Vm) (cl id : Option Nat) (args : List (BitVec 64)) :
    Outcome Vm (BitVec 64) :=
  vm.callA code t .object (.static cl) id args

/-- `NewObject` and `NewObjectV`, src/jnivm/vm.cpp:397-398 with src/jnivm/internal/method.cpp:225-249. -/
def Vm.newObjectV (d2f : BitVec 64 → BitVec 32) (code : Nat → Hook) (t : Nat) (vm : Vm) (cl id : Option Nat)
    (va : List Spec.CArg) : Outcome Vm (BitVec 64) :=
  vm.callV d2f code t .object (.static cl) id va

/-- A hooked constructor of a C++ type that is bound to the class `n`: a static function that makes an object and
returns it as `std::shared_ptr` (`Constructor`, include/fake-jni/fake-jni.h, and lambdas given to `Hook`), or
throws.  `addr` gives the address of an object, which is its reference. -/
def constructor (addr : Nat → BitVec 64) (t : Nat) (n : Str) (fails : List (BitVec 64) → Option Exn) : Hook :=
  ⟨.static, .object, fun vm _ args =>
    match fails args with
    | some e => .raises vm e
    | none => Outcome.lift vm ((HeapOp.newObject (some n)).run vm.heap t) fun (h, out) =>
        match out with
        | .ref (some i) => .returns { vm with heap := h } (addr i)
        | _ => .ub .dangling⟩

/-- `AllocObject`, src/jnivm/vm.cpp:236-239, which is not implemented. -/
def Vm.allocObject (vm : Vm) (_cl : Option Nat) : Outcome Vm (BitVec 64) := .returns vm 0

end Jnivm
