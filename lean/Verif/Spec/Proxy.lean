import Verif.Model.Proxy
import Verif.Spec.Calls
import Verif.Spec.Members
/-!
What finding and invoking a method from C++ has to do, said on the method tables and on outcomes.
-/
namespace Spec
open Jnivm

/-- Class `c` or one of its superclasses has a method of that kind, name and signature. -/
def Available (w : World) (c : Nat) (st nat : Bool) (name sig : Str) : Prop :=
  ∃ d m, Super w.bases c d ∧ w.Declares d st nat name sig m

/-- The id is the id of such a method, and of no other one. -/
def Identifies (w : World) (c : Nat) (st nat : Bool) (name sig : Str) (id : Nat) : Prop :=
  ∃ d m, Super w.bases c d ∧ w.Declares d st nat name sig m ∧ m.id = id ∧
    ∀ d' m', m' ∈ (w.mem d').methods → m'.id = id → d' = d ∧ m' = m

/-- The signature under which a constructor of the class with this path is recorded: a static function which
returns that class. -/
def factorySig (n args : Str) : Str := "(".toList ++ args ++ ")L".toList ++ n ++ ";".toList

/-- Size of a value of that type in bits. -/
def bits : JType → Nat
  | .void => 0
  | .boolean | .byte => 8
  | .char | .short => 16
  | .int | .float => 32
  | .long | .double | .object => 64

/-- `Shown t ty inner outer`: C++ code of thread `t` that invokes a method of result type `ty` from
C++, whose call has the outcome `inner`, has the outcome `outer`.  A pending exception is thrown; a
pending `Throwable` that contains no exception is undefined behaviour. -/
inductive Shown (t : Nat) (ty : JType) : Outcome Vm (BitVec 64) → Outcome Vm (BitVec 64) → Prop where
  | returns {vm : Vm} {v env} : vm.heap.envs t = some env → env.pending = none →
      Shown t ty (.returns vm v) (.returns vm (BitVec.ofNat 64 (v.toNat % 2 ^ bits ty)))
  | pending {vm : Vm} {v env x o e} : vm.heap.envs t = some env → env.pending = some x →
      vm.heap.objs x = some o → o.kind = .throwable (some e) → Shown t ty (.returns vm v) (.raises vm e)
  | empty {vm : Vm} {v env x o} : vm.heap.envs t = some env → env.pending = some x →
      vm.heap.objs x = some o → o.kind = .throwable none → Shown t ty (.returns vm v) (.ub .nullDeref)
  | detached {vm : Vm} {v} : vm.heap.envs t = none → Shown t ty (.returns vm v) (.ub .dangling)
  | raises {vm e} : Shown t ty (.raises vm e) (.raises vm e)
  | ub {u} : Shown t ty (.ub u) (.ub u)
  | aborts : Shown t ty .aborts .aborts
  | diverges : Shown t ty .diverges .diverges

/-- The two states differ by making a local reference to the receiver, a `Class` or an `Object`. -/
def AfterRef (t : Nat) (target : Recipient) (vm vm' : Vm) : Prop :=
  vm'.world = vm.world ∧ match target with
    | .cls k => (HeapOp.returnObject (some k) (some "java/lang/Class".toList)).run vm.heap t =
        .ok (vm'.heap, .ref (some k))
    | .obj i => (HeapOp.returnObject (some i) (some "java/lang/Object".toList)).run vm.heap t =
        .ok (vm'.heap, .ref (some i))

/-- `i` is an object and no reference object. -/
def IsObject (vm : Vm) (i : Nat) : Prop :=
  ∃ o, vm.heap.objs i = some o ∧ ∀ x, o.kind ≠ .weak x ∧ o.kind ≠ .global x

/-- The functions given to `RegisterNatives` change the VM through its interface only. -/
def NativesBehave (natives : NativeCode) : Prop :=
  ∀ p ty vm target args, VmReachable vm → EndsIn VmReachable (natives p ty vm target args)

/-- The result type of a method with that return type. -/
def retJType : Option Ty → JType
  | none => .void
  | some (.prim .boolean) => .boolean
  | some (.prim .byte) => .byte
  | some (.prim .char) => .char
  | some (.prim .short) => .short
  | some (.prim .int) => .int
  | some (.prim .long) => .long
  | some (.prim .float) => .float
  | some (.prim .double) => .double
  | some (.cls _) => .object
  | some (.arr _) => .object

end Spec
