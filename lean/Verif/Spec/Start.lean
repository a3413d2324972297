import Verif.Model.Start
import Verif.Spec.Proxy
import Verif.Spec.LocalFrame
/-!
What `Jvm::start` should do.
-/
namespace Spec
open Jnivm

/-- The class has, itself or from a superclass, a function `main` for an array of strings: a member, a static
one or one given to `RegisterNatives`. -/
def MainMember (w : World) (c : Nat) : Prop := Available w c false false "main".toList "([Ljava/lang/String;)V".toList
def MainStatic (w : World) (c : Nat) : Prop := Available w c true false "main".toList "([Ljava/lang/String;)V".toList
def MainNative (w : World) (c : Nat) : Prop := Available w c false true "main".toList "([Ljava/lang/String;)V".toList

def HasMain (w : World) (c : Nat) : Prop := MainMember w c ∨ MainStatic w c ∨ MainNative w c

/-- A class of the VM together with its object. -/
def ClassEntry (vm : Vm) (x : Nat × Nat) : Prop :=
  ∃ n, vm.world.IsClass n x.1 ∧ (n, x.2) ∈ vm.heap.classes

/-- The pending exception of a thread of the state. -/
def pendingOf (t : Nat) (h : Heap) : Option Nat := match h.envs t with | some e => e.pending | none => none

/-- The state in which `main` is run: the thread is attached and has one more frame, in which there is a reference
to the class. -/
def Entered (t k : Nat) (vm vm1 : Vm) : Prop :=
  vm1.world = vm.world ∧ pendingOf t vm1.heap = pendingOf t vm.heap ∧ ∃ e1, vm1.heap.envs t = some e1 ∧
    e1.frames = [k] :: (match vm.heap.envs t with | some e => e.frames | none => [[]])

/-- The code left the frames of the thread that were there before it: the innermost one was its own. -/
def Tidy (t : Nat) (vm1 vm2 : Vm) : Prop :=
  ∀ e1, vm1.heap.envs t = some e1 → ∃ e2 g m, vm2.heap.envs t = some e2 ∧ e2.eid = e1.eid ∧
    e2.frames = g :: m ∧ Thinned m e1.frames.tail

/-- The pending exception of the thread. -/
def PendingIs (t : Nat) (vm : Vm) (x : Option Exn) : Prop :=
  ∃ e, vm.heap.envs t = some e ∧ match x with
    | none => e.pending = none
    | some ex => ∃ i o, e.pending = some i ∧ vm.heap.objs i = some o ∧ o.kind = .throwable (some ex)

/-- The thread has the environment it had. -/
def SameEnv (t : Nat) (vm1 vm2 : Vm) : Prop :=
  ∃ e1 e2, vm1.heap.envs t = some e1 ∧ vm2.heap.envs t = some e2 ∧ e2.eid = e1.eid

/-- What `start` leaves behind after `main` ended in state `vm2`: the innermost frame is popped, or, if the thread was
not attached before, it is detached. -/
def Unwound (t : Nat) (vm vm2 vm3 : Vm) : Prop :=
  vm3.world = vm2.world ∧ match vm.heap.envs t with
    | none => vm3.heap.envs t = none
    | some _ => ∃ e2 e3, vm2.heap.envs t = some e2 ∧ vm3.heap.envs t = some e3 ∧ e3.eid = e2.eid ∧
        e3.frames = if e2.frames.tail = [] then [[]] else e2.frames.tail

/-- How `start` ends if `main` was run in state `vm1` and ended in this way: `main` returned, threw, or left
an exception pending, and `start` returns or throws the exception; the thread has its frames again if `main` left
them alone.  If `main` detached its thread, the environment `start` uses next is gone. -/
def StartEnds (t : Nat) (vm vm1 : Vm) (main : Outcome Vm (BitVec 64)) (start : Outcome Vm Unit) : Prop :=
  match main with
  | .returns vm2 _ => (vm2.heap.envs t = none → start = .ub .dangling) ∧ (SameEnv t vm1 vm2 →
      (PendingIs t vm2 none → ∃ vm3, start = .returns vm3 () ∧ Unwound t vm vm2 vm3 ∧
        (Tidy t vm1 vm2 → Restored t vm.heap vm3.heap)) ∧
      ∀ e, PendingIs t vm2 (some e) → ∃ vm3, start = .raises vm3 e ∧ Unwound t vm vm2 vm3 ∧
        (Tidy t vm1 vm2 → Restored t vm.heap vm3.heap))
  | .raises vm2 e => (vm2.heap.envs t = none → start = .ub .dangling) ∧ (SameEnv t vm1 vm2 →
      ∃ vm3, start = .raises vm3 e ∧ Unwound t vm vm2 vm3 ∧ (Tidy t vm1 vm2 → Restored t vm.heap vm3.heap))
  | .ub u => start = .ub u
  | .aborts => start = .aborts
  | .diverges => start = .diverges

end Spec
