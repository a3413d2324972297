import Verif.Model.ThreadsRun
import Verif.Spec.Nested
/-!
What threads that run at the same time may do: no more than calls of theirs made one after the other.
-/
namespace Spec
open Jnivm

/-- Calls lead from one state to the other, each of a kind that its thread may make. -/
def ByThreads (P : Nat → JniOp → Prop) (vm vm' : Vm) : Prop :=
  ∃ ops as, (∀ x ∈ ops, P x.1 x.2) ∧ runJni vm ops = .ok (vm', as)

/-- The code has ended. -/
def _root_.Jnivm.Prog.Ended : Prog → Prop
  | .step _ _ => False
  | _ => True

/-- The code has ended in that state in the way the outcome says. -/
def EndedAs (p : Prog) (vm : Vm) : Outcome Vm (BitVec 64) → Prop
  | .returns v a => p = .ret a ∧ vm = v
  | .raises v e => p = .raise e ∧ vm = v
  | .ub u => p = .ub u
  | .aborts => p = .aborts
  | .diverges => p = .diverges

/-- The pool starts in that state, with a script for each thread. -/
def Starts (d2f : BitVec 64 → BitVec 32) (fs : Natives) (depth : Nat → Nat) (s : Nat → Script) (vm : Vm) : Pool :=
  ⟨vm, fun t => (s t).thread d2f fs (depth t) t⟩

/-- The call hooks a method of that kind, name and signature, in whatever class. -/
def Rehooks (st : Bool) (name sig : Str) : JniOp → Prop
  | .cpp (.hookMethod _ s n g _) => s = st ∧ n = name ∧ g = sig
  | _ => False

/-- The first `n` entries of an endless schedule. -/
def upTo (σ : Nat → Nat) (n : Nat) : List Nat := (List.range n).map σ

end Spec
