import Verif.Model.Lifetime
import Verif.Spec.Context
/-! What programs that make and destroy VMs have to observe. -/
namespace Spec
open Jnivm

/-- The context uses nothing of the VM: neither does it hold one of its environments nor will it detach from it. -/
def FreeOf (v : Nat) (c : Ctx) : Prop := c.vm ≠ some v ∧ ∀ e, c.env2 = some e → e.vm ≠ v

/-- Only existing VMs are named, a VM is destroyed when no context uses it, and `findClass` and the like are
called by threads that are attached. -/
def Careful (p : Process) (t : Nat) : ProcOp → Prop
  | .destroy v => p.vms v = .alive ∧ ∀ u, ∀ c ∈ (p.threads.thr u).ctxs, FreeOf v c
  | .ctx (.enter v) | .ctx (.attach v) | .ctx (.detach v) => p.vms v = .alive
  | .direct v => p.vms v = .alive ∧ (p.threads.thr t).envOf v ≠ none
  | _ => True

/-- Every step of the schedule is careful. -/
inductive CarefulRun : Process → List (Nat × ProcOp) → Prop where
  | nil (p : Process) : CarefulRun p []
  | cons {p : Process} {t : Nat} {op : ProcOp} {l : List (Nat × ProcOp)} : Careful p t op →
      (∀ q e, p.step t op = .ok (q, e) → CarefulRun q l) → CarefulRun p ((t, op) :: l)

def ProcReachable (p : Process) : Prop := ∃ l es, Process.initial.run l = .ok (p, es)

/-- The variables of a thread are VMs and contexts, innermost first (`some v` is the VM `v`, `none` a context), and
are destroyed in reverse order.  Only VMs that are such a variable are named, and a VM is made only if there is
none yet.  A context is used if there was a VM when it was made. -/
inductive Automatic : List (Option Nat) → List ProcOp → Prop where
  | nil (vars : List (Option Nat)) : Automatic vars []
  | make {vars : List (Option Nat)} {v : Nat} {ops : List ProcOp} : (∀ w, some w ∉ vars) →
      Automatic (some v :: vars) ops → Automatic vars (.make v :: ops)
  | destroy {vars : List (Option Nat)} {v : Nat} {ops : List ProcOp} :
      Automatic vars ops → Automatic (some v :: vars) (.destroy v :: ops)
  | enter {vars : List (Option Nat)} {v : Nat} {ops : List ProcOp} : some v ∈ vars →
      Automatic (none :: vars) ops → Automatic vars (.ctx (.enter v) :: ops)
  | enterDefault {vars : List (Option Nat)} {ops : List ProcOp} :
      Automatic (none :: vars) ops → Automatic vars (.ctx .enterDefault :: ops)
  | leave {vars : List (Option Nat)} {ops : List ProcOp} :
      Automatic vars ops → Automatic (none :: vars) (.ctx .leave :: ops)
  | use {outer : List (Option Nat)} {v : Nat} {ops : List ProcOp} : some v ∈ outer →
      Automatic (none :: outer) ops → Automatic (none :: outer) (.use :: ops)
  | direct {vars : List (Option Nat)} {v : Nat} {ops : List ProcOp} : some v ∈ vars →
      Automatic vars ops → Automatic vars (.direct v :: ops)

/-- The VMs that are made, with the thread. -/
def makes (l : List (Nat × ProcOp)) : List (Nat × Nat) :=
  l.filterMap fun x => match x.2 with | .make v => some (x.1, v) | _ => none

end Spec
