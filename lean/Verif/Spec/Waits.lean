import Verif.Model.Waits
/-!
Deadlocks, and programs that use monitors properly.
-/
namespace Spec
open Jnivm

/-- No thread can go on although some have not finished. -/
def Deadlock (s : SyncState) : Prop :=
  (∃ t, s.turn t ≠ .finished) ∧ ∀ t, s.turn t = .finished ∨ s.turn t = .waits

/-- The calls of the program that use monitors, without all the others. -/
def monitorsOnly (calls : Nat → List SyncCall) (t : Nat) : List SyncCall :=
  (calls t).filter fun
    | .enter _ | .exit _ => true
    | _ => false

/-- The calls use monitors in order: the thread has entered those of `H` so far; it enters one that it is in
already or one that ranks below all it is in, leaves only those it is in, and has left all in the end. -/
def MonitorOrder (rank : Nat → Nat) : List Nat → List SyncCall → Prop
  | H, [] => H = []
  | H, .enter o :: l => (o ∈ H ∨ ∀ x ∈ H, rank o < rank x) ∧ MonitorOrder rank (o :: H) l
  | H, .exit o :: l => o ∈ H ∧ MonitorOrder rank (H.erase o) l
  | H, _ :: l => MonitorOrder rank H l

/-- The thread waits to enter that monitor. -/
def WaitsFor (s : SyncState) (t o : Nat) : Prop :=
  (∃ rest, s.todo t = .enter o :: rest) ∧ ∃ u n, u ≠ t ∧ s.mons o = some (u, n)

end Spec
