/-!
Threads, mutexes and shared data, independent of the library: what a thread does is a list of
actions; a data race, a deadlock and a guarded location are properties of the actions that come
next.
-/
namespace Spec

/-- The next thing a thread does; `M` names mutexes, `L` names shared data. -/
inductive Action (M L : Type) where
  | lock (m : M)
  | unlock (m : M)
  | read (l : L)
  | write (l : L)
deriving DecidableEq, Repr

/-- The action reads or writes `l`. -/
def Action.touches {M L : Type} (l : L) : Action M L → Prop
  | .read k => k = l
  | .write k => k = l
  | _ => False

/-- Two threads are about to access `l`, one of them writes, and nothing orders the two:
`next t` is the next action of thread `t`. -/
def Racing {M L : Type} (next : Nat → Option (Action M L)) (l : L) : Prop :=
  ∃ t u a, t ≠ u ∧ next t = some (.write l) ∧ next u = some a ∧ a.touches l

end Spec
