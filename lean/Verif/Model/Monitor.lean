import Verif.Model.Heap
/-!
Monitors: the `std::recursive_mutex` in every object, include/jnivm/object.h:12-20, and `MonitorEnter` and
`MonitorExit`, src/jnivm/vm.cpp:296-303.

A thread that has to wait takes no step; its step is the moment it gets the lock, and the reference is
resolved at that moment.  The number of times a `recursive_mutex` can be locked is not limited here.
-/
namespace Jnivm

/-- The heap, and for every object the thread that locked its mutex and how often. -/
structure MonState where
  heap : Heap
  mons : Nat → Option (Nat × Nat)

def MonState.setMon (s : MonState) (i : Nat) (m : Option (Nat × Nat)) : MonState :=
  { s with mons := fun j => if j = i then m else s.mons j }

/-- The object behind `JNICast(ENV::FromJNIEnv(env), o)->`. -/
def MonState.target (s : MonState) (t : Nat) (r : Option Nat) : Res Nat :=
  if (s.heap.envs t).isNone then .ub .dangling else
    (s.heap.denote r).bind fun
      | none => .ub .nullDeref
      | some i => .ok i

/-- `MonitorEnter`, src/jnivm/vm.cpp:296-299; `none`: the thread waits. -/
def MonState.enter (s : MonState) (t : Nat) (r : Option Nat) : Res (Option MonState) :=
  (s.target t r).bind fun i =>
    match s.mons i with
    | none => .ok (some (s.setMon i (some (t, 1))))
    | some (u, n) => if u = t then .ok (some (s.setMon i (some (t, n + 1)))) else .ok none

/-- `MonitorExit`, src/jnivm/vm.cpp:300-303; unlocking a mutex another thread or nobody locked is
undefined. -/
def MonState.exit (s : MonState) (t : Nat) (r : Option Nat) : Res MonState :=
  (s.target t r).bind fun i =>
    match s.mons i with
    | none => .ub .notOwner
    | some (u, n) =>
      if u = t then .ok (s.setMon i (if n = 1 then none else some (t, n - 1))) else .ub .notOwner

/-- Any other call; destroying a locked mutex is undefined. -/
def MonState.call (s : MonState) (t : Nat) (op : HeapOp) : Res MonState :=
  (op.run s.heap t).bind fun (h, _) =>
    if (List.range h.next).any fun i => (s.mons i).isSome && (h.objs i).isNone then .ub .dangling
    else .ok { s with heap := h }

end Jnivm
