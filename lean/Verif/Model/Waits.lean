import Verif.Model.Locks
import Verif.Model.Monitor
/-!
Threads that make calls of the library and use the monitors of objects in between: who waits for whom.

The mutexes of the library are those of Model/Locks.lean, each call the list of its actions there.  The monitor
of an object is the `std::recursive_mutex` of Model/Monitor.lean; objects are numbers here, and which object a
reference denotes does not change (`monitor_same` and the properties of references say when that is so).
-/
namespace Jnivm

/-- What a thread does next: an action of a call of the library, or `MonitorEnter` or `MonitorExit` of an object,
src/jnivm/vm.cpp:296-303. -/
inductive SyncAct where
  | lib (a : Act)
  | enter (o : Nat)
  | exit (o : Nat)
deriving DecidableEq, Repr

/-- What native code calls. -/
inductive SyncCall where
  /-- a call of the library; user code that runs within uses no monitors -/
  | call (c : Call)
  /-- MonitorEnter, src/jnivm/vm.cpp:296-299 -/
  | enter (o : Nat)
  /-- MonitorExit, src/jnivm/vm.cpp:300-303 -/
  | exit (o : Nat)
  /-- AttachCurrentThread of a new thread, src/jnivm/vm.cpp:468-486; `user` is what the functions in `jnienvhooks`
  do -/
  | attach (user : List SyncAct)
  /-- DetachCurrentThread, src/jnivm/vm.cpp:487-497; `user` is what the destructors of the objects do that only the
  local frames of the thread kept alive -/
  | detach (user : List SyncAct)

/-- The actions of a call; `depth` as for `Call.acts`. -/
def SyncCall.acts (depth : Nat) : SyncCall → List SyncAct
  | .call c => (c.acts false depth).map .lib
  | .enter o => [.enter o]
  | .exit o => [.exit o]
  | .attach user => .lib (.lock .vm) :: .lib (.write .envs) :: user ++ [.lib (.unlock .vm)]
  | .detach user => .lib (.lock .vm) :: .lib (.read .envs) :: .lib (.write .envs) :: user ++ [.lib (.unlock .vm)]

/-- Who owns each mutex, who entered each monitor and how often, and what each thread still has to do. -/
structure SyncState where
  owner : Mutex → Option Nat
  mons : Nat → Option (Nat × Nat)
  todo : Nat → List SyncAct

/-- Threads that start with the given calls; nothing is locked. -/
def SyncState.start (depth : Nat) (calls : Nat → List SyncCall) : SyncState :=
  ⟨fun _ => none, fun _ => none, fun t => (calls t).flatMap (SyncCall.acts depth)⟩

/-- What happens if a thread is given the processor. -/
inductive SyncTurn where
  | finished
  /-- it waits for a mutex or a monitor of another thread -/
  | waits
  | moves (s : SyncState)
  | undefined (u : UB)

/-- Thread `t` goes on with `rest`. -/
def SyncState.advance (s : SyncState) (t : Nat) (rest : List SyncAct) : SyncState :=
  { s with todo := fun u => if u = t then rest else s.todo u }

/-- Mutex `m` is now owned by `o`. -/
def SyncState.setOwner (s : SyncState) (m : Mutex) (o : Option Nat) : SyncState :=
  { s with owner := fun k => if k = m then o else s.owner k }

/-- The monitor of `i` is now in state `m`. -/
def SyncState.setMon (s : SyncState) (i : Nat) (m : Option (Nat × Nat)) : SyncState :=
  { s with mons := fun j => if j = i then m else s.mons j }

/-- One action of thread `t`: `std::mutex` as in `LockState.turn`, `std::recursive_mutex` as in `MonState.enter` and
`MonState.exit`. -/
def SyncState.turn (s : SyncState) (t : Nat) : SyncTurn :=
  match s.todo t with
  | [] => .finished
  | .lib (.read _) :: rest => .moves (s.advance t rest)
  | .lib (.write _) :: rest => .moves (s.advance t rest)
  | .lib (.lock m) :: rest =>
    match s.owner m with
    | none => .moves ((s.advance t rest).setOwner m (some t))
    | some u => if u = t then .undefined .relock else .waits
  | .lib (.unlock m) :: rest =>
    if s.owner m = some t then .moves ((s.advance t rest).setOwner m none)
    else .undefined .notOwner
  | .enter o :: rest =>
    match s.mons o with
    | none => .moves ((s.advance t rest).setMon o (some (t, 1)))
    | some (u, n) => if u = t then .moves ((s.advance t rest).setMon o (some (t, n + 1))) else .waits
  | .exit o :: rest =>
    match s.mons o with
    | none => .undefined .notOwner
    | some (u, n) =>
      if u = t then .moves ((s.advance t rest).setMon o (if n = 1 then none else some (t, n - 1)))
      else .undefined .notOwner

/-- The states a schedule can lead to. -/
inductive SyncState.Reach (s : SyncState) : SyncState → Prop where
  | refl : Reach s s
  | step {a b : SyncState} (t : Nat) : Reach s a → a.turn t = .moves b → Reach s b

end Jnivm
