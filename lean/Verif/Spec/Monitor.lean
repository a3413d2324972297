import Verif.Model.Monitor
/-! Schedules with monitors. -/
namespace Spec
open Jnivm

/-- A thread entered or left the monitor of an object. -/
structure MonEvent where
  thread : Nat
  enters : Bool
  obj : Nat
deriving DecidableEq

/-- How often the thread entered the monitor minus how often it left it. -/
def depth (t i : Nat) : List MonEvent → Int
  | [] => 0
  | e :: l => depth t i l + if e.thread = t ∧ e.obj = i then (if e.enters then 1 else -1) else 0

/-- All schedules, latest event first. -/
inductive MonHistory : List MonEvent → MonState → Prop where
  | start {h : Heap} : HeapReachable h → MonHistory [] ⟨h, fun _ => none⟩
  | call {ev s s'} (t : Nat) (op : HeapOp) : MonHistory ev s → s.call t op = .ok s' → MonHistory ev s'
  | enter {ev s s'} (t : Nat) (r : Option Nat) (i : Nat) : MonHistory ev s →
      s.heap.denote r = .ok (some i) → s.enter t r = .ok (some s') → MonHistory (⟨t, true, i⟩ :: ev) s'
  | exit {ev s s'} (t : Nat) (r : Option Nat) (i : Nat) : MonHistory ev s →
      s.heap.denote r = .ok (some i) → s.exit t r = .ok s' → MonHistory (⟨t, false, i⟩ :: ev) s'

end Spec
