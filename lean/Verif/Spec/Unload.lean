import Verif.Spec.Library
import Verif.Model.Unload
/-! Libraries that use the VM when they are loaded and unloaded. -/
namespace Spec
open Jnivm

/-- A call that leaves the table of the libraries alone. -/
def LeavesLibs : LibCall → Prop
  | .attach .. | .remove _ => False
  | _ => True

/-- A call that attaches or detaches the thread or looks for a class. -/
def OnlyFinds : LibCall → Prop
  | .look (.findClass _) | .attachThread | .detachThread => True
  | _ => False

/-- The program ran to its end and the VM lives. -/
def RunsTo (depth : Nat) (m m' : LibVm) : Prop := ∃ n, m.run depth n = .ok m' ∧ m'.stack = []

/-- The program ran to its end, then the VM was destroyed; the table of the libraries has any order. -/
def WholeRun (depth : Nat) (deny : Option Deny) (w : World) (calls : List LibCall) (m : LibVm) : Prop :=
  ∃ m1 order, RunsTo depth (LibVm.start deny w calls) m1 ∧ order.Perm (m1.libs.map (·.2)) ∧
    RunsTo depth (m1.finish order) m

/-- What is looked up exists. -/
def Exists (depth : Nat) (w : World) (l : Look) : Prop := ∃ w' id, l.plain depth true w = .ok (w', some id)

end Spec
