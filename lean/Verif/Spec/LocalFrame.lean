import Verif.Model.LocalFrame
import Verif.Spec.Refs
/-!
What a `LocalFrame` promises: the frames of the thread are those from before.
-/
namespace Spec
open Jnivm

mutual

/-- Every call in the program satisfies `p`. -/
def CallsIn (p : Nat → HeapOp → Prop) : FrameStmt → Prop
  | .call u op => p u op
  | .raise _ => True
  | .attempt body => AllCalls p body
  | .frame _ body => AllCalls p body

def AllCalls (p : Nat → HeapOp → Prop) : List FrameStmt → Prop
  | [] => True
  | s :: l => CallsIn p s ∧ AllCalls p l

end

/-- The thread leaves its frames to `LocalFrame`. -/
def Structured (t u : Nat) (op : HeapOp) : Prop :=
  u = t → op ≠ .detach ∧ op ≠ .pushLocalFrame ∧ ∀ r, op ≠ .popLocalFrame r

/-- The thread deletes no local reference. -/
def NoDelete (t u : Nat) (op : HeapOp) : Prop :=
  u = t → ∀ r, op ≠ .deleteLocalRef r

/-- The same frames, but references may be missing. -/
inductive Thinned : List (List Nat) → List (List Nat) → Prop where
  | nil : Thinned [] []
  | cons {f g fs gs} : List.Sublist f g → Thinned fs gs → Thinned (f :: fs) (g :: gs)

/-- The thread has the attachment and the frames of `h` again in `h'`. -/
def Restored (t : Nat) (h h' : Heap) : Prop :=
  match h.envs t with
  | none => h'.envs t = none
  | some e => ∃ e', h'.envs t = some e' ∧ e'.eid = e.eid ∧ Thinned e'.frames e.frames

/-- The same, and no reference is missing. -/
def RestoredAll (t : Nat) (h h' : Heap) : Prop :=
  match h.envs t with
  | none => h'.envs t = none
  | some e => ∃ e', h'.envs t = some e' ∧ e'.eid = e.eid ∧ e'.frames = e.frames

end Spec
