import Verif.Model.FrameSize
import Verif.Spec.LocalFrame
/-!
What the sizes of frames may do: nothing, if there is enough memory.
-/
namespace Spec
open Jnivm

mutual

/-- The program without the sizes. -/
def erase : SizedStmt → FrameStmt
  | .call u op => .call u op
  | .raise e => .raise e
  | .attempt body => .attempt (eraseAll body)
  | .frame vm _ body => .frame vm (eraseAll body)

def eraseAll : List SizedStmt → List FrameStmt
  | [] => []
  | s :: l => erase s :: eraseAll l

end

mutual

/-- The number of scopes in the program with a size that satisfies `p`. -/
def sizesIn (p : BitVec 32 → Bool) : SizedStmt → Nat
  | .call _ _ => 0
  | .raise _ => 0
  | .attempt body => sizesAll p body
  | .frame _ n body => (if p n then 1 else 0) + sizesAll p body

def sizesAll (p : BitVec 32 → Bool) : List SizedStmt → Nat
  | [] => 0
  | s :: l => sizesIn p s + sizesAll p l

end

/-- What the JNI specification says of a call that is to provide room: it returns 0, or it returns a negative
number, throws an OutOfMemoryError and has done nothing.  `done` is the state after it has succeeded. -/
def RoomContract (t : Nat) (h done : Heap) (h' : Heap) (r : Except Exn (BitVec 32)) : Prop :=
  (r = .ok 0 ∧ h' = done) ∨
  ∃ c e e', r = .ok c ∧ c.toInt < 0 ∧ h.envs t = some e ∧ h'.envs t = some e' ∧ e'.frames = e.frames ∧
    e'.pending.isSome

end Spec
