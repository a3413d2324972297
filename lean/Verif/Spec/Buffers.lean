import Verif.Model.Buffers
import Verif.Spec.Refs
/-! Histories of calls with what they returned, and what was handed out and given back in them. -/
namespace Spec
open Jnivm

/-- A history: thread, call and result. -/
abbrev Events := List (Nat × BufOp × Res BufOut)

/-- After the call the program goes on: it returned, or a function of strings or buffers threw. -/
def GoesOn (op : BufOp) : Res BufOut → Prop
  | .ok _ => True
  | .throws _ => ∀ o, op ≠ .heap o
  | _ => False

/-- The history leads from one state to the other. -/
inductive Runs : Store → Events → Store → Prop where
  | nil {s} : Runs s [] s
  | cons {s s1 s' t op x ev} : s.exec t op = (s1, x) → GoesOn op x → Runs s1 ev s' →
      Runs s ((t, op, x) :: ev) s'

/-- The call handed out the array `k`. -/
def HandsOut (k : Nat) (e : Nat × BufOp × Res BufOut) : Bool :=
  match e with
  | (_, .getChars _, .ok (.ptr (.block j) _)) => j == k
  | _ => false

/-- The call gave the array `k` back. -/
def GivesBack (k : Nat) (e : Nat × BufOp × Res BufOut) : Bool :=
  match e with
  | (_, .releaseChars _ (.block j), _) => j == k
  | _ => false

/-- The reference denotes a string with this content. -/
def IsString (s : Store) (r : Option Nat) (i : Nat) (b : Bytes) : Prop :=
  Denotes s.heap r (some i) ∧ s.data i = some (.string b)

end Spec
