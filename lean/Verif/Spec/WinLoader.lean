import Verif.Model.WinLoader
/-! What opening, searching and closing libraries has to do, said on calls and answers. -/
namespace Spec
open Jnivm

/-- The conversion of names is the one of Windows, on names that are not too long: the text of a C string contains
no NUL and has less than 2^31 - 2 units. -/
def Converts (conv : List (BitVec 8) → Option (List (BitVec 16))) : Prop :=
  ∀ n u, conv n = some u → 0 ∉ u ∧ u.length + 1 < 2147483647

/-- The module that a call of `dlopen` opens: the program itself, or the library with that name. -/
def opens (conv : List (BitVec 8) → Option (List (BitVec 16))) : WinOp → Option Nat
  | .dlopen none self _ => self
  | .dlopen (some []) self _ => self
  | .dlopen (some n) _ load => match conv n with
    | some u => load u
    | none => load []
  | _ => none

/-- How many of the calls open the module. -/
def opensOf (conv : List (BitVec 8) → Option (List (BitVec 16))) (m : Nat) (ops : List WinOp) : Nat :=
  (ops.filter fun op => opens conv op == some m).length

/-- How often other code loaded or released the module. -/
def loadsOf (m : Nat) : List WinOp → Nat
  | [] => 0
  | .loadLibrary k :: ops => (if k = m then 1 else 0) + loadsOf m ops
  | _ :: ops => loadsOf m ops

def freesOf (m : Nat) : List WinOp → Nat
  | [] => 0
  | .freeLibrary k :: ops => (if k = m then 1 else 0) + freesOf m ops
  | _ :: ops => freesOf m ops

/-- The handles that are open after a history: given out and not closed since. -/
def openHandles : List Nat → List (WinOp × WinAnswer) → List Nat
  | l, [] => l
  | l, (.dlopen _ _ _, .handle (some h)) :: hist => openHandles (h :: l) hist
  | l, (.dlclose (some h), _) :: hist => openHandles (l.filter (· != h)) hist
  | l, _ :: hist => openHandles l hist

/-- No call of the history closes the handle. -/
def KeepsOpen (h : Nat) (ops : List WinOp) : Prop := ∀ op ∈ ops, ∀ k, op = .dlclose k → k ≠ some h

end Spec
