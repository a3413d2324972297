import Verif.Model.Except
import Verif.Spec.Pending
/-!
What the pending exception of a thread contains and what has to be printed for it.
-/
namespace Spec
open Jnivm

/-- The pending exception of thread `t` contains the C++ exception `e` (none: no exception at all). -/
def Pends (h : Heap) (t : Nat) (e : Option Exn) : Prop :=
  ∃ env x o, h.envs t = some env ∧ env.pending = some x ∧ h.objs x = some o ∧ o.kind = .throwable e

/-- The text is a C string: it has no NUL inside. -/
def IsCString (text : Str) : Prop := Char.ofNat 0 ∉ text

/-- The line printed for a pending exception with that text. -/
def lineOf (text : Str) : Str := "Exception with Message `".toList ++ text ++ "` was thrown".toList

/-- Nobody made a `Throwable` without an exception inside. -/
def NoBareThrowable (ops : List (Nat × HeapOp)) : Prop :=
  ∀ t, (t, HeapOp.newObject (some "java/lang/Throwable".toList)) ∉ ops

end Spec
