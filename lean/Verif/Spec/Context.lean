import Verif.Model.Context
/-! Nested contexts of a thread. -/
namespace Spec
open Jnivm

/-- Contexts that are properly nested: each one made is destroyed after those made inside of it. -/
inductive Nested : List CtxOp → Prop where
  | nil : Nested []
  | enter (vm : Nat) {inner rest : List CtxOp} : Nested inner → Nested rest →
      Nested (.enter vm :: inner ++ .leave :: rest)
  | enterDefault {inner rest : List CtxOp} : Nested inner → Nested rest →
      Nested (.enterDefault :: inner ++ .leave :: rest)

/-- The steps of one thread in a schedule. -/
def stepsOf {α : Type} (t : Nat) (l : List (Nat × α)) : List α :=
  (l.filter (fun x => x.1 == t)).map (·.2)

/-- The VM's state can be reached by some schedule. -/
def CtxReachable (s : Threads) : Prop := ∃ l, (Threads.initial.run l).1 = s

/-- The step attaches the thread to no VM but this one. -/
def OnlyVm (vm : Nat) : CtxOp → Prop
  | .enter v | .attach v => v = vm
  | _ => True

end Spec
