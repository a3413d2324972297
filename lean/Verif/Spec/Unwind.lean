import Verif.Model.Unwind
import Verif.Spec.Invoke
import Verif.Spec.LocalFrame
import Verif.Spec.Except
/-!
Exceptions in programs that call hooked functions through `Method::invoke`.
-/
namespace Spec
open Jnivm

mutual

/-- Every call of the interface in the program satisfies `p`. -/
def ProgCalls (p : Nat → HeapOp → Prop) : ProgStmt → Prop
  | .call u op => p u op
  | .raise _ => True
  | .attempt _ body => AllProgCalls p body
  | .frame _ body => AllProgCalls p body
  | .invoke _ _ _ _ body _ => AllProgCalls p body

def AllProgCalls (p : Nat → HeapOp → Prop) : List ProgStmt → Prop
  | [] => True
  | s :: l => ProgCalls p s ∧ AllProgCalls p l

end

mutual

/-- The statement itself calls no hooked function. -/
def Plain : ProgStmt → Prop
  | .call _ _ => True
  | .raise _ => True
  | .attempt _ body => AllPlain body
  | .frame _ body => AllPlain body
  | .invoke _ _ _ _ _ _ => False

def AllPlain : List ProgStmt → Prop
  | [] => True
  | s :: l => Plain s ∧ AllPlain l

end

mutual

/-- The code of one function treats exceptions as C++ code should: it does not raise exceptions by the
interface, and when it catches an exception that a hooked function may have thrown, it clears the pending one.
Nothing is asked of the functions it calls. -/
def Clears (t : Nat) : ProgStmt → Prop
  | .call u op => u = t → (∀ r, op ≠ .throw r) ∧ ∀ e, op ≠ .raise e
  | .raise _ => True
  | .attempt clear body => AllClears t body ∧ (clear = true ∨ AllPlain body)
  | .frame _ body => AllClears t body
  | .invoke _ _ _ _ _ _ => True

def AllClears (t : Nat) : List ProgStmt → Prop
  | [] => True
  | s :: l => Clears t s ∧ AllClears t l

end

/-- No exception is pending in thread `t`. -/
def NonePends (h : Heap) (t : Nat) : Prop := ∀ env, h.envs t = some env → env.pending = none

/-- The states that programs on any threads lead to. -/
inductive ProgReachable (w : CppTypes) : Heap → Prop where
  | initial : ProgReachable w Heap.initial
  | run {h h' share t l x} : ProgReachable w h → runProg w share t h l = .ok (h', x) → ProgReachable w h'

/-- The conversions of `this` and of the arguments succeed in `h1`, the state in which the call is made: the
function runs from `h2`, and temporaries own `temps` meanwhile. -/
def Enters (w : CppTypes) (share : Bool) (t : Nat) (h : Heap) (target : Recipient) (args : List InvokeArg)
    (this : Option CppClass) (params : List Param) (h2 : Heap) (temps : List Nat) : Prop :=
  ∃ h1 js xs, h.invokeBegin w share t target args = .ok (h1, js) ∧
    h1.invokeEnter w t target ⟨this, params, [], .void⟩ js = .ok (h2, temps, xs)

/-- A conversion throws `e`. -/
def Refuses (w : CppTypes) (share : Bool) (t : Nat) (h : Heap) (target : Recipient) (args : List InvokeArg)
    (this : Option CppClass) (params : List Param) (e : Exn) : Prop :=
  ∃ h1 js, h.invokeBegin w share t target args = .ok (h1, js) ∧
    h1.invokeEnter w t target ⟨this, params, [], .void⟩ js = .throws e

end Spec
