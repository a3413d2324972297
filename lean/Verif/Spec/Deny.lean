import Verif.Model.Baron
/-! Which names the rules of a Baron VM forbid. -/
namespace Spec
open Jnivm

/-- An empty or missing text stands for everything. -/
def Wild : Option Str → Prop
  | none => True
  | some s => s = []

/-- A part of a rule covers a part of a query: one of them stands for everything or they are equal. -/
def Covers (rule : Str) (query : Option Str) : Prop := rule = [] ∨ Wild query ∨ query = some rule

/-- The rule covers the query. -/
def Forbids (r : DenyRule) (name : Str) (sig clazz : Option Str) : Prop :=
  Covers r.name (some name) ∧ Covers r.signature sig ∧ Covers r.classname clazz

/-- Adding a rule. -/
inductive DenyOp where
  | cls (name : Str)
  | method (name sig clazz : Str)
  | field (name sig clazz : Str)
deriving DecidableEq

def DenyOp.run (d : Deny) : DenyOp → Deny
  | .cls n => d.denyClass n
  | .method n s c => d.denyMethod n s c
  | .field n s c => d.denyField n s c

/-- The rules after adding some to a new VM. -/
def denyAll (ops : List DenyOp) : Deny := ops.foldl DenyOp.run Deny.empty

/-- `Lookups d w w'`: lookups through the Baron tables lead from `w` to `w'`; class arguments are
classes of the VM. -/
inductive Lookups (d : Deny) : World → World → Prop where
  | refl {w} : Lookups d w w
  | findClass {w w1} (n : Str) : Lookups d w w1 → Lookups d w { w1 with reg := (d.findClass w1.reg n).1 }
  | getMethodID {w w1 w2 depth st n c name sig r} : Lookups d w w1 → w1.IsClass n c →
      d.getMethodID depth st w1 (some c) name sig = .ok (w2, r) → Lookups d w w2
  | getFieldID {w w1 w2 depth st n c name type r} : Lookups d w w1 → w1.IsClass n c →
      d.getFieldID depth st w1 (some c) name type = .ok (w2, r) → Lookups d w w2

end Spec
