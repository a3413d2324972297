import Verif.Model.Race
/-! What concurrent lookups should do: as if each happened at once, one after the other. -/
namespace Spec
open Jnivm

/-- A class nobody is using; ids still to come are new. -/
structure Quiet (inh : Inherited) (s : Shared) : Prop where
  lock : s.lock = none
  pc : ∀ t, s.pc t = .idle
  answers : s.answers = []
  fresh : ∀ f ∈ s.fields, f.id < s.next
  old : ∀ k id, inh.field k = some id → id < s.next

/-- Everything that can be reached by any interleaving of any calls of any threads. -/
inductive Interleaved (inh : Inherited) (s0 : Shared) : Shared → Prop where
  | start : Interleaved inh s0 s0
  | step {s s'} (t : Nat) (q : Request) : Interleaved inh s0 s → s.step inh t q = some s' →
      Interleaved inh s0 s'

/-- A field that is what was asked for. -/
def FieldKey.Names (k : FieldKey) (f : FieldRec) : Prop := f.static = k.static ∧ f.name = k.name ∧ f.type = k.type

/-- One lookup, done at once: the table before, the key, the id returned, the table after. -/
inductive Lookup (inh : FieldKey → Option Nat) : List FieldRec → FieldKey → Nat → List FieldRec → Prop where
  | own {pre f post k} : (∀ g ∈ pre, ¬ FieldKey.Names k g) → FieldKey.Names k f →
      Lookup inh (pre ++ f :: post) k f.id (pre ++ f :: post)
  | inherited {fs k id} : (∀ g ∈ fs, ¬ FieldKey.Names k g) → inh k = some id → Lookup inh fs k id fs
  | made {fs k f} : (∀ g ∈ fs, ¬ FieldKey.Names k g) → inh k = none → FieldKey.Names k f →
      (∀ g ∈ fs, g.id ≠ f.id) → (∀ k', inh k' ≠ some f.id) → f.getter = none → f.setter = none →
      Lookup inh fs k f.id (fs ++ [f])

/-- Lookups one after the other, the latest first. -/
inductive Serial (inh : FieldKey → Option Nat) (fs0 : List FieldRec) :
    List (FieldKey × Nat) → List FieldRec → Prop where
  | nil : Serial inh fs0 [] fs0
  | cons {done fs k id fs'} : Serial inh fs0 done fs → Lookup inh fs k id fs' →
      Serial inh fs0 ((k, id) :: done) fs'

/-- The answers to field lookups, the latest first. -/
def fieldAnswers : List Answer → List (FieldKey × Nat)
  | [] => []
  | ⟨_, .field k, id⟩ :: rest => (k, id) :: fieldAnswers rest
  | ⟨_, .method _, _⟩ :: rest => fieldAnswers rest

/-- The thread accesses the table of fields. -/
def InFields : Pc → Prop
  | .search (.field _) | .inherit (.field _) | .create (.field _) => True
  | _ => False

/-- Two threads access the table of methods next, one of them changes it and neither waits for the other. -/
def MethodRace (s : Shared) : Prop :=
  ∃ t u k q, t ≠ u ∧ s.pc t = .create (.method k) ∧
    (s.pc u = .create (.method q) ∨ s.pc u = .search (.method q))

/-- `u` is past its own search for `k`. -/
def Missed (p : Pc) (q : Request) : Prop := p = .inherit q ∨ p = .create q

end Spec
