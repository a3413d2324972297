import Verif.Spec.Override
/-! C42: replacing the function table keeps the object behind it reachable. -/
namespace Jnivm
open Spec

variable {α : Type}

theorem history_reserved {addr : Nat} {o : TableObj α} (h : TableHistory addr o) :
    o.addr = addr ∧ o.table.reserved0 = some addr := by
  induction h with
  | created tmpl hooks => exact ⟨rfl, rfl⟩
  | replaced t _ ho ih =>
    unfold TableObj.override at ho
    split at ho
    · cases ho
    · cases ho; exact ih

/-- C42. Whatever tables were installed, the object is found through its `JNIEnv` or `JavaVM`. -/
theorem from_table_own {addr : Nat} {o : TableObj α} (h : TableHistory addr o) :
    fromTable (some o) = .ok addr := by
  simp only [fromTable, (history_reserved h).2]

/-- C42. Exactly the tables that name no owner or the right one are accepted; then all functions are those
of the new table. -/
theorem override_exact {addr : Nat} {o : TableObj α} (h : TableHistory addr o) (t : Iface α) :
    (t.reserved0 = none ∨ t.reserved0 = some addr →
      o.override t = .ok ⟨addr, ⟨some addr, t.slots⟩⟩) ∧
    (∀ a, t.reserved0 = some a → a ≠ addr → ∃ e, o.override t = .throws e) := by
  obtain ⟨h1, h2⟩ := history_reserved h
  refine ⟨fun ht => ?_, fun a ha hne => ?_⟩
  · unfold TableObj.override
    rw [if_neg, h2, ← h1]
    rw [h2]
    rintro ⟨h3, h4⟩
    exact ht.elim h3 h4
  · refine ⟨.runtimeError, ?_⟩
    unfold TableObj.override
    rw [if_pos]
    rw [ha, h2]
    exact ⟨by simp, by simp [hne]⟩

/-- The creation hooks run on the template before the owner is written: all their changes survive but for
the owner. -/
theorem create_slots (addr : Nat) (tmpl : Iface α) (hooks : List (Iface α → Iface α)) :
    (TableObj.createEnv addr tmpl hooks).table.slots = (hooks.foldl (fun t h => h t) tmpl).slots := rfl

/-- Sample: a hook that writes the owner slot, then a replacement. -/
example : ∃ o : TableObj Nat, TableHistory 8 o ∧ o.table.slots = 5 ∧ (⟨some 9, 1⟩ : Iface Nat).reserved0 = some 9 :=
  ⟨⟨8, ⟨some 8, 5⟩⟩, .replaced ⟨none, 5⟩ (.created ⟨none, 1⟩ [fun t => { t with reserved0 := some 3 }])
    (by decide), rfl, rfl⟩

/-- Without the check of the owner, or without keeping it, `from_table_own` would fail: null is refused. -/
theorem from_table_null (o : TableObj α) (h : o.table.reserved0 = none) :
    (∃ e, fromTable (some o) = .throws e) ∧ ∃ e, fromTable (none : Option (TableObj α)) = .throws e :=
  ⟨⟨.runtimeError, by simp only [fromTable, h]⟩, ⟨.runtimeError, rfl⟩⟩

example : (⟨1, ⟨none, 2⟩⟩ : TableObj Nat).table.reserved0 = none := rfl

end Jnivm
