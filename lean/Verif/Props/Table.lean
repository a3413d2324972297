import Verif.Spec.Table
/-! C41: every slot of the two function tables holds the implementation of the function that jni.h declares
there. -/
namespace Jnivm
open Spec

/-- `SlotOk` as a check. -/
def slotOk (slot : String × Option CFn) (e : Entry) : Bool :=
  match slot.2 with
  | none => e = .null
  | some ty =>
    match e.resolve ty with
    | [f] => FulfilsName f slot.1
    | _ => false

theorem slotOk_iff {slot : String × Option CFn} {e : Entry} : slotOk slot e = true ↔ SlotOk slot e := by
  unfold slotOk SlotOk
  cases slot.2 with
  | none => simp
  | some ty =>
    simp only
    split
    · rename_i f h; simp [h]
    · rename_i h
      simp only [Bool.false_eq_true, false_iff, not_exists, not_and]
      intro f hf; exact absurd hf (h f)

theorem native_slots_checked : (nativeHeader.zip nativeTable).all (fun p => slotOk p.1 p.2) = true := by
  decide +kernel

theorem table_of_check {h : List (String × Option CFn)} {t : List Entry} (hl : h.length = t.length)
    (hc : (h.zip t).all (fun p => slotOk p.1 p.2) = true) (i : Nat) (hi : i < h.length) :
    SlotOk h[i] (t[i]'(hl ▸ hi)) := by
  rw [← slotOk_iff]
  rw [List.all_eq_true] at hc
  exact hc (h[i], t[i]'(hl ▸ hi)) (by
    rw [← List.getElem_zip (h := by rw [List.length_zip, ← hl, Nat.min_self]; exact hi)]
    exact List.getElem_mem _)

theorem native_length : nativeHeader.length = nativeTable.length := by decide +kernel

/-- C41. Each slot of the table of an environment. -/
theorem native_slots (i : Nat) (hi : i < nativeHeader.length) :
    SlotOk nativeHeader[i] (nativeTable[i]'(native_length ▸ hi)) :=
  table_of_check native_length native_slots_checked i hi


example : nativeHeader.length = 233 ∧ nativeHeader[49]? = some ("CallIntMethod", some
    ⟨.val .int, [.ptr .env, .val .object, .methodID, .dots]⟩) ∧ nativeTable[49]? = some (.call .int .obj) := by
  decide +kernel

theorem invoke_length : invokeHeader.length = invokeTable.length := by decide +kernel

theorem invoke_slots_checked : (invokeHeader.zip invokeTable).all (fun p => slotOk p.1 p.2) = true := by
  decide +kernel

/-- C41. Each slot of the table of the VM. -/
theorem invoke_slots (i : Nat) (hi : i < invokeHeader.length) :
    SlotOk invokeHeader[i] (invokeTable[i]'(invoke_length ▸ hi)) :=
  table_of_check invoke_length invoke_slots_checked i hi

example : invokeHeader.length = 8 ∧ (invokeHeader[5]?).map (·.1) = some "DetachCurrentThread" := by
  decide +kernel

/-- jni.h has the slots in the order of the specification, so code compiled against another jni.h calls the
same functions. -/
theorem header_standard : nativeHeader.map (·.1) = standardNames ∧
    invokeHeader.map (·.1) = standardInvokeNames := by decide +kernel

theorem standard_nodup : standardNames.Nodup ∧ standardInvokeNames.Nodup := by decide +kernel

/-- C41 in terms of the specification: the function called through index `i` of the table implements the
function the specification has at `i`, and no other index has that name. -/
theorem native_standard (i : Nat) (hi : i < standardNames.length) :
    ∃ slot e, nativeHeader[i]? = some slot ∧ nativeTable[i]? = some e ∧ slot.1 = standardNames[i] ∧
      SlotOk slot e ∧ ∀ j (hj : j < standardNames.length), standardNames[j] = standardNames[i] → j = i := by
  have hh : nativeHeader.length = standardNames.length := by rw [← header_standard.1, List.length_map]
  have hi' : i < nativeHeader.length := hh ▸ hi
  refine ⟨nativeHeader[i], nativeTable[i]'(native_length ▸ hi'), List.getElem?_eq_getElem hi',
    List.getElem?_eq_getElem _, ?_, native_slots i hi', ?_⟩
  · have := header_standard.1
    simp only [← this, List.getElem_map]
  · intro j hj h
    exact (List.getElem_inj standard_nodup.1).1 h

example : (49 : Nat) < standardNames.length ∧ standardNames[49]? = some "CallIntMethod" := by decide +kernel

/-- For every result type and target the compiler picks the overload whose arguments are passed as the slot
says. -/
theorem call_slots_by_type (t : JTy) (on : Target) (f : ArgForm) :
    (Entry.call t on).resolve ⟨.val t, .ptr .env :: on.params ++ [.methodID,
      match f with | .variadic => .dots | .vaList => .vaList | .array => .ptr .jvalue]⟩ = [.call t on f] := by
  cases t <;> cases on <;> cases f <;> rfl

end Jnivm
