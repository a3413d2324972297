import Verif.Lemmas.Wrappers
import Verif.Props.Table
/-! C84: the member functions of `JNIEnv` and `JavaVM` call the entry of the table that the specification
gives them, with all arguments in order. -/
namespace Jnivm
open Spec

theorem native_wrappers_checked : nativeWrappers.all (wrapperOk nativeHeader (.ptr .env)) = true := by
  decide +kernel

theorem invoke_wrappers_checked : invokeWrappers.all (wrapperOk invokeHeader (.ptr .vm)) = true := by
  decide +kernel

/-- A member function that passes the check, on any table. -/
theorem wrapper_run {header : List (String × Option CFn)} {names : List String} (hh : header.map (·.1) = names)
    {self : CTy} {w : Wrapper} (h : wrapperOk header self w = true) :
    ∃ i : Nat, names[i]? = some (entryName w.name w.fn) ∧
      header[i]? = some (entryName w.name w.fn, some (entryType self w.fn)) ∧
      ∀ {α β σ : Type} (table : List (List α → σ → Res (σ × β))) (_ : table.length = names.length)
        (this : α) (va : List α → α) (args : List α) (_ : Accepts w.fn args) (s : σ),
        ∃ f : List α → σ → Res (σ × β), table[i]? = some f ∧ w.run header table this va args s =
          (f (passedOn this va w.fn args) s).bind fun (s, r) =>
            .ok (s, if IsVoid w.fn then none else some r) := by
  obtain ⟨h1, h2, h3, h4, i, h5, h6⟩ := wrapperOk_cases h
  have hi : names[i]? = some w.slot := by
    rw [← hh, List.getElem?_map, h6]; rfl
  refine ⟨i, h1 ▸ hi, h1 ▸ h6, ?_⟩
  intro α β σ table hl this va args ha s
  have hlt : i < table.length := by
    rw [hl]
    exact (List.getElem?_eq_some_iff.1 hi).1
  refine ⟨table[i], List.getElem?_eq_getElem hlt, ?_⟩
  have e1 : entryAt header table w.slot = .ok table[i] := by
    simp only [entryAt, h5, List.getElem?_eq_getElem hlt]
  have e2 := evalWArgs_plain this va args w.fn h3 ha
  simp only [Wrapper.run, e1, h2, e2, Res.bind]
  cases table[i] (passedOn this va w.fn args) s with
  | ok r =>
    by_cases hv : IsVoid w.fn
    · simp only [if_pos hv]
      rw [if_neg (fun hr => hr.2 hv)]
    · simp only [if_neg hv]
      rw [if_pos ⟨h4.resolve_right hv, hv⟩]
  | throws e => rfl
  | ub u => rfl
  | diverges => rfl

/-- C84. A member function of `JNIEnv` called with arguments it accepts runs the function at the index that the
specification gives to its name (with a V if it is variadic), whatever the table holds, passes it the
environment and all arguments in order, the ones without a parameter as a `va_list`, and returns its result. -/
theorem native_wrapper_calls (w : Wrapper) (h : w ∈ nativeWrappers) :
    ∃ i : Nat, standardNames[i]? = some (entryName w.name w.fn) ∧
      nativeHeader[i]? = some (entryName w.name w.fn, some (entryType (.ptr .env) w.fn)) ∧
      ∀ {α β σ : Type} (table : List (List α → σ → Res (σ × β))) (_ : table.length = standardNames.length)
        (this : α) (va : List α → α) (args : List α) (_ : Accepts w.fn args) (s : σ),
        ∃ f : List α → σ → Res (σ × β), table[i]? = some f ∧ w.run nativeHeader table this va args s =
          (f (passedOn this va w.fn args) s).bind fun (s, r) =>
            .ok (s, if IsVoid w.fn then none else some r) :=
  wrapper_run header_standard.1 (List.all_eq_true.1 native_wrappers_checked w h)

/-- C84. The member functions of `JavaVM` likewise. -/
theorem invoke_wrapper_calls (w : Wrapper) (h : w ∈ invokeWrappers) :
    ∃ i : Nat, standardInvokeNames[i]? = some (entryName w.name w.fn) ∧
      invokeHeader[i]? = some (entryName w.name w.fn, some (entryType (.ptr .vm) w.fn)) ∧
      ∀ {α β σ : Type} (table : List (List α → σ → Res (σ × β)))
        (_ : table.length = standardInvokeNames.length)
        (this : α) (va : List α → α) (args : List α) (_ : Accepts w.fn args) (s : σ),
        ∃ f : List α → σ → Res (σ × β), table[i]? = some f ∧ w.run invokeHeader table this va args s =
          (f (passedOn this va w.fn args) s).bind fun (s, r) =>
            .ok (s, if IsVoid w.fn then none else some r) :=
  wrapper_run header_standard.2 (List.all_eq_true.1 invoke_wrappers_checked w h)

/-- C84. Every function of the specification is a member function, and there are no others. -/
theorem wrappers_complete :
    nativeWrappers.map (·.name) = standardNames.filter (fun n => !"reserved".toList.isPrefixOf n.toList) ∧
    invokeWrappers.map (·.name) = standardInvokeNames.filter (fun n => !"reserved".toList.isPrefixOf n.toList) := by
  decide +kernel

/-- C84. In the table the VM makes, this entry is the implementation of that function. -/
theorem wrapper_implementation (w : Wrapper) (h : w ∈ nativeWrappers) :
    ∃ (i : Nat) (e : Entry) (f : Impl), standardNames[i]? = some (entryName w.name w.fn) ∧ nativeTable[i]? = some e ∧
      e.resolve (entryType (.ptr .env) w.fn) = [f] ∧ FulfilsName f (entryName w.name w.fn) := by
  obtain ⟨i, h1, h2, _⟩ := native_wrapper_calls w h
  obtain ⟨hi, he⟩ := List.getElem?_eq_some_iff.1 h1
  obtain ⟨slot, e, hs, ht, _, hok, _⟩ := native_standard i hi
  rw [h2] at hs
  cases hs
  obtain ⟨f, hf, hn⟩ := hok
  exact ⟨i, e, f, h1, ht, hf, hn⟩

/-- C84. A call `env->CallIntMethod(obj, id, x, y, …)` in C++ never runs the variadic entry of the table: two
tables that differ in the entries for further arguments only are the same to every member function.  (A VM that
overrides these entries alone is not noticed by C++ code.) -/
theorem wrapper_never_variadic (w : Wrapper) (h : w ∈ nativeWrappers) {α β σ : Type}
    (t u : List (List α → σ → Res (σ × β)))
    (hag : ∀ (i : Nat) (p : String × CFn), nativeHeader[i]? = some (p.1, some p.2) → ¬ Variadic p.2 → t[i]? = u[i]?)
    (this : α) (va : List α → α) (args : List α) (s : σ) :
    w.run nativeHeader t this va args s = w.run nativeHeader u this va args s := by
  obtain ⟨_, _, _, _, i, h5, h6⟩ := wrapperOk_cases (List.all_eq_true.1 native_wrappers_checked w h)
  have hv : ¬ Variadic (entryType (.ptr .env) w.fn) := by
    simp only [Variadic, entryType, List.mem_cons, List.mem_map, not_or, not_exists, not_and]
    refine ⟨by decide, fun t _ => ?_⟩
    by_cases ht : t = .dots
    · rw [if_pos ht]; decide
    · rw [if_neg ht]; exact ht
  have := hag i (w.slot, entryType (.ptr .env) w.fn) h6 hv
  simp only [Wrapper.run, entryAt, h5, this]

/-! ### Examples -/

/-- `env->CallIntMethod`, include/jni.h:506-516, 534. -/
def callIntWrapper : Wrapper :=
  ⟨"CallIntMethod", ⟨.val .int, [.val .object, .methodID, .dots]⟩, "CallIntMethodV",
    [.this, .param 0, .param 1, .rest 1], true⟩

/-- A table whose entries tell who was called with what. -/
def tellTable : List (List (List Nat) → List Nat → Res (List Nat × List (List Nat))) :=
  (List.range 233).map fun i args s => .ok (s ++ [i], args)

-- the variadic call runs entry 50, CallIntMethodV, with the arguments behind the id in one list
example : callIntWrapper ∈ nativeWrappers ∧ Accepts callIntWrapper.fn [[7], [8], [1], [2], [3]] ∧
    tellTable.length = standardNames.length ∧
    callIntWrapper.run nativeHeader tellTable [9] List.flatten [[7], [8], [1], [2], [3]] [] =
      .ok ([50], some [[9], [7], [8], [1, 2, 3]]) := by decide +kernel

-- a function without a result
example : ∃ w ∈ nativeWrappers, w.name = "DeleteGlobalRef" ∧ Accepts w.fn [[7]] ∧
    w.run nativeHeader tellTable [9] List.flatten [[7]] [] = .ok ([22], none) := by decide +kernel

-- a call with too few arguments does not compile; the model has no result for it
example : ¬ Accepts callIntWrapper.fn [[7]] ∧
    callIntWrapper.run nativeHeader tellTable [9] List.flatten [[7]] [] = .ub .outOfBounds := by decide +kernel

-- tables that differ in CallIntMethod (49) only
example : ∃ t u : List (List (List Nat) → List Nat → Res (List Nat × List (List Nat))),
    (t.length = 233 ∧ u.length = 233) ∧
    (∀ (i : Nat) (p : String × CFn), nativeHeader[i]? = some (p.1, some p.2) → ¬ Variadic p.2 → t[i]? = u[i]?) ∧
    (t[49]?.map fun f => f [] []) ≠ (u[49]?.map fun f => f [] []) := by
  refine ⟨tellTable, tellTable.set 49 fun _ _ => .ub .nullDeref, by decide +kernel, ?_, by decide +kernel⟩
  intro i p hp hv
  by_cases hi : i = 49
  · subst hi
    have : nativeHeader[49]? = some ("CallIntMethod", some
        ⟨.val .int, [.ptr .env, .val .object, .methodID, .dots]⟩) := by decide +kernel
    rw [this] at hp
    obtain ⟨p1, p2⟩ := p
    simp only [Option.some.injEq, Prod.mk.injEq] at hp
    dsimp only at hv
    rw [← hp.2] at hv
    exact absurd (by decide) hv
  · rw [List.getElem?_set_ne (fun h => hi h.symm)]

end Jnivm
