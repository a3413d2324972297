import Verif.Lemmas.MemberSample
/-!
Lemmas about hooks and native registration.
-/
namespace Jnivm
open Spec

theorem find_updateFirst {α : Type} {p q : α → Bool} {f : α → α} (hqp : ∀ a, q a = true → p a = true)
    {l : List α} {x : α} (h : l.find? p = some x) (hq : q (f x) = true) :
    (updateFirst p f l).find? q = some (f x) := by
  induction l with
  | nil => cases h
  | cons a l ih =>
    cases hp : p a with
    | true =>
      rw [List.find?_cons_of_pos hp] at h
      cases h
      simp only [updateFirst, hp, if_true]
      rw [List.find?_cons_of_pos hq]
    | false =>
      rw [List.find?_cons_of_neg (by simp [hp])] at h
      simp only [updateFirst, hp, Bool.false_eq_true, if_false]
      rw [List.find?_cons_of_neg, ih h]
      intro hqa
      rw [hqp a hqa] at hp
      cases hp

theorem mem_updateFirst {α : Type} {p : α → Bool} {f : α → α} {l : List α} {x : α}
    (h : l.find? p = some x) {y : α} :
    y ∈ updateFirst p f l → y = f x ∨ y ∈ l := by
  induction l with
  | nil => cases h
  | cons a l ih =>
    cases hp : p a with
    | true =>
      rw [List.find?_cons_of_pos hp] at h
      cases h
      simp only [updateFirst, hp, if_true, List.mem_cons]
      rintro (e | e)
      · exact .inl e
      · exact .inr (.inr e)
    | false =>
      rw [List.find?_cons_of_neg (by simp [hp])] at h
      simp only [updateFirst, hp, Bool.false_eq_true, if_false, List.mem_cons]
      rintro (e | e)
      · exact .inr (.inl e)
      · exact (ih h e).imp id .inr

theorem mem_updateFirst_of {α : Type} {p : α → Bool} {f : α → α} {l : List α} {x : α}
    (h : l.find? p = some x) {y : α} (hy : y ∈ l) : y = x ∨ y ∈ updateFirst p f l := by
  induction l with
  | nil => cases h
  | cons a l ih =>
    cases hp : p a with
    | true =>
      rw [List.find?_cons_of_pos hp] at h
      cases h
      simp only [updateFirst, hp, if_true, List.mem_cons]
      rcases List.mem_cons.1 hy with e | e
      · exact .inl e
      · exact .inr (.inr e)
    | false =>
      rw [List.find?_cons_of_neg (by simp [hp])] at h
      simp only [updateFirst, hp, Bool.false_eq_true, if_false, List.mem_cons]
      rcases List.mem_cons.1 hy with e | e
      · exact .inr (.inl e)
      · exact (ih h e).imp id .inr

theorem hookHits_iff {st : Bool} {n s : Str} {m : MethodRec} : hookHits st n s m = true ↔
    m.static = st ∧ m.name = n ∧ m.signature = s := by
  simp only [hookHits, Bool.and_eq_true, beq_iff_eq, and_assoc]

/-- The method table after a hook. -/
theorem hookMethod_found {w : World} {c : Nat} {st : Bool} {n s : Str} {m : MethodRec}
    (h : (w.mem c).methods.find? (hookHits st n s) = some m) (fn : Nat) :
    w.hookMethod c st n s fn = w.setMem c { w.mem c with
      methods := updateFirst (hookHits st n s) (fun m => { m with handle := some fn }) (w.mem c).methods } := by
  have : (w.mem c).methods.any (hookHits st n s) = true := by
    rw [List.any_eq_true]
    exact ⟨m, List.mem_of_find?_eq_some h, List.find?_some h⟩
  simp only [World.hookMethod, this, if_true]

theorem hookMethod_new {w : World} {c : Nat} {st : Bool} {n s : Str}
    (h : (w.mem c).methods.find? (hookHits st n s) = none) (fn : Nat) :
    w.hookMethod c st n s fn = { w.setMem c { w.mem c with
      methods := (w.mem c).methods ++ [⟨w.next, n, s, st, none, some fn⟩] } with next := w.next + 1 } := by
  have : (w.mem c).methods.any (hookHits st n s) = false := by
    rw [List.any_eq_false]
    intro x hx
    exact List.find?_eq_none.1 h x hx
  simp only [World.hookMethod, this, Bool.false_eq_true, if_false]

theorem hookField_found {w : World} {c : Nat} {g st : Bool} {n t : Str} {f : FieldRec}
    (h : (w.mem c).fields.find? (FieldKey.hits ⟨st, n, t⟩) = some f) (fn : Nat) :
    w.hookField c g st n t fn = w.setMem c { w.mem c with
      fields := updateFirst (FieldKey.hits ⟨st, n, t⟩) (FieldRec.setHandle g fn) (w.mem c).fields } := by
  have : (w.mem c).fields.any (FieldKey.hits ⟨st, n, t⟩) = true := by
    rw [List.any_eq_true]
    exact ⟨f, List.mem_of_find?_eq_some h, List.find?_some h⟩
  simp only [World.hookField, this, if_true]

theorem hookField_new {w : World} {c : Nat} {g st : Bool} {n t : Str}
    (h : (w.mem c).fields.find? (FieldKey.hits ⟨st, n, t⟩) = none) (fn : Nat) :
    w.hookField c g st n t fn = { w.setMem c { w.mem c with
      fields := (w.mem c).fields ++ [FieldRec.setHandle g fn ⟨w.next, n, t, st, none, none⟩] }
      with next := w.next + 1 } := by
  have : (w.mem c).fields.any (FieldKey.hits ⟨st, n, t⟩) = false := by
    rw [List.any_eq_false]
    intro x hx
    exact List.find?_eq_none.1 h x hx
  simp only [World.hookField, this, Bool.false_eq_true, if_false]

/-- Native methods are never static. -/
theorem native_not_static {ops : List MemOp} : ∀ {w w' : World}, runMem w ops = .ok w' →
    (∀ c m, m ∈ w.cores c → m.native.isSome → m.static = false) →
    ∀ c m, m ∈ w'.cores c → m.native.isSome → m.static = false := by
  induction ops with
  | nil => intro w w' h hw; cases h; exact hw
  | cons op ops ih =>
    intro w w' h hw
    unfold runMem at h
    obtain ⟨w1, h1, h2⟩ := Res.bind_eq_ok.1 h
    refine ih h2 ?_
    intro c m hm hn
    obtain ⟨c0, adds, e1, e2, e3, _⟩ := step_cores h1
    by_cases hc : c = c0
    · subst hc
      rcases e2 with e2 | ⟨_, _, e2⟩
      · rw [e2, List.mem_append] at hm
        rcases hm with hm | hm
        · exact hw c m hm hn
        · have ho := (e3 m hm).2.2
          cases op with
          | registerNatives cl l =>
            cases cl with
            | none => exact absurd ho id
            | some d => exact ho.2.1
          | getMethodID _ _ _ _ cl _ _ =>
            cases cl with
            | none => exact absurd ho id
            | some d => rw [ho.2.1] at hn; cases hn
          | hookMethod => rw [ho.2.1] at hn; cases hn
          | _ => exact absurd ho id
      · rw [e2] at hm
        exact hw c m (List.mem_filter.1 hm).1 hn
    · rw [e1 c hc] at hm; exact hw c m hm hn

theorem MemReachable.native_not_static {w : World} (h : MemReachable w) {c : Nat} {m : MethodRec}
    (hm : m ∈ (w.mem c).methods) (hn : m.native.isSome) : m.static = false := by
  obtain ⟨ops, h⟩ := h
  exact Jnivm.native_not_static h
    (by intro c m h; simp [World.cores, World.initial, Members.empty] at h) c m.core
    (List.mem_map_of_mem hm) hn

/-- A table built from `w`'s by appending and dropping natives keeps `w`'s other records. -/
theorem step_method_keep {w w' : World} {op : MemOp} (hrun : op.run w = .ok w') {c : Nat} {m : MethodRec}
    (hm : m ∈ (w.mem c).methods) (hn : m.native = none)
    (hop : ∀ fn, op ≠ .hookMethod c m.static m.name m.signature fn) : m ∈ (w'.mem c).methods := by
  cases op with
  | findClass z n => simp [MemOp.run] at hrun; subst hrun; exact hm
  | getMethodID depth st rn nat cl n s =>
    simp only [MemOp.run] at hrun
    obtain ⟨⟨w1, r⟩, h1, h2⟩ := Res.bind_eq_ok.1 hrun
    cases h2
    rcases getMethodID_ok h1 with ⟨_, _, e, _⟩ | ⟨_, _, _, reg, _, e⟩ | ⟨d, cd, _, _, h3⟩
    · subst e; exact hm
    · subst e; exact hm
    rcases methodOf_ok h3 with ⟨e, _⟩ | ⟨_, _, _, reg, _, e⟩
    · subst e; exact hm
    · subst e
      by_cases hc : c = d
      · subst hc; simp [World.addMethod, hm]
      · simp [World.addMethod, hc, hm]
  | getFieldID depth st rn cl n s =>
    simp only [MemOp.run] at hrun
    obtain ⟨⟨w1, r⟩, h1, h2⟩ := Res.bind_eq_ok.1 hrun
    cases h2
    obtain ⟨d, cd, _, _, ⟨e, _⟩ | ⟨_, _, _, reg, _, e⟩⟩ := getFieldID_ok h1
    · subst e; exact hm
    · subst e
      by_cases hc : c = d
      · subst hc; simp [World.addField, hm]
      · simp [World.addField, hc, hm]
  | hookMethod d st n s fn =>
    simp [MemOp.run] at hrun; subst hrun
    cases hf : (w.mem d).methods.find? (hookHits st n s) with
    | none =>
      rw [hookMethod_new hf]
      by_cases hc : c = d
      · subst hc; simp [hm]
      · simp [hc, hm]
    | some x =>
      rw [hookMethod_found hf]
      by_cases hc : c = d
      · subst hc
        simp only [setMem_mem, if_true]
        rcases mem_updateFirst_of (f := fun m => { m with handle := some fn }) hf hm with e | e
        · subst e
          obtain ⟨e1, e2, e3⟩ := hookHits_iff.1 (List.find?_some hf)
          exact absurd (by rw [e1, e2, e3]) (hop fn)
        · exact e
      · simp [hc, hm]
  | hookField d g st n t fn =>
    simp [MemOp.run] at hrun; subst hrun
    cases hf : (w.mem d).fields.find? (FieldKey.hits ⟨st, n, t⟩) with
    | none =>
      rw [hookField_new hf]
      by_cases hc : c = d
      · subst hc; simp [hm]
      · simp [hc, hm]
    | some x =>
      rw [hookField_found hf]
      by_cases hc : c = d
      · subst hc; simp [hm]
      · simp [hc, hm]
  | registerNatives cl l =>
    simp [MemOp.run] at hrun; subst hrun
    cases cl with
    | none => exact hm
    | some d =>
      simp only [World.registerNatives]
      induction l generalizing w with
      | nil => exact hm
      | cons n l ih =>
        simp only [List.foldl_cons]
        apply ih _ (by simp)
        unfold World.registerOne
        by_cases hc : c = d
        · subst hc; simp [hm]
        · simp [hc, hm]
  | unregisterNatives cl =>
    simp [MemOp.run] at hrun; subst hrun
    cases cl with
    | none => exact hm
    | some d =>
      unfold World.unregisterNatives
      by_cases hc : c = d
      · subst hc; simp [hm, hn]
      · simp [hc, hm]
  | bindType t n bs =>
    simp [MemOp.run] at hrun; subst hrun
    unfold World.bindType
    split
    · rename_i reg d h
      by_cases hc : c = d
      · subst hc; simp [hm]
      · simp [hc, hm]
    · exact hm

theorem run_method_keep {ops : List MemOp} : ∀ {w w' : World}, runMem w ops = .ok w' →
    ∀ {c : Nat} {m : MethodRec}, m ∈ (w.mem c).methods → m.native = none →
    (∀ fn, .hookMethod c m.static m.name m.signature fn ∉ ops) → m ∈ (w'.mem c).methods := by
  induction ops with
  | nil => intro w w' h c m hm _ _; cases h; exact hm
  | cons op ops ih =>
    intro w w' h c m hm hn hop
    unfold runMem at h
    obtain ⟨w1, h1, h2⟩ := Res.bind_eq_ok.1 h
    exact ih h2 (step_method_keep h1 hm hn fun fn e => hop fn (by simp [e])) hn
      (fun fn hin => hop fn (List.mem_cons_of_mem _ hin))

/-- The record a hook on `c` would change is not native and has this id. -/
def HookTarget (w : World) (c : Nat) (st : Bool) (n s : Str) (id : Nat) : Prop :=
  ∃ m, (w.cores c).find? (hookHits st n s) = some m ∧ m.native = none ∧ m.id = id

theorem step_hookTarget {w w' : World} {op : MemOp} (hrun : op.run w = .ok w') {c : Nat} {st : Bool}
    {n s : Str} {id : Nat} (h : HookTarget w c st n s id) : HookTarget w' c st n s id := by
  obtain ⟨m, hm, hn, hid⟩ := h
  refine ⟨m, ?_, hn, hid⟩
  obtain ⟨c0, adds, e1, e2, _⟩ := step_cores hrun
  by_cases hc : c = c0
  · subst hc
    rcases e2 with e2 | ⟨_, _, e2⟩
    · rw [e2, List.find?_append, hm]; rfl
    · rw [e2]
      clear e2 e1
      generalize w.cores c = l at hm
      induction l with
      | nil => cases hm
      | cons a l ih =>
        cases hp : hookHits st n s a with
        | true =>
          rw [List.find?_cons_of_pos hp] at hm
          cases hm
          rw [List.filter_cons_of_pos (by simp [hn]), List.find?_cons_of_pos hp]
        | false =>
          rw [List.find?_cons_of_neg (by simp [hp])] at hm
          cases ha : a.native.isNone with
          | true => rw [List.filter_cons_of_pos (by simp [ha]), List.find?_cons_of_neg (by simp [hp]), ih hm]
          | false => rw [List.filter_cons_of_neg (by simp [ha]), ih hm]
  · rw [e1 c hc]; exact hm

theorem run_hookTarget {ops : List MemOp} : ∀ {w w' : World}, runMem w ops = .ok w' →
    ∀ {c : Nat} {st : Bool} {n s : Str} {id : Nat}, HookTarget w c st n s id → HookTarget w' c st n s id := by
  induction ops with
  | nil => intro w w' h c st n s id ht; cases h; exact ht
  | cons op ops ih =>
    intro w w' h c st n s id ht
    unfold runMem at h
    obtain ⟨w1, h1, h2⟩ := Res.bind_eq_ok.1 h
    exact ih h2 (step_hookTarget h1 ht)

theorem find_core' {st : Bool} {n s : Str} (l : List MethodRec) :
    (l.map MethodRec.core).find? (hookHits st n s) = (l.find? (hookHits st n s)).map MethodRec.core := by
  rw [List.find?_map]
  rfl

theorem hookTarget_iff {w : World} {c : Nat} {st : Bool} {n s : Str} {id : Nat} :
    HookTarget w c st n s id ↔
      ∃ m, (w.mem c).methods.find? (hookHits st n s) = some m ∧ m.native = none ∧ m.id = id := by
  unfold HookTarget World.cores
  simp only [find_core', Option.map_eq_some_iff]
  constructor
  · rintro ⟨_, ⟨m, h, rfl⟩, hn, hid⟩; exact ⟨m, h, hn, hid⟩
  · rintro ⟨m, h, hn, hid⟩; exact ⟨m.core, ⟨m, h, rfl⟩, hn, hid⟩

theorem target_own {w : World} {c : Nat} {st : Bool} {n s : Str} {m : MethodRec}
    (h : (w.mem c).methods.find? (hookHits st n s) = some m) (hn : m.native = none) :
    (w.mem c).methods.find? (MethodKey.hits ⟨st, false, n, s⟩) = some m := by
  have hm := List.find?_some h
  rw [hookHits_iff] at hm
  obtain ⟨e1, e2, e3⟩ := hm
  rw [List.find?_eq_some_iff_append] at h ⊢
  obtain ⟨_, as, bs, e, hall⟩ := h
  refine ⟨by simp [MethodKey.hits, e1, e2, e3, hn], as, bs, e, ?_⟩
  intro a ha
  have := hall a ha
  simp only [MethodKey.hits, hookHits] at this ⊢
  revert this
  cases a.static == st <;> cases a.name == n <;> cases a.signature == s <;> simp

end Jnivm
