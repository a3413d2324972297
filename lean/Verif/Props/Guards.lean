import Verif.Lemmas.Guards
/-!
C71: the elements of an object array in C++ code.
-/
namespace Jnivm
open Spec

/-- C71. Every smart pointer, in a variable or in an array, points to an object that exists, and every object
made for smart pointers exists no longer than one points to it: in all programs. -/
theorem guard_ownership {h : CppHier} {std17 : Bool} {s : Elems} (hr : ElemsReachable h std17 s) :
    (∀ a i p, ElementIs s a i (some p) → ∃ o, s.objs p = some o ∧ o.managed = true) ∧
    (∀ (v p : Nat), s.vars[v]? = some (some p) → ∃ o, s.objs p = some o ∧ o.managed = true) ∧
    ∀ p o, s.objs p = some o → o.managed = true → (∃ v : Nat, s.vars[v]? = some (some p)) ∨
      ∃ a i, ElementIs s a i (some p) := by
  have hi := hr.inv
  refine ⟨?_, ?_, ?_⟩
  · rintro a i p ⟨arr, ha, hc⟩
    exact hi.owned p (Elems.held_iff.2 (.inr ⟨arr, List.mem_of_getElem? ha, List.mem_of_getElem? hc⟩))
  · intro v p hv
    exact hi.owned p (Elems.held_iff.2 (.inl (List.mem_of_getElem? hv)))
  · intro p o ho hm
    rcases Elems.held_iff.1 (hi.rel p o ho hm) with hv | ⟨arr, ha, hc⟩
    · obtain ⟨v, hv⟩ := List.getElem?_of_mem hv
      exact .inl ⟨v, hv⟩
    · obtain ⟨a, ha⟩ := List.getElem?_of_mem ha
      obtain ⟨i, hc⟩ := List.getElem?_of_mem hc
      exact .inr ⟨a, i, arr, ha, hc⟩

theorem take_element {h : CppHier} {s : Elems} {a i view : Nat} {x : Option Nat} (he : ElementIs s a i x)
    (hv : SeenAs h s a view) : s.take h a view i = some (.ok x) := by
  obtain ⟨arr, ha, hc⟩ := he
  obtain ⟨arr', ha', hv⟩ := hv
  rw [ha] at ha'; cases ha'
  obtain ⟨hi, hc⟩ := List.getElem?_eq_some_iff.1 hc
  have := (typed_read_write (h := h) (dyn := fun _ => 0) hv hi (val := none) nofun).1
  simp only [Elems.take, ha, this, hc]

theorem setVar_only {s : Elems} {v : Nat} {x : Option Nat} :
    OnlyReleased s { s with vars := s.vars.set v x }.release where
  kept p o _ ho := (Elems.release_some.1 ho).1
  gone p o ho hn := by
    have : ¬ _ := fun hh => by
      rw [(Elems.release_some (s := { s with vars := s.vars.set v x })).2 ⟨ho, hh⟩] at hn
      cases hn
    cases hm : o.managed
    · exact absurd (fun e => by rw [hm] at e; cases e) this
    · refine ⟨rfl, ?_⟩
      cases hh : Elems.held { s with vars := s.vars.set v x } p
      · simpa using hh
      · exact absurd (fun _ => hh) this

/-- C71. Reading an element: all conversions of `array[i]` are about the same object, the one in the array;
nothing changes but the variable that is assigned. -/
theorem guard_read {h : CppHier} {std17 : Bool} {s : Elems} (hr : ElemsReachable h std17 s) {a i view : Nat}
    {x : Option Nat} (he : ElementIs s a i x) (hv : SeenAs h s a view) :
    (ElemStmt.pointer a view i).run h std17 s = some (.returns s (.ptr x)) ∧
    (ElemStmt.test a view i).run h std17 s = some (.returns s (.bool x.isSome)) ∧
    (∀ p, x = some p → ∃ o, s.objs p = some o ∧
      (ElemStmt.deref a view i).run h std17 s = some (.returns s (.value o.value)) ∧
      (ElemStmt.load p).run h std17 s = some (.returns s (.value o.value))) ∧
    (x = none → (ElemStmt.deref a view i).run h std17 s = some (.ub .nullDeref)) ∧
    ∀ v, v < s.vars.length → ∃ s', (ElemStmt.read v a view i).run h std17 s = some (.returns s' .unit) ∧
      s'.vars = s.vars.set v x ∧ s'.arrays = s.arrays ∧ OnlyReleased s s' := by
  have ht := take_element he hv
  have hi := hr.inv
  have hrel := hi.release_eq
  refine ⟨?_, ?_, ?_, ?_, ?_⟩
  · simp only [ElemStmt.run, ElemStmt.exec, ElemStmt.after, ht, hrel]
  · simp only [ElemStmt.run, ElemStmt.exec, ElemStmt.after, ht, hrel]
  · rintro p rfl
    obtain ⟨o, ho, _⟩ := (guard_ownership hr).1 a i p he
    refine ⟨o, ho, ?_, ?_⟩
    · simp only [ElemStmt.run, ElemStmt.exec, ElemStmt.after, ht, ho, hrel]
    · simp only [ElemStmt.run, ElemStmt.exec, ho, hrel]
  · rintro rfl
    simp only [ElemStmt.run, ElemStmt.exec, ElemStmt.after, ht]
  · intro v hlt
    refine ⟨{ s with vars := s.vars.set v x }.release, ?_, rfl, rfl, setVar_only⟩
    simp only [ElemStmt.run, ElemStmt.exec, ElemStmt.after, ht, Elems.setVar, if_pos hlt, Option.map_some]

/-- What `Set` does with a value that fits. -/
theorem put_fits {h : CppHier} {s : Elems} {a i view : Nat} {y x : Option Nat} (he : ElementIs s a i y)
    (hv : SeenAs h s a view) (hf : ∀ p, x = some p → ∃ o, s.objs p = some o ∧ Fits h s a o.dyn) :
    ∃ arr, s.arrays[a]? = some arr ∧ s.put h a view i x =
      some (.returns { s with arrays := s.arrays.set a { arr with cells := arr.cells.set i x } } ()) := by
  obtain ⟨arr, ha, hc⟩ := he
  obtain ⟨arr', ha', hv⟩ := hv
  rw [ha] at ha'; cases ha'
  obtain ⟨hi, hc⟩ := List.getElem?_eq_some_iff.1 hc
  refine ⟨arr, ha, ?_⟩
  have hset : ∀ dyn : Nat → Nat, (∀ o, x = some o → Derives h.bases (dyn o) arr.elem) →
      arr.set h dyn view i x = some (.ok { arr with cells := arr.cells.set i x }) := by
    intro dyn hd
    unfold TypedArray.set
    rw [CppHier.overrider_near hv]
    have hcond : ¬ (arr.elem ≠ view ∧ x.any (fun o => !h.isA (dyn o) arr.elem) = true) := by
      rintro ⟨_, hany⟩
      cases x with
      | none => cases hany
      | some o =>
        have : h.isA (dyn o) arr.elem = true := CppHier.isA_iff.2 (hd o rfl)
        simp [this] at hany
    have hp : arr.position i = .ok i := by
      unfold TypedArray.position
      rw [if_pos ⟨by omega, by omega⟩]; rfl
    simp only [Option.map_some, if_neg hcond, TypedArray.cell, if_pos, hp, Res.bind_ok]
  cases x with
  | none =>
    simp only [Elems.put, ha, Option.map_none]
    rw [hset _ (fun o e => by cases e)]
  | some p =>
    obtain ⟨o, ho, arr', ha', hd⟩ := hf p rfl
    rw [ha] at ha'; cases ha'
    simp only [Elems.put, ha, Option.map_some, ho]
    rw [hset _ (fun q e => hd)]

theorem put_only {s : Elems} {a i : Nat} {x : Option Nat} {arr : TypedArray} (ha : s.arrays[a]? = some arr)
    (hi : i < arr.cells.length) {t : Elems}
    (ht : t = { s with arrays := s.arrays.set a { arr with cells := arr.cells.set i x } }) :
    ElementIs t.release a i x ∧ OnlyElement a i s t.release := by
  subst ht
  have hlt : a < s.arrays.length := (List.getElem?_eq_some_iff.1 ha).1
  constructor
  · refine ⟨{ arr with cells := arr.cells.set i x }, ?_, ?_⟩
    · show (s.arrays.set a _)[a]? = _
      rw [List.getElem?_set, if_pos rfl, if_pos hlt]
    · show (arr.cells.set i x)[i]? = _
      rw [List.getElem?_set, if_pos rfl, if_pos hi]
  · refine ⟨rfl, fun b => ?_, fun b j hn y => ?_⟩
    · show ((s.arrays.set a _)[b]?).map TypedArray.elem = _
      by_cases hb : b = a
      · subst hb
        rw [List.getElem?_set, if_pos rfl, if_pos hlt, ha]; rfl
      · rw [List.getElem?_set, if_neg (Ne.symm hb)]
    by_cases hb : b = a
    · subst hb
      have hj : i ≠ j := fun e => hn ⟨rfl, e.symm⟩
      constructor
      · rintro ⟨arr', h1, h2⟩
        simp only [Elems.release] at h1
        rw [List.getElem?_set, if_pos rfl, if_pos hlt] at h1
        cases h1
        simp only at h2
        rw [List.getElem?_set, if_neg hj] at h2
        exact ⟨arr, ha, h2⟩
      · rintro ⟨arr', h1, h2⟩
        rw [ha] at h1; cases h1
        refine ⟨{ arr with cells := arr.cells.set i x }, ?_, ?_⟩
        · show (s.arrays.set b _)[b]? = _
          rw [List.getElem?_set, if_pos rfl, if_pos hlt]
        · show (arr.cells.set i x)[j]? = _
          rw [List.getElem?_set, if_neg hj]; exact h2
    · constructor
      · rintro ⟨arr', h1, h2⟩
        simp only [Elems.release] at h1
        rw [List.getElem?_set, if_neg (Ne.symm hb)] at h1
        exact ⟨arr', h1, h2⟩
      · rintro ⟨arr', h1, h2⟩
        refine ⟨arr', ?_, h2⟩
        show (s.arrays.set a _)[b]? = _
        rw [List.getElem?_set, if_neg (Ne.symm hb)]; exact h1

theorem release_only {s t : Elems} (h : ∀ p, p < s.next → t.objs p = s.objs p) (hs : s.Pre) :
    OnlyReleased s t.release where
  kept p o hp ho := by rw [← h p hp]; exact (Elems.release_some.1 ho).1
  gone p o ho hn := by
    have ho' : t.objs p = some o := by rw [h p (hs.bound p o ho)]; exact ho
    have hno : ¬ (o.managed = true → t.held p = true) := fun hh => by
      rw [Elems.release_some.2 ⟨ho', hh⟩] at hn
      cases hn
    cases hm : o.managed
    · exact absurd (fun e => by rw [hm] at e; cases e) hno
    · refine ⟨rfl, ?_⟩
      cases hh : t.held p
      · simpa using hh
      · exact absurd (fun _ => hh) hno

/-- C71. `array[i] = pointer` with a smart pointer, or null: the element is that object, and nothing else
changes but that what was only held by the element is gone. -/
theorem guard_assign {h : CppHier} {std17 : Bool} {s : Elems} (hr : ElemsReachable h std17 s) {a i view v : Nat}
    {y x : Option Nat} (he : ElementIs s a i y) (hv : SeenAs h s a view) (hx : s.vars[v]? = some x)
    (hf : ∀ p o, x = some p → s.objs p = some o → Fits h s a o.dyn) :
    ∃ s', (ElemStmt.assign a view i v).run h std17 s = some (.returns s' .unit) ∧
      ElementIs s' a i x ∧ OnlyElement a i s s' ∧ OnlyReleased s s' := by
  have hf' : ∀ p, x = some p → ∃ o, s.objs p = some o ∧ Fits h s a o.dyn := by
    rintro p rfl
    obtain ⟨o, ho, _⟩ := (guard_ownership hr).2.1 v p hx
    exact ⟨o, ho, hf p o rfl ho⟩
  obtain ⟨arr, ha, hput⟩ := put_fits he hv hf'
  obtain ⟨arr', ha', hc⟩ := he
  rw [ha] at ha'; cases ha'
  have hi : i < arr.cells.length := (List.getElem?_eq_some_iff.1 hc).1
  obtain ⟨h1, h2⟩ := put_only (x := x) ha hi rfl
  refine ⟨_, ?_, h1, h2, release_only (fun _ _ => rfl) hr.inv.toPre⟩
  simp only [ElemStmt.run, ElemStmt.exec, hx, hput, ElemStmt.unit]

/-- C71. Assigning a null pointer of any type. -/
theorem guard_assign_null {h : CppHier} {std17 : Bool} {s : Elems} (hr : ElemsReachable h std17 s) {a i view z : Nat}
    {y : Option Nat} (he : ElementIs s a i y) (hv : SeenAs h s a view) :
    ∃ s', (ElemStmt.assignPtr a view i z none).run h std17 s = some (.returns s' .unit) ∧
      ElementIs s' a i none ∧ OnlyElement a i s s' ∧ OnlyReleased s s' := by
  obtain ⟨arr, ha, hput⟩ := put_fits he hv (x := none) (fun p e => by cases e)
  obtain ⟨arr', ha', hc⟩ := he
  rw [ha] at ha'; cases ha'
  have hi : i < arr.cells.length := (List.getElem?_eq_some_iff.1 hc).1
  obtain ⟨h1, h2⟩ := put_only (x := none) ha hi rfl
  refine ⟨_, ?_, h1, h2, release_only (fun _ _ => rfl) hr.inv.toPre⟩
  simp only [ElemStmt.run, ElemStmt.exec, hput, ElemStmt.unit]

/-- The statement assigns the object `p`, by a pointer or a reference to `z`. -/
def AssignsObject (a view i z p : Nat) (c : ElemStmt) : Prop :=
  c = .assignPtr a view i z (some p) ∨ c = .assignRef a view i z p

/-- C71. Assigning a managed object by pointer or reference, compiled as C++17: the element is that object. -/
theorem guard_assign_object {h : CppHier} {s : Elems} (hr : ElemsReachable h true s) {a i view z p : Nat}
    {y : Option Nat} {o : CppObj} (he : ElementIs s a i y) (hv : SeenAs h s a view) (ho : s.objs p = some o)
    (hm : o.managed = true) (hf : Fits h s a o.dyn) {c : ElemStmt} (hc : AssignsObject a view i z p c) :
    ∃ s', c.run h true s = some (.returns s' .unit) ∧
      ElementIs s' a i (some p) ∧ OnlyElement a i s s' ∧ OnlyReleased s s' := by
  obtain ⟨arr, ha, hput⟩ := put_fits he hv (x := some p) (fun q e => by cases e; exact ⟨o, ho, hf⟩)
  obtain ⟨arr', ha', hcell⟩ := he
  rw [ha] at ha'; cases ha'
  have hi : i < arr.cells.length := (List.getElem?_eq_some_iff.1 hcell).1
  obtain ⟨h1, h2⟩ := put_only (x := some p) ha hi rfl
  refine ⟨_, ?_, h1, h2, release_only (fun _ _ => rfl) hr.inv.toPre⟩
  have hw : s.wrap true z p = .ok (s, p) := by
    simp only [Elems.wrap, ho, hm, Bool.and_self, if_true]
  rcases hc with rfl | rfl <;>
    simp only [ElemStmt.run, ElemStmt.exec, ElemStmt.after, hw, hput, ElemStmt.unit]

/-- C71. In C++14, or if the object is not managed, the element is a new object: a copy with the type of the
pointer or reference. -/
theorem guard_assign_copy {h : CppHier} {std17 : Bool} {s : Elems} (hr : ElemsReachable h std17 s)
    {a i view z p : Nat} {y : Option Nat} {o : CppObj} (he : ElementIs s a i y) (hv : SeenAs h s a view)
    (ho : s.objs p = some o) (hm : ¬ (std17 = true ∧ o.managed = true)) (hf : Fits h s a z) {c : ElemStmt}
    (hc : AssignsObject a view i z p c) :
    ∃ s' q, c.run h std17 s = some (.returns s' .unit) ∧ ElementIs s' a i (some q) ∧ q ≠ p ∧ s.objs q = none ∧
      s'.objs q = some ⟨z, o.value, true⟩ ∧ OnlyElement a i s s' ∧ OnlyReleased s s' := by
  have hs := hr.inv.toPre
  have hne : s.objs s.next = none := by
    cases h1 : s.objs s.next with
    | none => rfl
    | some x => have := hs.bound _ _ h1; omega
  have hself : (s.make ⟨z, o.value, true⟩).1.objs s.next = some ⟨z, o.value, true⟩ := if_pos rfl
  obtain ⟨arr, ha, hput⟩ := put_fits (s := (s.make ⟨z, o.value, true⟩).1) (a := a) (i := i) (view := view) (y := y)
    (x := some s.next) he hv (fun q e => by cases e; exact ⟨_, hself, hf⟩)
  obtain ⟨arr', ha', hcell⟩ := he
  have ha2 : s.arrays[a]? = some arr := ha
  rw [ha2] at ha'; cases ha'
  have hi : i < arr.cells.length := (List.getElem?_eq_some_iff.1 hcell).1
  obtain ⟨h1, h2⟩ := put_only (s := (s.make ⟨z, o.value, true⟩).1) (x := some s.next) ha hi rfl
  have hw : s.wrap std17 z p = .ok (s.make ⟨z, o.value, true⟩) := by
    unfold Elems.wrap
    rw [ho]
    simp only
    rw [if_neg (by simpa using hm)]
  refine ⟨_, s.next, ?_, h1, ?_, hne, ?_, ⟨h2.vars, h2.types, h2.others⟩, release_only (fun q hq => ?_) hs⟩
  · have hmk : s.make ⟨z, o.value, true⟩ = ((s.make ⟨z, o.value, true⟩).1, s.next) := rfl
    rw [hmk] at hw
    rcases hc with rfl | rfl <;>
      simp only [ElemStmt.run, ElemStmt.exec, ElemStmt.after, hw, hput, ElemStmt.unit]
  · rintro rfl
    rw [hne] at ho; cases ho
  · refine Elems.release_some.2 ⟨hself, fun _ => ?_⟩
    obtain ⟨arr', h3, h4⟩ := h1
    exact Elems.held_iff.2 (.inr ⟨arr', List.mem_of_getElem? h3, List.mem_of_getElem? h4⟩)
  · show (if q = s.next then _ else _) = _
    rw [if_neg (by omega)]

/-- C71. What an element holds stays there, alive and of the same type, until the element is assigned,
whatever else the program does. -/
theorem guard_kept {h : CppHier} {std17 : Bool} {s s' : Elems} (hr : ElemsReachable h std17 s) {a i : Nat}
    {x : Option Nat} (he : ElementIs s a i x) {cs : List ElemStmt} (hq : ∀ c ∈ cs, ¬ AssignsElement a i c)
    (hx : runElems h std17 s cs = some s') :
    ElementIs s' a i x ∧ ∀ p o, x = some p → s.objs p = some o →
      ∃ o', s'.objs p = some o' ∧ o'.dyn = o.dyn ∧ ((∀ c ∈ cs, ∀ v, c ≠ .store p v) → o'.value = o.value) := by
  induction cs generalizing s with
  | nil =>
    cases hx
    exact ⟨he, fun p o _ ho => ⟨o, ho, rfl, fun _ => rfl⟩⟩
  | cons c cs ih =>
    obtain ⟨s1, h1, hx⟩ := runElems_cons hx
    have hr1 : ElemsReachable h std17 s1 := hr.steps (cs := [c]) (by simp only [runElems, h1]; rfl)
    obtain ⟨s2, h2, rfl⟩ := ElemStmt.run_final h1
    have he2 := ElemStmt.element_exec (hq c (List.mem_cons_self ..)) he h2
    have he1 : ElementIs s2.release a i x := he2
    obtain ⟨ih1, ih2⟩ := ih hr1 he1 (fun c hc => hq c (List.mem_cons_of_mem _ hc)) hx
    refine ⟨ih1, ?_⟩
    rintro p o rfl ho
    obtain ⟨o1, ho1, _⟩ := (guard_ownership hr1).1 a i p he1
    obtain ⟨o', ho', hd, hval⟩ := ih2 p o1 rfl ho1
    obtain ⟨h3, _, h4⟩ := ElemStmt.type_exec hr.inv.toPre ho h2 (Elems.release_some.1 ho1).1
    refine ⟨o', ho', hd.trans h3, fun hn => ?_⟩
    rw [hval (fun c hc => hn c (List.mem_cons_of_mem _ hc)), h4 (hn c (List.mem_cons_self ..))]

/-- C71. An object that is no instance of the element type is refused through a base class with an exception;
variables, arrays and objects are as before. -/
theorem guard_refused {h : CppHier} {std17 : Bool} {s : Elems} (hr : ElemsReachable h std17 s) {a view v p : Nat}
    {i : Int} {arr : TypedArray} {o : CppObj} (ha : s.arrays[a]? = some arr) (hv : view ∈ h.bases arr.elem)
    (hx : s.vars[v]? = some (some p)) (ho : s.objs p = some o) (hn : ¬ Derives h.bases o.dyn arr.elem) :
    (ElemStmt.assign a view i v).run h std17 s = some (.raises s .classType) := by
  have hput : s.put h a view i (some p) = some (.raises s .classType) := by
    simp only [Elems.put, ha, Option.map_some, ho]
    rw [typed_write_refused (dyn := fun _ => o.dyn) hv hn]
  simp only [ElemStmt.run, ElemStmt.exec, hx, hput, ElemStmt.unit, hr.inv.release_eq]

/-- C71 fails for indices: they are not checked. -/
theorem guard_index_unchecked {h : CppHier} {std17 : Bool} {s : Elems} {a view : Nat} {i : Int} {arr : TypedArray}
    (ha : s.arrays[a]? = some arr) (hv : view = arr.elem ∨ view ∈ h.bases arr.elem)
    (hi : i < 0 ∨ arr.cells.length ≤ i) :
    (ElemStmt.pointer a view i).run h std17 s = some (.ub .outOfBounds) ∧
      ∀ z, (ElemStmt.assignPtr a view i z none).run h std17 s = some (.ub .outOfBounds) := by
  obtain ⟨h1, h2⟩ := typed_index_unchecked (dyn := fun _ => 0) hv hi (val := none)
  constructor
  · simp only [ElemStmt.run, ElemStmt.exec, Elems.take, ha, h1, ElemStmt.after]
  · intro z
    have : arr.set h (fun _ => 0) view i none = some (.ub .outOfBounds) := by
      rcases h2 with h2 | h2
      · exact h2
      · unfold TypedArray.set at h2
        rw [CppHier.overrider_near hv] at h2
        simp only [Option.map_some, Option.any_none, Bool.false_eq_true, and_false, if_false] at h2
        injection h2 with h2
        unfold TypedArray.cell TypedArray.position at h2
        rw [if_pos rfl, if_neg (fun hh => by omega)] at h2
        cases h2
    simp only [ElemStmt.run, ElemStmt.exec, Elems.put, ha, Option.map_none, this, ElemStmt.unit]

/-! ### Samples and counterexamples -/

/-- `class 1 : Object`, `class 2 : 1`. -/
def sampleHier : CppHier where
  bases c := if c = 1 then [0] else if c = 2 then [1] else []
  ordered c b hb := by
    split at hb
    · simp at hb; omega
    · split at hb
      · simp at hb; omega
      · cases hb

/-- The program runs and ends in a state with that property. -/
theorem elems_of {h : CppHier} {std17 : Bool} {n : Nat} {cs : List ElemStmt} {p : Elems → Bool}
    (hx : (runElems h std17 (.start n) cs).any p = true) :
    ∃ s, ElemsReachable h std17 s ∧ p s = true := by
  obtain ⟨s, hs, hp⟩ := Option.any_eq_true _ _ |>.1 hx
  exact ⟨s, ⟨n, cs, hs⟩, hp⟩

/-- An array of class 1 with an object of class 2 in a variable and in the array; an automatic object. -/
theorem sample_elems (std17 : Bool) : ∃ s, ElemsReachable sampleHier std17 s ∧ s.vars = [some 0, none] ∧
    s.arrays = [⟨1, [some 0, none]⟩] ∧ s.objs 0 = some ⟨2, 5, true⟩ ∧ s.objs 1 = some ⟨2, 7, false⟩ ∧
    ∃ s', runElems sampleHier std17 s [.reset 0, .store 0 6, .assignPtr 0 1 1 2 (some 1), .leave 1] = some s' := by
  obtain ⟨s, hr, hp⟩ := elems_of (h := sampleHier) (std17 := std17) (n := 2)
    (cs := [.share 0 2 5, .array 1 2, .assign 0 0 0 0, .automatic 2 7])
    (p := fun s => s.vars == [some 0, none] && s.arrays == [⟨1, [some 0, none]⟩] && s.objs 0 == some ⟨2, 5, true⟩ &&
      s.objs 1 == some ⟨2, 7, false⟩ &&
      (runElems sampleHier std17 s [.reset 0, .store 0 6, .assignPtr 0 1 1 2 (some 1), .leave 1]).isSome)
    (by cases std17 <;> decide +kernel)
  simp only [Bool.and_eq_true, beq_iff_eq] at hp
  obtain ⟨⟨⟨⟨h1, h2⟩, h3⟩, h4⟩, h5⟩ := hp
  exact ⟨s, hr, h1, h2, h3, h4, Option.isSome_iff_exists.1 h5⟩

/-- Sample for the theorems about reading, assigning and keeping. -/
example (std17 : Bool) : ∃ s s', ElemsReachable sampleHier std17 s ∧ ElementIs s 0 0 (some 0) ∧ ElementIs s 0 1 none ∧
    SeenAs sampleHier s 0 0 ∧ SeenAs sampleHier s 0 1 ∧ Fits sampleHier s 0 2 ∧ s.vars[0]? = some (some 0) ∧
    s.objs 0 = some ⟨2, 5, true⟩ ∧ s.objs 1 = some ⟨2, 7, false⟩ ∧
    (∀ c ∈ [ElemStmt.reset 0, .store 0 6, .assignPtr 0 1 1 2 (some 1), .leave 1], ¬ AssignsElement 0 0 c) ∧
    runElems sampleHier std17 s [.reset 0, .store 0 6, .assignPtr 0 1 1 2 (some 1), .leave 1] = some s' := by
  obtain ⟨s, hr, hv, ha, h0, h1, s', hx⟩ := sample_elems std17
  have hb : (0 : Nat) ∈ sampleHier.bases 1 := by decide
  have hb2 : (1 : Nat) ∈ sampleHier.bases 2 := by decide
  exact ⟨s, s', hr, ⟨_, by rw [ha]; rfl, rfl⟩, ⟨_, by rw [ha]; rfl, rfl⟩, ⟨_, by rw [ha]; rfl, .inr hb⟩,
    ⟨_, by rw [ha]; rfl, .inl rfl⟩, ⟨_, by rw [ha]; rfl, .step hb2 (.refl _)⟩, by rw [hv]; rfl, h0, h1,
    by simp [AssignsElement], hx⟩

/-- Sample for `guard_refused` and `guard_index_unchecked`. -/
example (std17 : Bool) : ∃ s, ElemsReachable sampleHier std17 s ∧ s.arrays[0]? = some ⟨2, [none]⟩ ∧
    1 ∈ sampleHier.bases 2 ∧ s.vars[0]? = some (some 0) ∧ s.objs 0 = some ⟨1, 5, true⟩ ∧
    ¬ Derives sampleHier.bases 1 2 := by
  obtain ⟨s, hr, hp⟩ := elems_of (h := sampleHier) (std17 := std17) (n := 1) (cs := [.share 0 1 5, .array 2 1])
    (p := fun s => s.arrays[0]? == some ⟨2, [none]⟩ && s.vars[0]? == some (some 0) && s.objs 0 == some ⟨1, 5, true⟩)
    (by cases std17 <;> decide +kernel)
  simp only [Bool.and_eq_true, beq_iff_eq] at hp
  refine ⟨s, hr, hp.1.1, by decide, hp.1.2, hp.2, fun d => ?_⟩
  have := CppHier.derives_le d
  omega

/-- C71 fails for pointers: a pointer read from an element is dangling once the element is assigned. -/
theorem guard_pointer_dangles : ∃ s s' p, ElemsReachable sampleHier true s ∧
    (ElemStmt.pointer 0 1 0).run sampleHier true s = some (.returns s (.ptr (some p))) ∧
    (ElemStmt.assignPtr 0 1 0 1 none).run sampleHier true s = some (.returns s' .unit) ∧
    (ElemStmt.load p).run sampleHier true s' = some (.ub .dangling) := by
  obtain ⟨s, hr, hp⟩ := elems_of (h := sampleHier) (std17 := true) (n := 1)
    (cs := [.share 0 2 5, .array 1 1, .assign 0 1 0 0, .reset 0])
    (p := fun s => s.arrays == [⟨1, [some 0]⟩] &&
      (((ElemStmt.assignPtr 0 1 0 1 none).run sampleHier true s).bind Outcome.final).any fun s' =>
        (s'.objs 0).isNone) (by decide +kernel)
  simp only [Bool.and_eq_true, beq_iff_eq] at hp
  obtain ⟨ha, hp⟩ := hp
  have he : ElementIs s 0 0 (some 0) := ⟨_, by rw [ha]; rfl, rfl⟩
  have hv : SeenAs sampleHier s 0 1 := ⟨_, by rw [ha]; rfl, .inl rfl⟩
  obtain ⟨s', hx, _⟩ := guard_assign_null hr (z := 1) he hv
  refine ⟨s, s', 0, hr, (guard_read hr he hv).1, hx, ?_⟩
  have hp2 : (s'.objs 0).isNone = true := by
    have : (((ElemStmt.assignPtr 0 1 0 1 none).run sampleHier true s).bind Outcome.final) = some s' := by
      have hx' : (ElemStmt.assignPtr 0 1 0 1 none).run sampleHier true s = some (.returns s' .unit) := hx
      rw [hx']; rfl
    rw [this] at hp
    exact hp
  have : s'.objs 0 = none := by simpa using hp2
  simp only [ElemStmt.run, ElemStmt.exec, this]

/-- C71 fails in C++14: an element assigned by a reference to a managed object is another object, so that
changes of one are not seen in the other. -/
theorem guard_copied_cpp14 {h : CppHier} {s : Elems} (hr : ElemsReachable h false s) {a i view z p : Nat}
    {y : Option Nat} {o : CppObj} (he : ElementIs s a i y) (hv : SeenAs h s a view) (ho : s.objs p = some o)
    (hf : Fits h s a z) {c : ElemStmt} (hc : AssignsObject a view i z p c) (n : Nat) :
    ∃ s', c.run h false s = some (.returns s' .unit) ∧ ¬ ElementIs s' a i (some p) ∧
      ∀ s'', (ElemStmt.store p n).run h false s' = some (.returns s'' .unit) →
        (ElemStmt.deref a view i).run h false s'' = some (.returns s'' (.value o.value)) := by
  obtain ⟨s', q, hx, hel, hqp, _, hq, honly, _⟩ := guard_assign_copy hr he hv ho (by simp) hf hc
  have hr' : ElemsReachable h false s' := hr.steps (cs := [c]) (by simp only [runElems, hx]; rfl)
  refine ⟨s', hx, ?_, fun s'' hst => ?_⟩
  · rintro ⟨arr, h1, h2⟩
    obtain ⟨arr', h3, h4⟩ := hel
    rw [h1] at h3; cases h3
    rw [h2] at h4; cases h4
    exact hqp rfl
  · have hrun : runElems h false s' [.store p n] = some s'' := by simp only [runElems, hst]; rfl
    have hr'' := hr'.steps hrun
    obtain ⟨he'', hk⟩ := guard_kept hr' hel (by simp [AssignsElement]) hrun
    obtain ⟨o', ho', _, hval⟩ := hk q _ rfl hq
    have hval : o'.value = o.value := hval (by
      intro c hc v e
      rw [List.mem_singleton.1 hc] at e
      injection e with e
      exact hqp e.symm)
    have hv'' : SeenAs h s'' a view := by
      obtain ⟨arr, h1, h2⟩ := hv
      obtain ⟨arr2, ha2, hel2⟩ : ∃ arr2, s''.arrays[a]? = some arr2 ∧ arr2.elem = arr.elem := by
        have e1 := honly.types a
        have e2 : s''.arrays = s'.arrays := by
          simp only [ElemStmt.run, ElemStmt.exec] at hst
          cases hp : s'.objs p with
          | none => rw [hp] at hst; cases hst
          | some o1 => rw [hp] at hst; cases hst; rfl
        rw [e2]
        rw [h1] at e1
        cases e3 : s'.arrays[a]? with
        | none => rw [e3] at e1; cases e1
        | some arr2 => rw [e3] at e1; injection e1 with e1; exact ⟨arr2, rfl, e1⟩
      exact ⟨arr2, ha2, hel2 ▸ h2⟩
    obtain ⟨o2, ho2, h2, _⟩ := (guard_read hr'' he'' hv'').2.2.1 q rfl
    rw [ho'] at ho2; cases ho2
    rw [h2, hval]

/-- C71 fails for objects that are not managed: assigned by a reference to a base class, the element is an
object of the base class. -/
theorem guard_slices : ∃ s s' q, ElemsReachable sampleHier true s ∧ s.objs 1 = some ⟨2, 7, false⟩ ∧
    (ElemStmt.assignRef 0 1 1 1 1).run sampleHier true s = some (.returns s' .unit) ∧ ElementIs s' 0 1 (some q) ∧
    s'.objs q = some ⟨1, 7, true⟩ := by
  obtain ⟨s, hr, hv, ha, h0, h1, _⟩ := sample_elems true
  obtain ⟨s', q, hx, he, _, _, hq, _⟩ := guard_assign_copy (z := 1) hr (a := 0) (i := 1) (view := 1) (y := none)
    ⟨_, by rw [ha]; rfl, rfl⟩ ⟨_, by rw [ha]; rfl, .inl rfl⟩ h1 (by simp) ⟨_, by rw [ha]; rfl, .refl _⟩ (.inr rfl)
  exact ⟨s, s', q, hr, h1, hx, he, hq⟩

end Jnivm
