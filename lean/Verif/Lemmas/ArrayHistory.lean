import Verif.Lemmas.Arrays
/-! What one operation leaves alone, for C39. -/
namespace Jnivm
open Spec

variable {s s' : Arrays}

theorem store_other {m m' : Mem} {p : Option Ptr} {v : List MemByte} (h : m.store p v = .ok m') {b : Nat}
    (hb : ∀ q, p = some q → q.block ≠ b) : m'.blocks b = m.blocks b := by
  obtain ⟨q, c, rfl, _, _, rfl⟩ := store_ok.1 h
  exact if_neg (fun e => hb q rfl e.symm)

theorem memcpy_other {m m' : Mem} {p q : Option Ptr} {n : Nat} (h : m.memcpy p q n = .ok m') {b : Nat}
    (hb : ∀ q, p = some q → q.block ≠ b) : m'.blocks b = m.blocks b := by
  obtain ⟨d, _, _, _, rfl, _, _, _, _, hs⟩ := memcpy_ok.1 h
  exact store_other hs hb

/-- The pointer of a region is into the elements of the array. -/
theorem region_block {ty : ElemType} {x : Option Nat} {st n : Int} {p : Option Ptr} {k : Nat}
    (hw : ArraysWF s) (h : s.region ty x st n = .ok (p, k)) :
    ∃ i o q r, x = some i ∧ s.objs i = some o ∧ o.data = some q ∧ p = some r ∧ r.block = q.block := by
  unfold Arrays.region at h
  cases x with
  | none => exact nomatch h
  | some i =>
    obtain ⟨o, h1, h2⟩ := Res.bind_eq_ok.1 h
    obtain ⟨r, h3, h4⟩ := Res.bind_eq_ok.1 h2
    have hr : r = p := by
      split at h4
      · exact nomatch h4
      · cases h4; rfl
    subst hr
    have ho : s.objs i = some o := by
      unfold Arrays.cast at h1
      cases hi : s.objs i with
      | none => rw [hi] at h1; exact nomatch h1
      | some o' =>
        rw [hi] at h1
        dsimp only at h1
        split at h1
        · cases h1; rfl
        · exact nomatch h1
    obtain ⟨b, e, hb⟩ := hw.obj i o ho
    have hd : o.data = some ⟨b, 0⟩ := by rw [e]
    refine ⟨i, o, ⟨b, 0⟩, ?_⟩
    rw [hd] at h3
    unfold Mem.add at h3
    cases hc : s.mem.blocks b with
    | none => simp only [hc] at h3; exact nomatch h3
    | some c =>
      simp only [hc] at h3
      split at h3
      · cases h3; exact ⟨_, rfl, ho, hd, rfl, rfl⟩
      · exact nomatch h3

/-- A new array leaves the objects and the memory before it alone. -/
theorem newArray_old {ty : ElemType} {n : Int} {x : Nat} (h : s.newArray ty n = .ok (s', x)) :
    (∀ a, a < s.next → s'.objs a = s.objs a) ∧ s.next ≤ s'.next ∧
      ∀ b, b < s.mem.next → s'.mem.blocks b = s.mem.blocks b := by
  rcases Int.lt_trichotomy n 0 with hl | hl | hl
  · simp [Arrays.newArray, hl] at h
  · subst hl
    rw [newArray_zero] at h
    cases h
    exact ⟨fun a ha => if_neg (by omega), Nat.le_succ _, fun b hb => if_neg (by omega)⟩
  · rw [newArray_pos s ty hl] at h
    cases h
    refine ⟨fun a ha => if_neg (by omega), Nat.le_succ _, fun b hb => ?_⟩
    show (if b = s.mem.next + 1 then _ else if b = s.mem.next then _ else s.mem.blocks b) = _
    rw [if_neg (by omega), if_neg (by omega)]

/-- After one operation the object is the same or gone, and gone only if it was destroyed. -/
theorem step_object {op : ArrayOp} (h : s.step op = .ok s') {a : Nat} (ha : a < s.next) :
    s.next ≤ s'.next ∧ (s'.objs a = s.objs a ∨ op = .destroy a ∧ s'.objs a = none) := by
  cases op with
  | newArray ty n =>
    obtain ⟨⟨s1, x⟩, h1, h2⟩ := Res.bind_eq_ok.1 h
    cases h2
    have := newArray_old h1
    exact ⟨this.2.1, .inl (this.1 a ha)⟩
  | getRegion ty x st n b =>
    obtain ⟨_, _, h2⟩ := Res.bind_eq_ok.1 h
    obtain ⟨m, _, h4⟩ := Res.bind_eq_ok.1 h2
    cases h4
    exact ⟨Nat.le_refl _, .inl rfl⟩
  | setRegion ty x st n b =>
    obtain ⟨_, _, h2⟩ := Res.bind_eq_ok.1 h
    obtain ⟨m, _, h4⟩ := Res.bind_eq_ok.1 h2
    cases h4
    exact ⟨Nat.le_refl _, .inl rfl⟩
  | release x p m => cases h; exact ⟨Nat.le_refl _, .inl rfl⟩
  | destroy x =>
    have h : s.destroy x = .ok s' := h
    unfold Arrays.destroy at h
    cases ho : s.objs x with
    | none => simp only [ho] at h; exact nomatch h
    | some o =>
      simp only [ho] at h
      cases h
      refine ⟨Nat.le_refl _, ?_⟩
      by_cases hx : a = x
      · exact .inr ⟨by rw [hx], if_pos hx⟩
      · exact .inl (if_neg hx)
  | malloc c => cases h; exact ⟨Nat.le_refl _, .inl rfl⟩
  | write p v =>
    obtain ⟨m, _, h4⟩ := Res.bind_eq_ok.1 h
    cases h4
    exact ⟨Nat.le_refl _, .inl rfl⟩

theorem run_object {ops : List ArrayOp} (h : s.run ops = .ok s') {a : Nat} {x : Option PArray}
    (ha : a < s.next) (hx : s.objs a = x) : s'.objs a = x ∨ s'.objs a = none := by
  induction ops generalizing s with
  | nil => cases h; exact .inl hx
  | cons op ops ih =>
    unfold Arrays.run at h
    cases ho : s.step op with
    | ok s1 =>
      rw [ho] at h
      obtain ⟨hn, h1 | ⟨_, h1⟩⟩ := step_object ho ha
      · exact ih h (Nat.lt_of_lt_of_le ha hn) (h1.trans hx)
      · have key : ∀ {ops : List ArrayOp} {s1 : Arrays}, s1.run ops = .ok s' → a < s1.next →
            s1.objs a = none → s'.objs a = none := by
          intro ops
          induction ops with
          | nil => intro s1 h _ hx; cases h; exact hx
          | cons op ops ih =>
            intro s1 h ha hx
            unfold Arrays.run at h
            cases ho : s1.step op with
            | ok s2 =>
              rw [ho] at h
              obtain ⟨hn, h1⟩ := step_object ho ha
              exact ih h (Nat.lt_of_lt_of_le ha hn) (h1.elim (fun e => e.trans hx) (·.2))
            | throws e => rw [ho] at h; exact ih h ha hx
            | ub u => rw [ho] at h; exact nomatch h
            | diverges => rw [ho] at h; exact nomatch h
        exact .inr (key h (Nat.lt_of_lt_of_le ha hn) h1)
    | throws e => rw [ho] at h; exact ih h ha hx
    | ub u => rw [ho] at h; exact nomatch h
    | diverges => rw [ho] at h; exact nomatch h

end Jnivm
