import Verif.Spec.Guards
import Verif.Props.TypedArrays
/-!
Helper lemmas about the elements of arrays in C++ code.
-/
namespace Jnivm
open Spec

namespace Elems

/-- Every pointer points to a managed object; objects are numbered. -/
structure Pre (s : Elems) : Prop where
  bound : ∀ p o, s.objs p = some o → p < s.next
  owned : ∀ p, s.held p = true → ∃ o, s.objs p = some o ∧ o.managed = true

/-- Between two statements managed objects are owned, too. -/
structure Inv (s : Elems) : Prop extends s.Pre where
  rel : ∀ p o, s.objs p = some o → o.managed = true → s.held p = true

theorem held_iff {s : Elems} {p : Nat} :
    s.held p = true ↔ some p ∈ s.vars ∨ ∃ a ∈ s.arrays, some p ∈ a.cells := by
  simp [held]

@[simp] theorem held_release (s : Elems) (p : Nat) : s.release.held p = s.held p := rfl

theorem release_some {s : Elems} {p : Nat} {o : CppObj} :
    s.release.objs p = some o ↔ s.objs p = some o ∧ (o.managed = true → s.held p = true) := by
  unfold release
  cases hs : s.objs p with
  | none => simp [hs]
  | some x =>
    by_cases hm : x.managed = true
    · cases hh : s.held p
      · simp only [hs, Option.bind_some, hm, hh, Bool.not_false, Bool.and_self, if_true]
        constructor
        · exact nofun
        · rintro ⟨h1, h2⟩
          cases h1
          exact nomatch h2 hm
      · simp [hs, hh]
    · simp only [hs, Option.bind_some]
      rw [if_neg (by simp [hm])]
      constructor
      · intro e; cases e; exact ⟨rfl, fun h => absurd h hm⟩
      · exact fun e => e.1

theorem Pre.release {s : Elems} (h : s.Pre) : s.release.Inv where
  bound p o ho := h.bound p o (release_some.1 ho).1
  owned p hp := by
    obtain ⟨o, ho, hm⟩ := h.owned p hp
    exact ⟨o, release_some.2 ⟨ho, fun _ => hp⟩, hm⟩
  rel p o ho hm := (release_some.1 ho).2 hm

theorem Inv.release_eq {s : Elems} (h : s.Inv) : s.release = s := by
  have : s.release.objs = s.objs := by
    funext p
    cases hs : s.objs p with
    | none => simp [release, hs]
    | some o => exact release_some.2 ⟨hs, fun hm => h.rel p o hs hm⟩
  cases s
  simp only [release] at this ⊢
  rw [this]

theorem Inv.start (n : Nat) : (Elems.start n).Inv where
  bound := nofun
  owned p hp := by
    rcases held_iff.1 hp with h | ⟨a, h, _⟩
    · exact nomatch (List.eq_of_mem_replicate h)
    · cases h
  rel := nofun

theorem make_objs {s : Elems} {o : CppObj} (p : Nat) :
    (s.make o).1.objs p = if p = s.next then some o else s.objs p := rfl

theorem make_old {s : Elems} (h : s.Pre) {o x : CppObj} {p : Nat} (hx : s.objs p = some x) :
    (s.make o).1.objs p = some x := by
  rw [make_objs, if_neg (by have := h.bound p x hx; omega), hx]

theorem Pre.make {s : Elems} (h : s.Pre) (o : CppObj) : (s.make o).1.Pre where
  bound p x hx := by
    rw [make_objs] at hx
    show p < s.next + 1
    split at hx
    · omega
    · have := h.bound p x hx; omega
  owned p hp := by
    obtain ⟨x, hx, hm⟩ := h.owned p hp
    exact ⟨x, make_old h hx, hm⟩

theorem setVar_ok {s s' : Elems} {v : Nat} {x : Option Nat} (h : s.setVar v x = some s') :
    v < s.vars.length ∧ s' = { s with vars := s.vars.set v x } := by
  unfold setVar at h
  split at h
  · cases h; exact ⟨by assumption, rfl⟩
  · cases h

theorem mem_set {α : Type} {l : List α} {n : Nat} {x y : α} (h : y ∈ l.set n x) : y ∈ l ∨ y = x := by
  exact List.mem_or_eq_of_mem_set h

/-- Pointing to a managed object, or to nothing, keeps the pointers in order. -/
def Good (s : Elems) (x : Option Nat) : Prop := ∀ p, x = some p → ∃ o, s.objs p = some o ∧ o.managed = true

theorem good_none (s : Elems) : s.Good none := fun _ e => by cases e

theorem Pre.setVar {s s' : Elems} (h : s.Pre) {v : Nat} {x : Option Nat} (hx : s.Good x)
    (hv : s.setVar v x = some s') : s'.Pre := by
  obtain ⟨_, rfl⟩ := setVar_ok hv
  refine ⟨h.bound, fun p hp => ?_⟩
  rcases held_iff.1 hp with h1 | h1
  · rcases mem_set h1 with h1 | h1
    · exact h.owned p (held_iff.2 (.inl h1))
    · exact hx p h1.symm
  · exact h.owned p (held_iff.2 (.inr h1))

theorem Pre.good {s : Elems} (h : s.Pre) {x : Option Nat} (hv : x ∈ s.vars ∨ ∃ a ∈ s.arrays, x ∈ a.cells) :
    s.Good x := by
  rintro p rfl
  exact h.owned p (held_iff.2 hv)

/-- What a call of `Set` can do. -/
theorem put_returns {h : CppHier} {s s' : Elems} {a view : Nat} {i : Int} {val : Option Nat}
    (hx : s.put h a view i val = some (.returns s' ())) :
    ∃ arr, s.arrays[a]? = some arr ∧ 0 ≤ i ∧ i.toNat < arr.cells.length ∧
      (∀ p, val = some p → ∃ o, s.objs p = some o) ∧
      s' = { s with arrays := s.arrays.set a { arr with cells := arr.cells.set i.toNat val } } := by
  unfold put at hx
  cases ha : s.arrays[a]? with
  | none => simp [ha] at hx
  | some arr =>
    rw [ha] at hx
    have key : ∀ dyn, (match arr.set h (fun _ => dyn) view i val with
      | none => none
      | some (.ok arr') => some (.returns { s with arrays := s.arrays.set a arr' } ())
      | some (.throws e) => some (.raises s e)
      | some (.ub u) => some (.ub u)
      | some .diverges => some .diverges : Option (Outcome Elems Unit)) = some (.returns s' ()) →
      0 ≤ i ∧ i.toNat < arr.cells.length ∧
      s' = { s with arrays := s.arrays.set a { arr with cells := arr.cells.set i.toNat val } } := by
      intro dyn hx
      cases hset : arr.set h (fun _ => dyn) view i val with
      | none => rw [hset] at hx; cases hx
      | some r =>
        rw [hset] at hx
        cases r with
        | ok arr' =>
          simp only [Option.some.injEq, Outcome.returns.injEq, and_true] at hx
          subst hx
          unfold TypedArray.set at hset
          cases ho : h.overrider arr.elem view with
          | none => rw [ho] at hset; cases hset
          | some z =>
            rw [ho, Option.map_some] at hset
            injection hset with hset
            split at hset
            · cases hset
            · obtain ⟨k, hk, hset⟩ := Res.bind_eq_ok.1 hset
              cases hset
              unfold TypedArray.cell at hk
              split at hk
              · unfold TypedArray.position at hk
                split at hk
                · next hi =>
                  cases hk
                  exact ⟨hi.1, by omega, rfl⟩
                · cases hk
              · cases hk
        | throws e => cases hx
        | ub u => cases hx
        | diverges => cases hx
    cases val with
    | none =>
      obtain ⟨h1, h2, h3⟩ := key _ hx
      exact ⟨arr, rfl, h1, h2, nofun, h3⟩
    | some p =>
      cases hp : s.objs p with
      | none => simp [hp] at hx
      | some o =>
        simp only [Option.map_some, hp] at hx
        obtain ⟨h1, h2, h3⟩ := key _ hx
        exact ⟨arr, rfl, h1, h2, fun q hq => by cases hq; exact ⟨o, hp⟩, h3⟩

theorem put_raises {h : CppHier} {s s' : Elems} {a view : Nat} {i : Int} {val : Option Nat} {e : Exn}
    (hx : s.put h a view i val = some (.raises s' e)) : s' = s := by
  unfold put at hx
  cases ha : s.arrays[a]? with
  | none => simp [ha] at hx
  | some arr =>
    rw [ha] at hx
    have key : ∀ dyn, (match arr.set h (fun _ => dyn) view i val with
      | none => none
      | some (.ok arr') => some (.returns { s with arrays := s.arrays.set a arr' } ())
      | some (.throws e) => some (.raises s e)
      | some (.ub u) => some (.ub u)
      | some .diverges => some .diverges : Option (Outcome Elems Unit)) = some (.raises s' e) → s' = s := by
      intro dyn hx
      cases hset : arr.set h (fun _ => dyn) view i val with
      | none => rw [hset] at hx; cases hx
      | some r =>
        rw [hset] at hx
        cases r <;> cases hx
        rfl
    cases val with
    | none => exact key _ hx
    | some p =>
      cases hp : s.objs p with
      | none => simp [hp] at hx
      | some o =>
        simp only [Option.map_some, hp] at hx
        exact key _ hx

theorem Pre.put {h : CppHier} {s s' : Elems} (hs : s.Pre) {a view : Nat} {i : Int} {val : Option Nat}
    (hg : s.Good val) (hx : s.put h a view i val = some (.returns s' ())) : s'.Pre := by
  obtain ⟨arr, ha, _, _, _, rfl⟩ := put_returns hx
  have harr : arr ∈ s.arrays := List.mem_of_getElem? ha
  refine ⟨hs.bound, fun p hp => ?_⟩
  rcases held_iff.1 hp with h1 | ⟨b, hb, h1⟩
  · exact hs.owned p (held_iff.2 (.inl h1))
  · rcases mem_set hb with hb | rfl
    · exact hs.owned p (held_iff.2 (.inr ⟨b, hb, h1⟩))
    · rcases mem_set h1 with h1 | h1
      · exact hs.owned p (held_iff.2 (.inr ⟨arr, harr, h1⟩))
      · exact hg p h1.symm

theorem wrap_ok {std17 : Bool} {s s' : Elems} {z p x : Nat} (hx : s.wrap std17 z p = .ok (s', x)) :
    ∃ o, s.objs p = some o ∧
      ((std17 = true ∧ o.managed = true ∧ s' = s ∧ x = p) ∨
        (¬ (std17 = true ∧ o.managed = true) ∧ (s', x) = s.make ⟨z, o.value, true⟩)) := by
  unfold wrap at hx
  cases hp : s.objs p with
  | none => rw [hp] at hx; cases hx
  | some o =>
    rw [hp] at hx
    refine ⟨o, rfl, ?_⟩
    by_cases hc : (std17 && o.managed) = true
    · simp only [hc, if_true] at hx
      cases hx
      simp only [Bool.and_eq_true] at hc
      exact .inl ⟨hc.1, hc.2, rfl, rfl⟩
    · simp only [hc] at hx
      refine .inr ⟨by simpa using hc, ?_⟩
      injection hx with hx
      exact hx.symm

theorem wrap_good {std17 : Bool} {s s' : Elems} (hs : s.Pre) {z p x : Nat} (hx : s.wrap std17 z p = .ok (s', x)) :
    s'.Pre ∧ s'.Good (some x) := by
  obtain ⟨o, ho, ⟨_, hm, rfl, rfl⟩ | ⟨_, he⟩⟩ := wrap_ok hx
  · exact ⟨hs, fun q hq => by cases hq; exact ⟨o, ho, hm⟩⟩
  · injection he with h1 h2
    subst h1 h2
    refine ⟨hs.make _, fun q hq => ?_⟩
    cases hq
    exact ⟨⟨z, o.value, true⟩, if_pos rfl, rfl⟩

theorem take_ok {h : CppHier} {s : Elems} {a view : Nat} {i : Int} {x : Option Nat}
    (hx : s.take h a view i = some (.ok x)) :
    ∃ arr, s.arrays[a]? = some arr ∧ 0 ≤ i ∧ arr.cells[i.toNat]? = some x := by
  unfold take at hx
  cases ha : s.arrays[a]? with
  | none => simp [ha] at hx
  | some arr =>
    rw [ha] at hx
    simp only [TypedArray.get] at hx
    cases ho : h.overrider arr.elem view with
    | none => rw [ho] at hx; cases hx
    | some z =>
      rw [ho, Option.map_some] at hx
      injection hx with hx
      obtain ⟨k, hk, hx⟩ := Res.bind_eq_ok.1 hx
      injection hx with hx
      unfold TypedArray.cell at hk
      split at hk
      · unfold TypedArray.position at hk
        split at hk
        · next hi =>
          injection hk with hk
          subst hk
          refine ⟨arr, rfl, hi.1, ?_⟩
          have hlt : i.toNat < arr.cells.length := by omega
          rw [List.getElem?_eq_getElem hlt] at hx ⊢
          rw [← hx]; rfl
        · cases hk
      · cases hk

theorem take_good {h : CppHier} {s : Elems} (hs : s.Pre) {a view : Nat} {i : Int} {x : Option Nat}
    (hx : s.take h a view i = some (.ok x)) : s.Good x := by
  obtain ⟨arr, ha, _, hc⟩ := take_ok hx
  exact hs.good (.inr ⟨arr, List.mem_of_getElem? ha, List.mem_of_getElem? hc⟩)

end Elems

namespace ElemStmt

theorem after_final {α : Type} {s s' : Elems} {r : Option (Res α)} {f : α → Option (Outcome Elems ElemOut)}
    (hx : (after s r f).bind Outcome.final = some s') :
    s' = s ∨ ∃ x, r = some (.ok x) ∧ (f x).bind Outcome.final = some s' := by
  cases r with
  | none => cases hx
  | some r =>
    cases r with
    | ok x => exact .inr ⟨x, rfl, hx⟩
    | throws e => cases hx; exact .inl rfl
    | ub u => cases hx
    | diverges => cases hx

theorem unit_final {r : Option (Outcome Elems Unit)} {s' : Elems}
    (hx : (unit r).bind Outcome.final = some s') : r = some (.returns s' ()) ∨ ∃ e, r = some (.raises s' e) := by
  cases r with
  | none => cases hx
  | some r => cases r <;> cases hx <;> first | exact .inl rfl | exact .inr ⟨_, rfl⟩

theorem put_pre {h : CppHier} {s s' : Elems} (hs : s.Pre) {a view : Nat} {i : Int} {val : Option Nat}
    (hg : s.Good val) (hx : (unit (s.put h a view i val)).bind Outcome.final = some s') : s'.Pre := by
  rcases unit_final hx with hx | ⟨e, hx⟩
  · exact hs.put hg hx
  · rw [Elems.put_raises hx]; exact hs

theorem objs_pre {s : Elems} (hs : s.Pre) {f : Nat → Option CppObj}
    (h1 : ∀ p o, f p = some o → ∃ o', s.objs p = some o')
    (h2 : ∀ p o, s.objs p = some o → o.managed = true → ∃ o', f p = some o' ∧ o'.managed = true) :
    Elems.Pre { s with objs := f } where
  bound p o ho := by obtain ⟨o', ho'⟩ := h1 p o ho; exact hs.bound p o' ho'
  owned p hp := by obtain ⟨o, ho, hm⟩ := hs.owned p hp; exact h2 p o ho hm

theorem pre_exec {h : CppHier} {std17 : Bool} {s s' : Elems} (hs : s.Pre) {c : ElemStmt}
    (hx : (c.exec h std17 s).bind Outcome.final = some s') : s'.Pre := by
  cases c with
  | share v ty value =>
    simp only [exec] at hx
    cases hv : (s.make ⟨ty, value, true⟩).1.setVar v (some (s.make ⟨ty, value, true⟩).2) with
    | none => simp [hv] at hx
    | some s1 =>
      simp only [hv, Option.map_some, Option.bind_some, Outcome.final, Option.some.injEq] at hx
      subst hx
      refine (hs.make _).setVar (fun q hq => ?_) hv
      cases hq
      exact ⟨⟨ty, value, true⟩, if_pos rfl, rfl⟩
  | automatic ty value =>
    cases hx
    exact hs.make _
  | leave p =>
    simp only [exec] at hx
    split at hx
    · next ho =>
      cases hx
      refine objs_pre hs (fun q o hq => ?_) fun q o hq hm => ?_
      · split at hq
        · cases hq
        · exact ⟨o, hq⟩
      · refine ⟨o, ?_, hm⟩
        rw [if_neg]
        · exact hq
        · rintro rfl
          rw [ho] at hq; cases hq; cases hm
    · cases hx
  | reset v =>
    simp only [exec] at hx
    cases hv : s.setVar v none with
    | none => simp [hv] at hx
    | some s1 =>
      simp only [hv, Option.map_some, Option.bind_some, Outcome.final, Option.some.injEq] at hx
      subst hx
      exact hs.setVar (Elems.good_none s) hv
  | array ty length =>
    cases hx
    refine ⟨hs.bound, fun p hp => ?_⟩
    rcases Elems.held_iff.1 hp with h1 | ⟨b, hb, h1⟩
    · exact hs.owned p (Elems.held_iff.2 (.inl h1))
    · rcases List.mem_append.1 hb with hb | hb
      · exact hs.owned p (Elems.held_iff.2 (.inr ⟨b, hb, h1⟩))
      · cases List.mem_singleton.1 hb
        exact nomatch (List.eq_of_mem_replicate h1)
  | assign a view i v =>
    simp only [exec] at hx
    cases hv : s.vars[v]? with
    | none => simp [hv] at hx
    | some x =>
      simp only [hv] at hx
      exact put_pre hs (hs.good (.inl (List.mem_of_getElem? hv))) hx
  | assignPtr a view i z p =>
    cases p with
    | none => exact put_pre hs (Elems.good_none s) hx
    | some p =>
      simp only [exec] at hx
      rcases after_final hx with rfl | ⟨⟨s1, x⟩, h1, hx⟩
      · exact hs
      · injection h1 with h1
        obtain ⟨h2, h3⟩ := Elems.wrap_good hs h1
        exact put_pre h2 h3 hx
  | assignRef a view i z p =>
    simp only [exec] at hx
    rcases after_final hx with rfl | ⟨⟨s1, x⟩, h1, hx⟩
    · exact hs
    · injection h1 with h1
      obtain ⟨h2, h3⟩ := Elems.wrap_good hs h1
      exact put_pre h2 h3 hx
  | read v a view i =>
    simp only [exec] at hx
    rcases after_final hx with rfl | ⟨x, h1, hx⟩
    · exact hs
    · cases hv : s.setVar v x with
      | none => simp [hv] at hx
      | some s1 =>
        simp only [hv, Option.map_some, Option.bind_some, Outcome.final, Option.some.injEq] at hx
        subst hx
        exact hs.setVar (Elems.take_good hs h1) hv
  | pointer a view i =>
    simp only [exec] at hx
    rcases after_final hx with rfl | ⟨x, h1, hx⟩
    · exact hs
    · cases hx; exact hs
  | test a view i =>
    simp only [exec] at hx
    rcases after_final hx with rfl | ⟨x, h1, hx⟩
    · exact hs
    · cases hx; exact hs
  | deref a view i =>
    simp only [exec] at hx
    rcases after_final hx with rfl | ⟨x, h1, hx⟩
    · exact hs
    · cases x with
      | none => cases hx
      | some p =>
        cases hp : s.objs p with
        | none => simp [hp, Outcome.final] at hx
        | some o =>
          simp only [hp, Option.bind_some, Outcome.final, Option.some.injEq] at hx
          exact hx ▸ hs
  | load p =>
    simp only [exec] at hx
    cases hp : s.objs p with
    | none => simp [hp, Outcome.final] at hx
    | some o =>
      simp only [hp, Option.bind_some, Outcome.final, Option.some.injEq] at hx
      exact hx ▸ hs
  | store p value =>
    simp only [exec] at hx
    cases hp : s.objs p with
    | none => simp [hp, Outcome.final] at hx
    | some o =>
      simp only [hp, Option.bind_some, Outcome.final, Option.some.injEq] at hx
      subst hx
      refine objs_pre hs (fun q o' hq => ?_) fun q o' hq hm => ?_
      · split at hq
        · next e => exact ⟨o, e ▸ hp⟩
        · exact ⟨o', hq⟩
      · by_cases e : q = p
        · subst e
          rw [hp] at hq; cases hq
          exact ⟨_, if_pos rfl, hm⟩
        · exact ⟨o', by rw [if_neg e]; exact hq, hm⟩

theorem run_final {h : CppHier} {std17 : Bool} {s s' : Elems} {c : ElemStmt}
    (hx : (c.run h std17 s).bind Outcome.final = some s') :
    ∃ s1, (c.exec h std17 s).bind Outcome.final = some s1 ∧ s' = s1.release := by
  unfold run at hx
  cases he : c.exec h std17 s with
  | none => simp [he] at hx
  | some r => cases r <;> rw [he] at hx <;> cases hx <;> exact ⟨_, rfl, rfl⟩

theorem inv_run {h : CppHier} {std17 : Bool} {s s' : Elems} (hs : s.Pre) {c : ElemStmt}
    (hx : (c.run h std17 s).bind Outcome.final = some s') : s'.Inv := by
  obtain ⟨s1, hx1, rfl⟩ := run_final hx
  exact (pre_exec hs hx1).release

/-- Statements that assign no element leave the elements alone. -/
theorem element_exec {h : CppHier} {std17 : Bool} {s s' : Elems} {c : ElemStmt} {a i : Nat} {x : Option Nat}
    (hq : ¬ AssignsElement a i c) (he : ElementIs s a i x)
    (hx : (c.exec h std17 s).bind Outcome.final = some s') : ElementIs s' a i x := by
  have hput : ∀ (s s' : Elems) (b view : Nat) (j : Int) (val : Option Nat), ¬ (b = a ∧ j = i) → ElementIs s a i x →
      (unit (s.put h b view j val)).bind Outcome.final = some s' → ElementIs s' a i x := by
    intro s s' b view j val hn he hx
    rcases unit_final hx with hx | ⟨e, hx⟩
    · obtain ⟨arr, hb, h0, hlt, _, rfl⟩ := Elems.put_returns hx
      obtain ⟨arr', ha, hc⟩ := he
      by_cases hab : b = a
      · subst hab
        rw [hb] at ha; cases ha
        have hblt : b < s.arrays.length := (List.getElem?_eq_some_iff.1 hb).1
        refine ⟨_, by rw [List.getElem?_set, if_pos rfl, if_pos hblt], ?_⟩
        have hji : j.toNat ≠ i := fun e => hn ⟨rfl, by omega⟩
        show (arr.cells.set j.toNat val)[i]? = some x
        rw [List.getElem?_set, if_neg hji]
        exact hc
      · exact ⟨arr', by rw [List.getElem?_set, if_neg hab]; exact ha, hc⟩
    · rw [Elems.put_raises hx]; exact he
  have hwrap : ∀ {s1 : Elems} {y z p : Nat}, s.wrap std17 z p = .ok (s1, y) → ElementIs s1 a i x := by
    intro s1 y z p h1
    obtain ⟨o, ho, ⟨_, hm, rfl, rfl⟩ | ⟨_, he'⟩⟩ := Elems.wrap_ok h1
    · exact he
    · injection he' with h1 h2
      subst h1
      exact he
  have hvar : ∀ {s s1 : Elems} {v : Nat} {y : Option Nat}, ElementIs s a i x → s.setVar v y = some s1 →
      ElementIs s1 a i x := by
    intro s s1 v y he hv
    obtain ⟨_, rfl⟩ := Elems.setVar_ok hv
    exact he
  cases c with
  | share v ty value =>
    simp only [exec] at hx
    cases hv : (s.make ⟨ty, value, true⟩).1.setVar v (some (s.make ⟨ty, value, true⟩).2) with
    | none => simp [hv] at hx
    | some s1 =>
      simp only [hv, Option.map_some, Option.bind_some, Outcome.final, Option.some.injEq] at hx
      subst hx
      exact hvar (s := (s.make ⟨ty, value, true⟩).1) he hv
  | automatic ty value => cases hx; exact he
  | leave p =>
    simp only [exec] at hx
    split at hx
    · cases hx; exact he
    · cases hx
  | reset v =>
    simp only [exec] at hx
    cases hv : s.setVar v none with
    | none => simp [hv] at hx
    | some s1 =>
      simp only [hv, Option.map_some, Option.bind_some, Outcome.final, Option.some.injEq] at hx
      subst hx
      exact hvar he hv
  | array ty length =>
    cases hx
    obtain ⟨arr, ha, hc⟩ := he
    refine ⟨arr, ?_, hc⟩
    have hlt : a < s.arrays.length := (List.getElem?_eq_some_iff.1 ha).1
    show (s.arrays ++ _)[a]? = _
    rw [List.getElem?_append_left hlt]
    exact ha
  | assign b view j v =>
    simp only [exec] at hx
    cases hv : s.vars[v]? with
    | none => simp [hv] at hx
    | some y =>
      simp only [hv] at hx
      exact hput _ _ _ _ _ _ hq he hx
  | assignPtr b view j z p =>
    cases p with
    | none => exact hput _ _ _ _ _ _ hq he hx
    | some p =>
      simp only [exec] at hx
      rcases after_final hx with rfl | ⟨⟨s1, y⟩, h1, hx⟩
      · exact he
      · injection h1 with h1
        exact hput _ _ _ _ _ _ hq (hwrap h1) hx
  | assignRef b view j z p =>
    simp only [exec] at hx
    rcases after_final hx with rfl | ⟨⟨s1, y⟩, h1, hx⟩
    · exact he
    · injection h1 with h1
      exact hput _ _ _ _ _ _ hq (hwrap h1) hx
  | read v b view j =>
    simp only [exec] at hx
    rcases after_final hx with rfl | ⟨y, h1, hx⟩
    · exact he
    · cases hv : s.setVar v y with
      | none => simp [hv] at hx
      | some s1 =>
        simp only [hv, Option.map_some, Option.bind_some, Outcome.final, Option.some.injEq] at hx
        subst hx
        exact hvar he hv
  | pointer b view j =>
    simp only [exec] at hx
    rcases after_final hx with rfl | ⟨y, h1, hx⟩
    · exact he
    · cases hx; exact he
  | test b view j =>
    simp only [exec] at hx
    rcases after_final hx with rfl | ⟨y, h1, hx⟩
    · exact he
    · cases hx; exact he
  | deref b view j =>
    simp only [exec] at hx
    rcases after_final hx with rfl | ⟨y, h1, hx⟩
    · exact he
    · cases y with
      | none => cases hx
      | some p =>
        cases hp : s.objs p with
        | none => simp [hp, Outcome.final] at hx
        | some o =>
          simp only [hp, Option.bind_some, Outcome.final, Option.some.injEq] at hx
          exact hx ▸ he
  | load p =>
    simp only [exec] at hx
    cases hp : s.objs p with
    | none => simp [hp, Outcome.final] at hx
    | some o =>
      simp only [hp, Option.bind_some, Outcome.final, Option.some.injEq] at hx
      exact hx ▸ he
  | store p value =>
    simp only [exec] at hx
    cases hp : s.objs p with
    | none => simp [hp, Outcome.final] at hx
    | some o =>
      simp only [hp, Option.bind_some, Outcome.final, Option.some.injEq] at hx
      subst hx
      exact he

/-- No statement changes the type of an object that stays. -/
theorem type_exec {h : CppHier} {std17 : Bool} {s s' : Elems} (hs : s.Pre) {c : ElemStmt} {p : Nat} {o o' : CppObj}
    (ho : s.objs p = some o) (hx : (c.exec h std17 s).bind Outcome.final = some s') (ho' : s'.objs p = some o') :
    o'.dyn = o.dyn ∧ o'.managed = o.managed ∧ ((∀ v, c ≠ .store p v) → o'.value = o.value) := by
  have hsame : s'.objs p = s.objs p → o'.dyn = o.dyn ∧ o'.managed = o.managed ∧
      ((∀ v, c ≠ .store p v) → o'.value = o.value) := by
    intro e
    rw [ho', ho] at e
    cases e
    exact ⟨rfl, rfl, fun _ => rfl⟩
  have hput : ∀ (s1 s' : Elems) (b view : Nat) (j : Int) (val : Option Nat), s1.objs p = s.objs p →
      (unit (s1.put h b view j val)).bind Outcome.final = some s' → s'.objs p = s.objs p := by
    intro s s' b view j val hn hx
    rcases unit_final hx with hx | ⟨e, hx⟩
    · obtain ⟨arr, hb, h0, hlt, _, rfl⟩ := Elems.put_returns hx
      exact hn
    · rw [Elems.put_raises hx]; exact hn
  have hmake : ∀ x, (s.make x).1.objs p = s.objs p := fun x => by rw [Elems.make_old hs ho, ho]
  have hwrap : ∀ {s1 : Elems} {y z q : Nat}, s.wrap std17 z q = .ok (s1, y) → s1.objs p = s.objs p := by
    intro s1 y z q h1
    obtain ⟨x, hx, ⟨_, hm, rfl, rfl⟩ | ⟨_, he'⟩⟩ := Elems.wrap_ok h1
    · rfl
    · have : s1 = (s.make ⟨z, x.value, true⟩).1 := by rw [← he']
      rw [this]; exact hmake _
  have hvar : ∀ {s s1 : Elems} {v : Nat} {y : Option Nat}, s.setVar v y = some s1 → s1.objs p = s.objs p := by
    intro s s1 v y hv
    obtain ⟨_, rfl⟩ := Elems.setVar_ok hv
    rfl
  cases c with
  | share v ty value =>
    apply hsame
    simp only [exec] at hx
    cases hv : (s.make ⟨ty, value, true⟩).1.setVar v (some (s.make ⟨ty, value, true⟩).2) with
    | none => simp [hv] at hx
    | some s1 =>
      simp only [hv, Option.map_some, Option.bind_some, Outcome.final, Option.some.injEq] at hx
      subst hx
      rw [hvar hv, hmake]
  | automatic ty value => cases hx; exact hsame (hmake _)
  | leave q =>
    simp only [exec] at hx
    split at hx
    · cases hx
      simp only at ho'
      split at ho'
      · cases ho'
      · exact hsame (by simp only; rw [if_neg (by assumption)])
    · cases hx
  | reset v =>
    apply hsame
    simp only [exec] at hx
    cases hv : s.setVar v none with
    | none => simp [hv] at hx
    | some s1 =>
      simp only [hv, Option.map_some, Option.bind_some, Outcome.final, Option.some.injEq] at hx
      subst hx
      exact hvar hv
  | array ty length => cases hx; exact hsame rfl
  | assign b view j v =>
    apply hsame
    simp only [exec] at hx
    cases hv : s.vars[v]? with
    | none => simp [hv] at hx
    | some y =>
      simp only [hv] at hx
      exact hput _ _ _ _ _ _ rfl hx
  | assignPtr b view j z q =>
    apply hsame
    cases q with
    | none => exact hput _ _ _ _ _ _ rfl hx
    | some q =>
      simp only [exec] at hx
      rcases after_final hx with rfl | ⟨⟨s1, y⟩, h1, hx⟩
      · rfl
      · injection h1 with h1
        exact hput _ _ _ _ _ _ (hwrap h1) hx
  | assignRef b view j z q =>
    apply hsame
    simp only [exec] at hx
    rcases after_final hx with rfl | ⟨⟨s1, y⟩, h1, hx⟩
    · rfl
    · injection h1 with h1
      exact hput _ _ _ _ _ _ (hwrap h1) hx
  | read v b view j =>
    apply hsame
    simp only [exec] at hx
    rcases after_final hx with rfl | ⟨y, h1, hx⟩
    · rfl
    · cases hv : s.setVar v y with
      | none => simp [hv] at hx
      | some s1 =>
        simp only [hv, Option.map_some, Option.bind_some, Outcome.final, Option.some.injEq] at hx
        subst hx
        exact hvar hv
  | pointer b view j =>
    apply hsame
    simp only [exec] at hx
    rcases after_final hx with rfl | ⟨y, h1, hx⟩
    · rfl
    · cases hx; rfl
  | test b view j =>
    apply hsame
    simp only [exec] at hx
    rcases after_final hx with rfl | ⟨y, h1, hx⟩
    · rfl
    · cases hx; rfl
  | deref b view j =>
    apply hsame
    simp only [exec] at hx
    rcases after_final hx with rfl | ⟨y, h1, hx⟩
    · rfl
    · cases y with
      | none => cases hx
      | some q =>
        cases hp : s.objs q with
        | none => simp [hp, Outcome.final] at hx
        | some _ =>
          simp only [hp, Option.bind_some, Outcome.final, Option.some.injEq] at hx
          exact hx ▸ rfl
  | load q =>
    apply hsame
    simp only [exec] at hx
    cases hp : s.objs q with
    | none => simp [hp, Outcome.final] at hx
    | some _ =>
      simp only [hp, Option.bind_some, Outcome.final, Option.some.injEq] at hx
      exact hx ▸ rfl
  | store q value =>
    simp only [exec] at hx
    cases hp : s.objs q with
    | none => simp [hp, Outcome.final] at hx
    | some y =>
      simp only [hp, Option.bind_some, Outcome.final, Option.some.injEq] at hx
      subst hx
      simp only at ho'
      by_cases e : p = q
      · subst e
        rw [ho] at hp; cases hp
        rw [if_pos rfl] at ho'
        cases ho'
        exact ⟨rfl, rfl, fun hn => absurd rfl (hn value)⟩
      · exact hsame (by simp only; rw [if_neg e])

end ElemStmt

theorem runElems_cons {h : CppHier} {std17 : Bool} {s s' : Elems} {c : ElemStmt} {cs : List ElemStmt}
    (hx : runElems h std17 s (c :: cs) = some s') :
    ∃ s1, (c.run h std17 s).bind Outcome.final = some s1 ∧ runElems h std17 s1 cs = some s' := by
  simp only [runElems] at hx
  cases hc : (c.run h std17 s).bind Outcome.final with
  | none => rw [hc] at hx; cases hx
  | some s1 => rw [hc] at hx; exact ⟨s1, rfl, hx⟩

theorem runElems_append {h : CppHier} {std17 : Bool} {s : Elems} {cs ds : List ElemStmt} :
    runElems h std17 s (cs ++ ds) = (runElems h std17 s cs).bind fun s => runElems h std17 s ds := by
  induction cs generalizing s with
  | nil => rfl
  | cons c cs ih =>
    simp only [List.cons_append, runElems]
    cases (c.run h std17 s).bind Outcome.final with
    | none => rfl
    | some s1 => exact ih

theorem _root_.Spec.ElemsReachable.inv {h : CppHier} {std17 : Bool} {s : Elems} (hr : ElemsReachable h std17 s) :
    s.Inv := by
  obtain ⟨n, cs, hx⟩ := hr
  have key : ∀ (cs : List ElemStmt) (s0 : Elems), s0.Inv → runElems h std17 s0 cs = some s → s.Inv := by
    intro cs
    induction cs with
    | nil => intro s0 h0 hx; cases hx; exact h0
    | cons c cs ih =>
      intro s0 h0 hx
      obtain ⟨s1, h1, hx⟩ := runElems_cons hx
      exact ih s1 (ElemStmt.inv_run h0.toPre h1) hx
  exact key cs _ (.start n) hx

theorem _root_.Spec.ElemsReachable.steps {h : CppHier} {std17 : Bool} {s s' : Elems} (hr : ElemsReachable h std17 s)
    {cs : List ElemStmt} (hx : runElems h std17 s cs = some s') : ElemsReachable h std17 s' := by
  obtain ⟨n, ds, hd⟩ := hr
  exact ⟨n, ds ++ cs, by rw [runElems_append, hd]; exact hx⟩

end Jnivm
