import Verif.Spec.CppRefs
import Verif.Props.Refs
/-!
Variables of C++ code: helper lemmas.
-/
namespace Jnivm
open Spec
open Heap hiding Live

/-- One call keeps a global reference that it does not delete. -/
theorem owner_kept {h h' : Heap} (hr : HeapReachable h) {t g i : Nat} {op : HeapOp} {out : Out}
    (hx : op.run h t = .ok (h', out)) (hg : g ∈ h.globals) (ho : ∃ o, h.objs g = some o ∧ o.kind = .global i)
    (hn : op ≠ .deleteGlobalRef (some g)) : g ∈ h'.globals ∧ ∃ o, h'.objs g = some o ∧ o.kind = .global i := by
  by_cases hdw : op = .deleteWeakGlobalRef (some g)
  · subst hdw
    obtain ⟨h1', hx1', rfl⟩ := Heap.run_ok hx
    obtain ⟨hb, hne⟩ := Heap.exec_ok hx1'
    obtain ⟨e, he⟩ := hne rfl
    obtain ⟨⟨o', i', ho', hk'⟩, _⟩ := (Heap.effect_exec hr.inv.toPre he hx1' (by simp)).2
    obtain ⟨o, ho, hk⟩ := ho
    rw [ho] at ho'; cases ho'; rw [hk] at hk'; cases hk'
  · exact global_kept hr.inv (k := .global i) rfl hx hg ho hn hdw

/-- What `NewGlobalRef` does. -/
theorem newGlobal_run {h h' : Heap} (hr : HeapReachable h) {t : Nat} {r : Option Nat} {out : Out}
    (hx : (HeapOp.newGlobalRef r).run h t = .ok (h', out)) : ∃ x g, Denotes h r x ∧ out = .ref g ∧
      match x with
      | none => g = none
      | some i => ∃ k, g = some k ∧ h.next ≤ k ∧ k ∈ h'.globals ∧ ∃ o, h'.objs k = some o ∧ o.kind = .global i := by
  obtain ⟨h1, hx1, rfl⟩ := Heap.run_ok hx
  obtain ⟨e, he⟩ := (Heap.exec_ok hx1).2 rfl
  obtain ⟨x, hd, heff⟩ := (Heap.effect_exec hr.inv.toPre he hx1 (by simp)).2
  refine ⟨x, ?_⟩
  cases x with
  | none => exact ⟨none, (denote_iff hr.inv.toPre).1 hd, heff.1, rfl⟩
  | some i =>
    obtain ⟨g, hout, hgl, hlt, o, ho, hk⟩ := heff
    have hg : g ∈ h1.collect.globals := by rw [Heap.collect_globals, hgl]; simp
    obtain ⟨o', ho'⟩ := (hr.inv.run hx).roots g (Heap.mem_roots.2 (.inl hg))
    have hs := Heap.collect_sub ho'
    rw [ho] at hs; cases hs
    exact ⟨some g, (denote_iff hr.inv.toPre).1 hd, hout, g, rfl, hlt, hg, o, ho', hk⟩

theorem newGlobal_ok {h : Heap} (hr : HeapReachable h) {t : Nat} {e : Env} (he : h.envs t = some e)
    {r : Option Nat} (hv : Valid h r) : ∃ h' g, (HeapOp.newGlobalRef r).run h t = .ok (h', .ref g) := by
  obtain ⟨x, hd, _⟩ := denote_total hr.inv.toPre hv
  rw [HeapOp.run, exec_of_body he, HeapOp.body, Heap.newGlobalRef, hd]
  cases x with
  | none => exact ⟨_, _, rfl⟩
  | some i => exact ⟨_, _, rfl⟩

/-- The owner that the variable stands for. -/
structure CppInv (s : CppState) : Prop where
  heap : HeapReachable s.heap
  own : ∀ x g, s.vars x = some g → g ∈ s.heap.globals ∧ ∃ i o, s.heap.objs g = some o ∧ o.kind = .global i
  inj : ∀ x y g, s.vars x = some g → s.vars y = some g → x = y

/-- A call that names no owner. -/
theorem CppInv.call {s : CppState} (hi : CppInv s) {t : Nat} {op : HeapOp} {h : Heap} {out : Out}
    (hx : op.run s.heap t = .ok (h, out)) (hn : ∀ x g, s.vars x = some g → op ≠ .deleteGlobalRef (some g)) :
    CppInv { s with heap := h } ∧ ∀ x o, CppHolds s x o → CppHolds { s with heap := h } x o := by
  have hr' := hi.heap.step hx
  refine ⟨⟨hr', fun x g hg => ?_, hi.inj⟩, fun x o hh => ?_⟩
  · obtain ⟨hm, i, ho⟩ := hi.own x g hg
    obtain ⟨hm', ho'⟩ := owner_kept hi.heap hx hm ho (hn x g hg)
    exact ⟨hm', i, ho'⟩
  · unfold CppHolds at hh ⊢
    cases hv : s.vars x with
    | none => rw [hv] at hh; cases hh; dsimp only; exact .null
    | some g =>
      obtain ⟨hm, i, ho⟩ := hi.own x g hv
      obtain ⟨_, hd0, _⟩ := global_ref_keeps_alive hi.heap hm ho (ops := []) (by simp) rfl
      rw [hv] at hh
      have := denotes_fun hh hd0
      subst this
      dsimp only
      exact (global_ref_keeps_alive hi.heap hm ho (ops := [(t, op)])
        (by simpa using hn x g hv) (by simp [runHeap, hx, Res.bind_ok])).2.1

/-- An assignment. -/
theorem CppInv.store {s s' : CppState} (hi : CppInv s) {t x : Nat} {r : Option Nat}
    (hx : s.store t x r = .ok s') : CppInv s' ∧ (∃ o, Denotes s.heap r o ∧ CppHolds s' x o) ∧
      ∀ y o, y ≠ x → CppHolds s y o → CppHolds s' y o := by
  unfold CppState.store at hx
  obtain ⟨⟨h1, out⟩, hx1, hx2⟩ := Res.bind_eq_ok.1 hx
  obtain ⟨⟨h2, out2⟩, hx3, hx4⟩ := Res.bind_eq_ok.1 hx2
  injection hx4 with hx4
  obtain ⟨o, g, hd, rfl, hg⟩ := newGlobal_run hi.heap hx1
  dsimp only at hx3 hx4
  obtain ⟨hi1, hk1⟩ := hi.call hx1 (fun _ _ _ h => (nomatch h))
  -- the new owner is none of the old ones
  have hfresh : ∀ y k, s.vars y = some k → g ≠ some k := by
    rintro y k hk rfl
    cases o with
    | none => exact nomatch hg
    | some i =>
      obtain ⟨k', hk', hle, _⟩ := hg
      injection hk' with hk'; subst hk'
      obtain ⟨_, _, ob, hob, _⟩ := hi.own y k hk
      have := hi.heap.inv.bound k ob hob
      omega
  have hr2 := hi1.heap.step hx3
  -- what the owner of another variable is after both calls
  have hother : ∀ y k, y ≠ x → s.vars y = some k → k ∈ h2.globals ∧
      ∃ i o, h2.objs k = some o ∧ o.kind = .global i := by
    intro y k hy hk
    obtain ⟨hm, i, ho⟩ := hi1.own y k hk
    obtain ⟨hm', ho'⟩ := owner_kept hi1.heap hx3 hm ho (fun h => by
      injection h with h; exact hy (hi.inj y x k hk h))
    exact ⟨hm', i, ho'⟩
  have hnew : ∀ k, g = some k → k ∈ h2.globals ∧ ∃ i o', h2.objs k = some o' ∧ o'.kind = .global i ∧ o = some i := by
    rintro k rfl
    cases o with
    | none => exact nomatch hg
    | some i =>
      obtain ⟨k', hk', _, hm, ho⟩ := hg
      injection hk' with hk'; subst hk'
      obtain ⟨hm', o', ho', hk'⟩ := owner_kept hi1.heap hx3 hm ho (fun h => by
        injection h with h; exact hfresh x k h rfl)
      exact ⟨hm', i, o', ho', hk', rfl⟩
  subst hx4
  refine ⟨⟨hr2, fun y k hk => ?_, fun y z k hy hz => ?_⟩, ⟨o, hd, ?_⟩, fun y oy hy hh => ?_⟩
  · dsimp only at hk
    by_cases hyx : y = x
    · rw [if_pos hyx] at hk
      obtain ⟨hm, i, o', ho', hk', _⟩ := hnew k hk
      exact ⟨hm, i, o', ho', hk'⟩
    · rw [if_neg hyx] at hk
      exact hother y k hyx hk
  · dsimp only at hy hz
    by_cases hyx : y = x
    · by_cases hzx : z = x
      · exact hyx.trans hzx.symm
      · rw [if_pos hyx] at hy; rw [if_neg hzx] at hz
        exact absurd hy (hfresh z k hz)
    · rw [if_neg hyx] at hy
      by_cases hzx : z = x
      · rw [if_pos hzx] at hz
        exact absurd hz (hfresh y k hy)
      · rw [if_neg hzx] at hz
        exact hi.inj y z k hy hz
  · show Denotes h2 (if x = x then g else s.vars x) o
    rw [if_pos rfl]
    cases hgk : g with
    | none =>
      cases o with
      | none => exact .null
      | some i => obtain ⟨k, hk, _⟩ := hg; rw [hgk] at hk; exact nomatch hk
    | some k =>
      obtain ⟨hm, i, o', ho', hk', rfl⟩ := hnew k hgk
      exact (global_ref_keeps_alive hr2 hm ⟨o', ho', hk'⟩ (ops := []) (by simp) rfl).2.1
  · show Denotes h2 (if y = x then g else s.vars y) oy
    rw [if_neg hy]
    unfold CppHolds at hh
    cases hv : s.vars y with
    | none => rw [hv] at hh; cases hh; exact .null
    | some k =>
      obtain ⟨hm, i, ho⟩ := hi.own y k hv
      obtain ⟨_, hd0, _⟩ := global_ref_keeps_alive hi.heap hm ho (ops := []) (by simp) rfl
      rw [hv] at hh
      have := denotes_fun hh hd0
      subst this
      refine (global_ref_keeps_alive hi.heap hm ho (ops := [(t, .newGlobalRef r), (t, .deleteGlobalRef (s.vars x))])
        ?_ (by simp [runHeap, hx1, hx3, Res.bind_ok])).2.1
      intro a ha
      simp only [List.mem_cons, List.not_mem_nil, or_false] at ha
      rcases ha with rfl | rfl
      · exact fun h => (nomatch h)
      · exact fun h => by injection h with h; exact hy (hi.inj y x k hv h)

/-- One step. -/
theorem CppInv.step {s s' : CppState} (hi : CppInv s) {t : Nat} {op : CppOp} {out : Out} (hh : Honest s op)
    (hx : op.run s t = .ok (s', out)) : CppInv s' ∧
      ∀ x o, ¬ AssignsTo x op → CppHolds s x o → CppHolds s' x o := by
  cases op with
  | jni op =>
    obtain ⟨⟨h, o⟩, hx1, hx2⟩ := Res.bind_eq_ok.1 hx
    injection hx2 with hx2; injection hx2 with hx2 _; subst hx2
    obtain ⟨h1, h2⟩ := hi.call hx1 (fun x g hg h => by subst h; exact hh x hg)
    exact ⟨h1, fun x o _ => h2 x o⟩
  | resolve x r =>
    obtain ⟨s1, hx1, hx2⟩ := Res.bind_eq_ok.1 hx
    injection hx2 with hx2; injection hx2 with hx2 _; subst hx2
    obtain ⟨h1, _, h2⟩ := hi.store hx1
    exact ⟨h1, fun y o hy => h2 y o (fun h => hy h.symm)⟩
  | assign x y =>
    obtain ⟨s1, hx1, hx2⟩ := Res.bind_eq_ok.1 hx
    injection hx2 with hx2; injection hx2 with hx2 _; subst hx2
    obtain ⟨h1, _, h2⟩ := hi.store hx1
    exact ⟨h1, fun y o hy => h2 y o (fun h => hy h.symm)⟩
  | reset x =>
    obtain ⟨s1, hx1, hx2⟩ := Res.bind_eq_ok.1 hx
    injection hx2 with hx2; injection hx2 with hx2 _; subst hx2
    obtain ⟨h1, _, h2⟩ := hi.store hx1
    exact ⟨h1, fun y o hy => h2 y o (fun h => hy h.symm)⟩
  | toGlobal x =>
    rw [CppOp.run] at hx
    split at hx
    · exact nomatch hx
    · obtain ⟨⟨h, o⟩, hx1, hx2⟩ := Res.bind_eq_ok.1 hx
      injection hx2 with hx2; injection hx2 with hx2 _; subst hx2
      obtain ⟨h1, h2⟩ := hi.call hx1 (fun _ _ _ h => (nomatch h))
      exact ⟨h1, fun x o _ => h2 x o⟩
  | toLocal x =>
    obtain ⟨⟨h, o⟩, hx1, hx2⟩ := Res.bind_eq_ok.1 hx
    injection hx2 with hx2; injection hx2 with hx2 _; subst hx2
    obtain ⟨h1, h2⟩ := hi.call hx1 (fun _ _ _ h => (nomatch h))
    exact ⟨h1, fun x o _ => h2 x o⟩
  | getClass x =>
    obtain ⟨c, _, hx2⟩ := Res.bind_eq_ok.1 hx
    injection hx2 with hx2; injection hx2 with hx2 _; subst hx2
    exact ⟨hi, fun _ _ _ h => h⟩

theorem _root_.Spec.PtrsReachable.inv {s : CppState} (hr : PtrsReachable s) : CppInv s := by
  induction hr with
  | start => exact ⟨⟨[], rfl⟩, fun _ _ h => (nomatch h), fun _ _ _ h => (nomatch h)⟩
  | step _ hh hx ih => exact (ih.step hh hx).1

/-- What a variable holds is determined, and there is always something. -/
theorem CppInv.holds {s : CppState} (hi : CppInv s) (x : Nat) : ∃ o, CppHolds s x o ∧
    (o = none ↔ s.vars x = none) := by
  cases hv : s.vars x with
  | none => exact ⟨none, by unfold CppHolds; rw [hv]; exact .null, by simp⟩
  | some g =>
    obtain ⟨hm, i, ho⟩ := hi.own x g hv
    exact ⟨some i, by unfold CppHolds; rw [hv]; exact
      (global_ref_keeps_alive hi.heap hm ho (ops := []) (by simp) rfl).2.1, by simp⟩

end Jnivm
