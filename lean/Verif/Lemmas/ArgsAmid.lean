import Verif.Lemmas.ObjArgs
import Verif.Spec.ArgsAmid
import Verif.Props.Refs
/-! Conversion of arguments while other threads act. -/
namespace Jnivm
open Spec

variable {w : CppTypes} {t : Nat} {keep : List Nat}

theorem _root_.Spec.Secured.denotes {h : Heap} (hp : h.Pre) {r o : Option Nat}
    (hs : Secured t keep h r o) : Denotes h r o := by
  cases hs with
  | null => exact .null
  | loc _ ho hk => exact .direct ho hk
  | glob _ _ ho hk =>
    have hl := hp.edges _ _ (owns_iff.1 ⟨_, ho, .inl hk⟩)
    obtain ⟨oi, hoi⟩ := hl
    exact .global ho hk (.direct hoi (isWrapper_iff.1 ((hp.target _ _ _ ho (.inr hk)).2 oi hoi)))

/-- A global reference is kept by every call but its deletion. -/
theorem Heap.Inv.global_run {h h' : Heap} (hi : h.Inv) {u g i : Nat} {op : HeapOp} {out : Out}
    (hx : op.run h u = .ok (h', out)) (hg : g ∈ h.globals) (ho : ∃ o, h.objs g = some o ∧ o.kind = .global i)
    (hop : op ≠ .deleteGlobalRef (some g)) : g ∈ h'.globals ∧ ∃ o, h'.objs g = some o ∧ o.kind = .global i := by
  by_cases hdw : op = .deleteWeakGlobalRef (some g)
  · subst hdw
    obtain ⟨h1, hx1, rfl⟩ := Heap.run_ok hx
    obtain ⟨_, hne⟩ := Heap.exec_ok hx1
    obtain ⟨e, he⟩ := hne rfl
    obtain ⟨⟨o', i', ho', hk'⟩, _⟩ := (Heap.effect_exec hi.toPre he hx1 (by simp)).2
    obtain ⟨o, ho, hk⟩ := ho
    rw [ho] at ho'; cases ho'; rw [hk] at hk'; cases hk'
  · exact global_kept hi (k := .global i) rfl hx hg ho hop hdw

/-- Other threads do not touch what thread `t` relies on. -/
theorem _root_.Spec.Secured.run {h h' : Heap} (hi : h.Inv) {u : Nat} {op : HeapOp} {out : Out} (hu : u ≠ t)
    (hk : ∀ g ∈ keep, op ≠ .deleteGlobalRef (some g)) (hx : op.run h u = .ok (h', out)) {r o : Option Nat}
    (hs : Secured t keep h r o) : Secured t keep h' r o := by
  have s := runStep hi.toPre hx
  cases hs with
  | null => exact .null
  | @loc i o hl ho hko =>
    obtain ⟨e, he, hf⟩ := hl
    have hl' : HasLocal h' t i := ⟨e, by rw [s.others t (Ne.symm hu)]; exact he, hf⟩
    obtain ⟨o', ho'⟩ := Heap.hasLocal_live (hi.run hx) hl'
    obtain ⟨o2, ho2, hsame, _⟩ := s.old i o' (hi.bound _ _ ho) ho'
    rw [ho] at ho2; cases ho2
    exact .loc hl' ho' (isWrapper_iff.1 (by rw [hsame.wrapper]; exact isWrapper_iff.2 hko))
  | glob hm hg ho hko =>
    obtain ⟨hg', o', ho', hko'⟩ := hi.global_run hx hg ⟨_, ho, hko⟩ (hk _ hm)
    exact .glob hm hg' ho' hko'

/-- Neither does a conversion. -/
theorem _root_.Spec.Secured.convert {h h1 : Heap} {l os : List Nat} (s : Heap.Step t h h1)
    (hpu : Heap.Pushed t l h h1) (hl : ∀ i ∈ os, h1.Live i) (hne : ∀ e, h.envs t = some e → e.frames ≠ [])
    {r o : Option Nat} (hs : Secured t keep h r o) : Secured t keep (h1.hold os).collect r o := by
  have hi : (h1.hold os).collect.Inv := (s.pre.hold hl).collect
  cases hs with
  | null => exact .null
  | @loc i o hloc ho hko =>
    obtain ⟨e, he, f, hf, hif⟩ := hloc
    have hl' : HasLocal (h1.hold os).collect t i := by
      refine ⟨_, by rw [Heap.collect_envs]; exact hpu.env e he, ?_⟩
      cases hfr : e.frames with
      | nil => exact absurd hfr (hne e he)
      | cons f0 fs =>
        rw [hfr] at hf
        rcases List.mem_cons.1 hf with rfl | hf
        · exact ⟨f ++ l, by simp [Heap.addFront], List.mem_append_left _ hif⟩
        · exact ⟨f, by simp [Heap.addFront, hf], hif⟩
    obtain ⟨o', ho'⟩ := Heap.hasLocal_live hi hl'
    obtain ⟨o2, ho2, hsame, _⟩ := s.live i o ho
    have : (h1.hold os).objs i = some o' := Heap.collect_sub ho'
    change h1.objs i = some o' at this
    rw [ho2] at this; cases this
    exact .loc hl' ho' (isWrapper_iff.1 (by rw [hsame.wrapper]; exact isWrapper_iff.2 hko))
  | @glob g o i hm hg ho hko =>
    have hg' : g ∈ (h1.hold os).collect.globals := by
      rw [Heap.collect_globals]
      show g ∈ h1.globals
      rw [hpu.globals]; exact hg
    obtain ⟨o', ho'⟩ : Live (h1.hold os).collect g := hi.roots g (Heap.mem_roots.2 (.inl hg'))
    obtain ⟨o2, ho2, hsame, _⟩ := s.live g o ho
    have : (h1.hold os).objs g = some o' := Heap.collect_sub ho'
    change h1.objs g = some o' at this
    rw [ho2] at this; cases this
    exact .glob hm hg' ho' (by rw [hko] at hsame; exact hsame.global)

/-- What a parameter gets depends on what the reference denotes only. -/
theorem passed_same {h h' : Heap} {r : Option Nat} (hd : ∀ x, Denotes h' r x → Denotes h r x) {p : ObjParam}
    {x : ObjArg} (hx : Passed w h' p r x) : Passed w h p r x := by
  cases hx with
  | jobject => exact .jobject
  | shared a => exact .shared ⟨hd _ a.1, a.2⟩
  | pointer a => exact .pointer ⟨hd _ a.1, a.2⟩
  | jhandle a => exact .jhandle ⟨hd _ a.1, a.2⟩
  | ref a => exact .ref ⟨hd _ a.1, a.2⟩
  | value a => exact .value ⟨hd _ a.1, a.2⟩

theorem refused_same {h h' : Heap} {r : Option Nat} (hd : ∀ x, Denotes h' r x → Denotes h r x) {p : ObjParam}
    {ex : Exn} (hx : Refused w h' p r ex) : Refused w h p r ex := by
  cases hx with
  | type hm a hw => exact .type hm (hd _ a) hw
  | null hm a => exact .null hm (hd _ a)

/-- The steps so far have led from `h0` to `s`. -/
structure AmidInv (w : CppTypes) (t : Nat) (keep : List Nat) (h0 : Heap) (e : Env) (own : List Nat)
    (as : List (ObjParam × Option Nat)) (s : AmidState) : Prop where
  inv : s.heap.Inv
  holding : Heap.Holding s.temps s.heap
  temps : ∀ i, i ∈ s.temps ↔ i ∈ own ∨ .shared (some i) ∈ s.args
  env : s.heap.envs t = some { e with frames := Heap.addFront (allLocals as s.args) e.frames }
  secured : ∀ r o, Secured t keep h0 r o → Secured t keep s.heap r o
  length : s.args.length = as.length
  inv0 : h0.Inv
  passed : (∀ a ∈ as, ∃ o, Secured t keep h0 a.2 o) → PassedAll w h0 as s.args

/-- The next argument gets what its reference denoted in the beginning, or is refused. -/
theorem AmidInv.next {h0 : Heap} {e : Env} {own : List Nat} {as : List (ObjParam × Option Nat)} {s : AmidState}
    (a : AmidInv w t keep h0 e own as s) {r o : Option Nat} (hs : Secured t keep h0 r o) (p : ObjParam) :
    (∃ h' x, s.heap.convert w t r p = .ok (h', x) ∧ Passed w h0 p r x) ∨
    ∃ ex, s.heap.convert w t r p = .throws ex ∧ Refused w h0 p r ex := by
  have hd0 := hs.denotes a.inv0.toPre
  have hd1 := (a.secured r o hs).denotes a.inv.toPre
  have same : ∀ x, Denotes s.heap r x → Denotes h0 r x := fun x hx => by
    rw [Heap.denotes_fun hx hd1]; exact hd0
  rcases Heap.convert_cases (w := w) a.inv.toPre a.env (Heap.denotes_valid hd1) p with
    ⟨h', x, hx, hpx, _⟩ | ⟨ex, hx, hrf⟩
  · exact .inl ⟨h', x, hx, passed_same same hpx⟩
  · exact .inr ⟨ex, hx, refused_same same hrf⟩

theorem _root_.Spec.PassedAll.snoc {h : Heap} {as : List (ObjParam × Option Nat)} {xs : List ObjArg}
    (hx : PassedAll w h as xs) {p : ObjParam} {r : Option Nat} {x : ObjArg} (hp : Passed w h p r x) :
    PassedAll w h (as ++ [(p, r)]) (xs ++ [x]) := by
  induction hx with
  | nil => exact .cons hp .nil
  | cons h1 _ ih => exact .cons h1 ih

theorem AmidInv.start {h0 : Heap} (hi : h0.Inv) {e : Env} (he : h0.envs t = some e)
    {this : Option (CppClass × Option Nat)} {own : List Nat} (hx : h0.receiver w this = .ok own) :
    AmidInv w t keep h0 e own [] ⟨(h0.hold own).collect, own, []⟩ := by
  have hl := Heap.receiver_live hi.toPre hx
  refine ⟨(hi.toPre.hold hl).collect, (hi.toPre.holding own).collect, fun i => by simp, ?_, fun r o hs => ?_, rfl, hi, fun _ => .nil⟩
  · show (h0.hold own).collect.envs t = _
    rw [Heap.collect_envs]
    have : allLocals [] [] = [] := rfl
    rw [this, Heap.addFront_nil]; exact he
  · exact hs.convert (Heap.Step.refl t hi.toPre) (Heap.Pushed.refl t h0) hl (fun e he => hi.frames t e he)

theorem allLocals_snoc {as : List (ObjParam × Option Nat)} {xs : List ObjArg} (hl : xs.length = as.length)
    (p : ObjParam) (r : Option Nat) (x : ObjArg) :
    allLocals (as ++ [(p, r)]) (xs ++ [x]) = allLocals as xs ++ newLocals p x := by
  unfold allLocals
  rw [List.zipWith_append hl.symm]
  simp

theorem AmidInv.step {h0 : Heap} {e : Env} {own : List Nat}
    {as : List (ObjParam × Option Nat)} {s s' : AmidState} (a : AmidInv w t keep h0 e own as s) {x : AmidStep}
    (ho : OthersOnly t keep [x]) (hx : s.step w t x = .ok s') :
    AmidInv w t keep h0 e own (as ++ amidArgs [x]) s' := by
  cases x with
  | call u op =>
    obtain ⟨⟨h1, out⟩, hx1, hx2⟩ := Res.bind_eq_ok.1 hx
    cases hx2
    obtain ⟨hu, hk⟩ := ho u op (by simp)
    refine ⟨a.inv.run hx1, a.holding.mono (Heap.pins_run a.inv.toPre hx1), a.temps, ?_, fun r o hs =>
      (a.secured r o hs).run a.inv hu hk hx1, ?_, a.inv0, ?_⟩
    · show h1.envs t = _
      rw [(runStep a.inv.toPre hx1).others t (Ne.symm hu), a.env]
      simp [amidArgs]
    · simpa [amidArgs] using a.length
    · simpa [amidArgs] using a.passed
  | arg p r =>
    obtain ⟨⟨h1, x⟩, hx1, hx2⟩ := Res.bind_eq_ok.1 hx
    cases hx2
    obtain ⟨s1, hpu, hl0⟩ := Heap.convert_step a.inv.toPre hx1
    have hl : ∀ i ∈ x.owned.toList, h1.Live i := fun i hm => hl0 i (Option.mem_toList.1 hm)
    refine ⟨(s1.pre.hold hl).collect, ?_, fun i => ?_, ?_, fun q o hs => ?_, ?_, a.inv0, fun hsec => ?_⟩
    · obtain ⟨rest, hr1, hr2⟩ := (a.holding.mono s1.pinned).pinned
      refine Heap.Holding.collect ⟨rest, ?_, hr2⟩
      show x.owned.toList ++ h1.pinned = _
      rw [hr1, List.append_assoc]
    · show i ∈ x.owned.toList ++ s.temps ↔ _ ∨ _ ∈ s.args ++ [x]
      rw [List.mem_append, a.temps, List.mem_append, List.mem_singleton, Option.mem_toList]
      have : x.owned = some i ↔ .shared (some i) = x := by
        cases x <;> simp [ObjArg.owned, eq_comm]
      rw [← this]
      constructor
      · rintro (h | h | h)
        · exact .inr (.inr h)
        · exact .inl h
        · exact .inr (.inl h)
      · rintro (h | h | h)
        · exact .inr (.inl h)
        · exact .inr (.inr h)
        · exact .inl h
    · show ((h1.hold x.owned.toList).collect).envs t = _
      rw [Heap.collect_envs]
      show h1.envs t = _
      rw [hpu.env _ a.env]
      show some _ = some { e with frames := Heap.addFront (allLocals (as ++ [(p, r)]) (s.args ++ [x])) e.frames }
      rw [allLocals_snoc a.length, Heap.addFront_addFront]
    · exact (a.secured q o hs).convert s1 hpu hl (fun e he => a.inv.frames t e he)
    · show (s.args ++ [x]).length = (as ++ [(p, r)]).length
      simp [a.length]
    · obtain ⟨o, hs⟩ := hsec (p, r) (by simp [amidArgs])
      refine (a.passed fun b hb => hsec b (List.mem_append_left _ hb)).snoc ?_
      rcases a.next hs p with ⟨h', y, hy, hpy⟩ | ⟨ex, hy, _⟩
      · rw [hx1] at hy; cases hy; exact hpy
      · rw [hx1] at hy; cases hy

theorem amidArgs_cons (x : AmidStep) (steps : List AmidStep) :
    amidArgs (x :: steps) = amidArgs [x] ++ amidArgs steps := by
  cases x <;> simp [amidArgs]

theorem AmidInv.run {h0 : Heap} {e : Env} {own : List Nat} {steps : List AmidStep}
    {as : List (ObjParam × Option Nat)} {s s' : AmidState} (a : AmidInv w t keep h0 e own as s)
    (ho : OthersOnly t keep steps) (hx : s.run w t steps = .ok s') :
    AmidInv w t keep h0 e own (as ++ amidArgs steps) s' := by
  induction steps generalizing as s with
  | nil => cases hx; simpa [amidArgs] using a
  | cons x steps ih =>
    obtain ⟨s1, hx1, hx2⟩ := Res.bind_eq_ok.1 hx
    have := ih (a.step (fun u op hm => ho u op (by rw [List.mem_singleton.1 hm]; exact List.mem_cons_self)) hx1)
      (fun u op hm => ho u op (List.mem_cons_of_mem _ hm)) hx2
    rw [amidArgs_cons, ← List.append_assoc]; exact this

theorem amid_append {steps : List AmidStep} {x : AmidStep} {s s' : AmidState} (hx : s.run w t steps = .ok s') :
    s.run w t (steps ++ [x]) = s'.step w t x := by
  induction steps generalizing s with
  | nil =>
    cases hx
    simp only [List.nil_append, AmidState.run]
    cases AmidState.step w t s' x <;> rfl
  | cons y steps ih =>
    obtain ⟨s1, hx1, hx2⟩ := Res.bind_eq_ok.1 hx
    rw [List.cons_append, AmidState.run, hx1, Res.bind_ok]
    exact ih hx2

theorem enterAmid_inv {h0 : Heap} (hi : h0.Inv) {e : Env} (he : h0.envs t = some e)
    {this : Option (CppClass × Option Nat)} {steps : List AmidStep} {s : AmidState}
    (ho : OthersOnly t keep steps) (hx : h0.enterAmid w t this steps = .ok s) :
    ∃ own, h0.receiver w this = .ok own ∧ AmidInv w t keep h0 e own (amidArgs steps) s := by
  obtain ⟨own, h1, h2⟩ := Res.bind_eq_ok.1 hx
  exact ⟨own, h1, by simpa using (AmidInv.start hi he h1).run ho h2⟩

end Jnivm
