import Verif.Spec.LocalFrame
import Verif.Props.Refs
/-!
Programs with `LocalFrame`: helper lemmas.
-/
namespace Jnivm
open Spec
open Heap hiding Live

theorem _root_.Spec.Thinned.refl (a : List (List Nat)) : Thinned a a := by
  induction a with
  | nil => exact .nil
  | cons f a ih => exact .cons (List.Sublist.refl f) ih

theorem _root_.Spec.Thinned.trans {a b c : List (List Nat)} (h1 : Thinned a b) (h2 : Thinned b c) :
    Thinned a c := by
  induction h1 generalizing c with
  | nil => exact h2
  | cons hs _ ih => cases h2 with | cons ht h2 => exact .cons (hs.trans ht) (ih h2)

theorem _root_.Spec.Thinned.ne {a b : List (List Nat)} (h : Thinned a b) (hb : b ≠ []) : a ≠ [] := by
  cases h with
  | nil => exact hb
  | cons _ _ => simp

theorem _root_.Spec.Thinned.mem {a b : List (List Nat)} (h : Thinned a b) {i : Nat} :
    (∃ f ∈ a, i ∈ f) → ∃ f ∈ b, i ∈ f := by
  induction h with
  | nil => exact id
  | cons hs _ ih =>
    rintro ⟨f, hf, hi⟩
    rcases List.mem_cons.1 hf with rfl | hf
    · exact ⟨_, List.mem_cons_self, hs.subset hi⟩
    · obtain ⟨g, hg, hi⟩ := ih ⟨f, hf, hi⟩
      exact ⟨g, List.mem_cons_of_mem _ hg, hi⟩

theorem thinned_erase (i : Nat) (a : List (List Nat)) : Thinned (eraseLocal i a) a := by
  induction a with
  | nil => exact .nil
  | cons f a ih =>
    rw [eraseLocal]
    split
    · exact .cons List.erase_sublist (.refl a)
    · exact .cons (List.Sublist.refl f) ih

/-- Missing references of an extended frame. -/
theorem thinned_addFront {a m : List (List Nat)} {l : List Nat} (h : Thinned a (addFront l m)) :
    ∃ l' b, a = addFront l' b ∧ Thinned b m := by
  cases m with
  | nil => cases h; exact ⟨[], [], rfl, .nil⟩
  | cons g m =>
    cases h with
    | cons hs h =>
      obtain ⟨f1, f2, rfl, h1, _⟩ := List.sublist_append_iff.1 hs
      exact ⟨f2, _ :: _, rfl, .cons h1 h⟩

theorem dropFront_addFront (l : List Nat) (a : List (List Nat)) : dropFront (addFront l a) = dropFront a := by
  match a with
  | [] => rfl
  | [_] => rfl
  | _ :: _ :: _ => rfl

/-- What a program does to the frames of its thread: references are added to the innermost frame and
references may be missing. -/
def Evolves (t : Nat) (h h' : Heap) : Prop :=
  ∀ e, h.envs t = some e → ∃ e' l m, h'.envs t = some e' ∧ e'.eid = e.eid ∧ Thinned m e.frames ∧
    e'.frames = addFront l m

/-- The same if no reference is deleted. -/
def EvolvesAll (t : Nat) (h h' : Heap) : Prop :=
  ∀ e, h.envs t = some e → ∃ e' l, h'.envs t = some e' ∧ e'.eid = e.eid ∧ e'.frames = addFront l e.frames

theorem Evolves.refl (t : Nat) (h : Heap) : Evolves t h h :=
  fun e he => ⟨e, [], e.frames, he, rfl, .refl _, (addFront_nil _).symm⟩

theorem EvolvesAll.refl (t : Nat) (h : Heap) : EvolvesAll t h h :=
  fun e he => ⟨e, [], he, rfl, (addFront_nil _).symm⟩

theorem Evolves.trans {t : Nat} {h h1 h2 : Heap} (a : Evolves t h h1) (b : Evolves t h1 h2) :
    Evolves t h h2 := by
  intro e he
  obtain ⟨e1, l1, m1, he1, hid1, ht1, hf1⟩ := a e he
  obtain ⟨e2, l2, m2, he2, hid2, ht2, hf2⟩ := b e1 he1
  rw [hf1] at ht2
  obtain ⟨l', b, rfl, hb⟩ := thinned_addFront ht2
  exact ⟨e2, l' ++ l2, b, he2, hid2.trans hid1, hb.trans ht1, by rw [hf2, addFront_addFront]⟩

theorem EvolvesAll.trans {t : Nat} {h h1 h2 : Heap} (a : EvolvesAll t h h1) (b : EvolvesAll t h1 h2) :
    EvolvesAll t h h2 := by
  intro e he
  obtain ⟨e1, l1, he1, hid1, hf1⟩ := a e he
  obtain ⟨e2, l2, he2, hid2, hf2⟩ := b e1 he1
  exact ⟨e2, l1 ++ l2, he2, hid2.trans hid1, by rw [hf2, hf1, addFront_addFront]⟩

/-- One call. -/
theorem call_evolves {h h' : Heap} (hr : HeapReachable h) {t u : Nat} {op : HeapOp} {x : Option Exn}
    (hs : Structured t u op) (hx : h.callStmt t u op = .ok (h', x)) :
    HeapReachable h' ∧ Evolves t h h' ∧ (NoDelete t u op → EvolvesAll t h h') := by
  unfold Heap.callStmt at hx
  split at hx
  · rename_i h1 out hrun
    injection hx with hx; injection hx with hx1 _; subst hx1
    have hp := hr.inv.toPre
    refine ⟨hr.step hrun, ?_⟩
    by_cases hu : u = t
    · subst hu
      obtain ⟨hd, hpu, hpo⟩ := hs rfl
      have key : ∀ e, h.envs u = some e → ∃ e', h1.envs u = some e' ∧ e'.eid = e.eid ∧
          FrameEffect h e e'.frames out op := fun e he => Heap.effect_run hp he hrun hd
      constructor
      · intro e he
        obtain ⟨e', he', hid, heff⟩ := key e he
        by_cases h3 : ∃ r, op = .deleteLocalRef r
        · obtain ⟨r, rfl⟩ := h3
          obtain ⟨y, _, hf⟩ := heff
          cases y with
          | none => exact ⟨e', [], e.frames, he', hid, .refl _, by rw [addFront_nil]; exact hf⟩
          | some i => exact ⟨e', [], _, he', hid, thinned_erase i _, by rw [addFront_nil]; exact hf⟩
        · obtain ⟨l, hl⟩ := effect_add heff hpu hpo (fun r hr' => h3 ⟨r, hr'⟩)
          exact ⟨e', l, e.frames, he', hid, .refl _, hl⟩
      · intro hn e he
        obtain ⟨e', he', hid, heff⟩ := key e he
        obtain ⟨l, hl⟩ := effect_add heff hpu hpo (hn rfl)
        exact ⟨e', l, he', hid, hl⟩
    · have ho := (runStep hp hrun).others t (Ne.symm hu)
      have he : Evolves t h h1 := fun e he => ⟨e, [], e.frames, ho.trans he, rfl, .refl _, (addFront_nil _).symm⟩
      exact ⟨he, fun _ e he => ⟨e, [], ho.trans he, rfl, (addFront_nil _).symm⟩⟩
  · injection hx with hx; injection hx with hx1 _; subst hx1
    exact ⟨hr, .refl t h, fun _ => .refl t h⟩
  · exact nomatch hx
  · exact nomatch hx

/-- The constructor on an attached thread. -/
theorem enter_attached {h : Heap} (hr : HeapReachable h) {t : Nat} {e : Env} (he : h.envs t = some e)
    (vm : Bool) : ∃ h1 e1, h.enterFrame t vm = .ok (h1, false) ∧ HeapReachable h1 ∧ h1.envs t = some e1 ∧
      e1.eid = e.eid ∧ e1.frames = [] :: e.frames := by
  have hrun : ∃ h1, HeapOp.pushLocalFrame.run h t = .ok (h1, .unit) := by
    rw [HeapOp.run, exec_of_body he, HeapOp.body, Heap.pushLocalFrame, Heap.env, he]
    cases hf : e.free <;> simp only [Res.bind_ok, hf, outUnit] <;> exact ⟨_, rfl⟩
  obtain ⟨h1, hrun⟩ := hrun
  have he1 := push_fresh hr he hrun
  exact ⟨h1, _, by rw [Heap.enterFrame, he]; simp only [hrun, Res.bind_ok], hr.step hrun, he1, rfl, rfl⟩

/-- The constructor on a thread that has to be attached. -/
theorem enter_detached {h : Heap} (hr : HeapReachable h) {t : Nat} (he : h.envs t = none) :
    ∃ h1 e1, h.enterFrame t true = .ok (h1, true) ∧ HeapReachable h1 ∧ h1.envs t = some e1 ∧
      e1.frames = [[], []] := by
  have hrun : HeapOp.attach.run h t = .ok ((h.attach t).1.collect, .env (h.attach t).2) := by
    simp [HeapOp.run, HeapOp.exec, HeapOp.needsEnv, HeapOp.body, Res.bind]
  have hr1 := hr.step hrun
  have he1 : ∃ e1, ((h.attach t).1.collect).envs t = some e1 ∧ e1.frames = [[]] := by
    rw [Heap.collect_envs]
    simp [Heap.attach, he, Heap.setEnv, Heap.newEnv]
  obtain ⟨e1, he1, hf1⟩ := he1
  obtain ⟨h2, e2, hx2, hr2, he2, _, hf2⟩ := enter_attached hr1 he1 true
  rw [Heap.enterFrame, he1] at hx2
  refine ⟨h2, e2, ?_, hr2, he2, by rw [hf2, hf1]⟩
  rw [Heap.enterFrame, he]
  simp only [if_true, hrun, Res.bind_ok]
  obtain ⟨⟨h3, o⟩, hx3, hx4⟩ := Res.bind_eq_ok.1 hx2
  injection hx4 with hx4; injection hx4 with hx4 _; subst hx4
  simp only [hx3, Res.bind_ok]

/-- What the constructor does if it returns. -/
theorem enterFrame_cases {h h1 : Heap} (hr : HeapReachable h) {t : Nat} {vm made : Bool}
    (hx : h.enterFrame t vm = .ok (h1, made)) : HeapReachable h1 ∧
      ((∃ e e1, h.envs t = some e ∧ made = false ∧ h1.envs t = some e1 ∧ e1.eid = e.eid ∧
        e1.frames = [] :: e.frames) ∨
      (h.envs t = none ∧ made = true ∧ ∃ e1, h1.envs t = some e1 ∧ e1.frames = [[], []])) := by
  cases he : h.envs t with
  | some e =>
    obtain ⟨h2, e1, hx2, hr2, he1, hid, hf⟩ := enter_attached hr he vm
    rw [hx] at hx2; injection hx2 with hx2; injection hx2 with h2 h3; subst h2 h3
    exact ⟨hr2, .inl ⟨e, e1, rfl, rfl, he1, hid, hf⟩⟩
  | none =>
    cases vm with
    | false => rw [Heap.enterFrame, he] at hx; exact nomatch hx
    | true =>
      obtain ⟨h2, e1, hx2, hr2, he1, hf⟩ := enter_detached hr he
      rw [hx] at hx2; injection hx2 with hx2; injection hx2 with h2 h3; subst h2 h3
      exact ⟨hr2, .inr ⟨rfl, rfl, e1, he1, hf⟩⟩

/-- The destructor returns. -/
theorem leave_ok {h : Heap} (hr : HeapReachable h) {t : Nat} {e : Env} (he : h.envs t = some e)
    (made : Bool) : ∃ h', h.leaveFrame t made = .ok h' ∧ HeapReachable h' ∧
      (made = true → h'.envs t = none) ∧
      (made = false → ∃ e', h'.envs t = some e' ∧ e'.eid = e.eid ∧ e'.frames = dropFront e.frames) := by
  have hp := hr.inv.toPre
  have hrun : ∃ h1, (HeapOp.popLocalFrame none).run h t = .ok (h1, .ref none) := by
    rw [HeapOp.run, exec_of_body he, HeapOp.body, Heap.popLocalFrame, Heap.env, he]
    obtain ⟨f, fs, hf⟩ := List.exists_cons_of_ne_nil (frames_nonempty hr he)
    simp only [Res.bind_ok, Heap.denote, hf]
    exact ⟨_, rfl⟩
  obtain ⟨h1, hrun⟩ := hrun
  have hr1 := hr.step hrun
  obtain ⟨e1, he1, hid, heff⟩ := Heap.effect_run hp he hrun (by simp)
  obtain ⟨x, hd, hf, _⟩ := heff
  have hx0 : x = none := by simpa [Heap.denote, eq_comm] using hd
  subst hx0
  rw [show (none : Option Nat).toList = [] from rfl, addFront_nil] at hf
  cases made with
  | false =>
    exact ⟨h1, by simp [Heap.leaveFrame, hrun, Res.bind_ok], hr1, fun h => (nomatch h),
      fun _ => ⟨e1, he1, hid, hf⟩⟩
  | true =>
    have hd : HeapOp.detach.run h1 t = .ok ((h1.detach t).collect, .unit) := by
      simp [HeapOp.run, HeapOp.exec, HeapOp.needsEnv, HeapOp.body, Res.bind]
    refine ⟨_, by simp only [Heap.leaveFrame, hrun, Res.bind_ok, hd, if_true], hr1.step hd, fun _ => ?_,
      fun h => (nomatch h)⟩
    rw [Heap.collect_envs]; simp [Heap.detach]

theorem thin_drop {m a : List (List Nat)} {f : List Nat} (h : Thinned m (f :: a)) (ha : a ≠ []) :
    Thinned (dropFront m) a := by
  cases h with
  | cons _ h => rw [dropFront_one (h.ne ha)]; exact h

mutual

theorem stmt_evolves {t : Nat} {h h' : Heap} (hr : HeapReachable h) {x : Option Exn} (s : FrameStmt)
    (hs : CallsIn (Structured t) s) (hx : FrameStmt.run t h s = .ok (h', x)) :
    HeapReachable h' ∧ Evolves t h h' ∧ (CallsIn (NoDelete t) s → EvolvesAll t h h') := by
  cases s with
  | call u op =>
    rw [FrameStmt.run] at hx
    exact call_evolves hr hs hx
  | raise e =>
    rw [FrameStmt.run] at hx
    injection hx with hx; injection hx with hx1 _; subst hx1
    exact ⟨hr, .refl t h, fun _ => .refl t h⟩
  | attempt body =>
    rw [FrameStmt.run] at hx
    obtain ⟨⟨h1, y⟩, hx1, hx2⟩ := Res.bind_eq_ok.1 hx
    injection hx2 with hx2; injection hx2 with hx2 _; subst hx2
    exact frames_evolve hr body hs hx1
  | frame vm body =>
    rw [FrameStmt.run] at hx
    split at hx
    · rename_i h1 made hent
      obtain ⟨⟨h2, y⟩, hx1, hx2⟩ := Res.bind_eq_ok.1 hx
      obtain ⟨h3, hx3, hx4⟩ := Res.bind_eq_ok.1 hx2
      injection hx4 with hx4; injection hx4 with hx4 _; subst hx4
      obtain ⟨hr1, hc⟩ := enterFrame_cases hr hent
      obtain ⟨hr2, hev, hall⟩ := frames_evolve hr1 body hs hx1
      rcases hc with ⟨e, e1, he, rfl, he1, hid1, hf1⟩ | ⟨he, rfl, e1, he1, hf1⟩
      · obtain ⟨e2, l, m, he2, hid2, ht, hf2⟩ := hev e1 he1
        obtain ⟨h4, hx4, hr4, _, hl⟩ := leave_ok hr2 he2 false
        rw [hx3] at hx4; injection hx4 with hx4; subst hx4
        obtain ⟨e3, he3, hid3, hf3⟩ := hl rfl
        have hne := frames_nonempty hr he
        refine ⟨hr4, fun e' he' => ?_, fun hn e' he' => ?_⟩
        · rw [he] at he'; injection he' with he'; subst he'
          rw [hf1] at ht
          exact ⟨e3, [], _, he3, hid3.trans (hid2.trans hid1), thin_drop ht hne,
            by rw [hf3, hf2, dropFront_addFront, addFront_nil]⟩
        · rw [he] at he'; injection he' with he'; subst he'
          obtain ⟨e2', l', he2', _, hf2'⟩ := hall hn e1 he1
          rw [he2] at he2'; injection he2' with he2'; subst he2'
          exact ⟨e3, [], he3, hid3.trans (hid2.trans hid1),
            by rw [hf3, hf2', dropFront_addFront, hf1, dropFront_one hne, addFront_nil]⟩
      · obtain ⟨e2, l, m, he2, _⟩ := hev e1 he1
        obtain ⟨h4, hx4, hr4, _⟩ := leave_ok hr2 he2 true
        rw [hx3] at hx4; injection hx4 with hx4; subst hx4
        exact ⟨hr4, fun e' he' => by rw [he] at he'; exact (nomatch he'),
          fun _ e' he' => by rw [he] at he'; exact (nomatch he')⟩
    · injection hx with hx; injection hx with hx1 _; subst hx1
      exact ⟨hr, .refl t h, fun _ => .refl t h⟩
    · exact nomatch hx
    · exact nomatch hx

theorem frames_evolve {t : Nat} {h h' : Heap} (hr : HeapReachable h) {x : Option Exn} (l : List FrameStmt)
    (hs : AllCalls (Structured t) l) (hx : runFrames t h l = .ok (h', x)) :
    HeapReachable h' ∧ Evolves t h h' ∧ (AllCalls (NoDelete t) l → EvolvesAll t h h') := by
  cases l with
  | nil =>
    rw [runFrames] at hx
    injection hx with hx; injection hx with hx1 _; subst hx1
    exact ⟨hr, .refl t h, fun _ => .refl t h⟩
  | cons s l =>
    rw [runFrames] at hx
    obtain ⟨⟨h1, y⟩, hx1, hx2⟩ := Res.bind_eq_ok.1 hx
    obtain ⟨hr1, hev1, hall1⟩ := stmt_evolves hr s hs.1 hx1
    cases y with
    | none =>
      obtain ⟨hr2, hev2, hall2⟩ := frames_evolve hr1 l hs.2 hx2
      exact ⟨hr2, hev1.trans hev2, fun hn => (hall1 hn.1).trans (hall2 hn.2)⟩
    | some e =>
      injection hx2 with hx2; injection hx2 with hx2 _; subst hx2
      exact ⟨hr1, hev1, fun hn => hall1 hn.1⟩

end

theorem leave_no_throw (h : Heap) (t : Nat) (made : Bool) (e : Exn) : h.leaveFrame t made ≠ .throws e := by
  have hpop : ∀ e, (HeapOp.popLocalFrame none).run h t ≠ .throws e := by
    intro e
    rw [HeapOp.run, HeapOp.exec]
    split
    · exact fun h => (nomatch h)
    · rw [HeapOp.body, Heap.popLocalFrame, Heap.env]
      cases h.envs t with
      | none => exact fun h => (nomatch h)
      | some e' =>
        simp only [Res.bind_ok, Heap.denote]
        cases e'.frames <;> exact fun h => (nomatch h)
  intro hx
  unfold Heap.leaveFrame at hx
  cases hr : (HeapOp.popLocalFrame none).run h t with
  | ok y =>
    rw [hr, Res.bind_ok] at hx
    cases made
    · exact nomatch hx
    · exact nomatch hx
  | throws e' => exact hpop e' hr
  | ub u => rw [hr] at hx; exact nomatch hx
  | diverges => rw [hr] at hx; exact nomatch hx

mutual

theorem stmt_no_throw (t : Nat) (h : Heap) (s : FrameStmt) (e : Exn) : FrameStmt.run t h s ≠ .throws e := by
  intro hx
  cases s with
  | call u op =>
    rw [FrameStmt.run, Heap.callStmt] at hx
    split at hx <;> exact nomatch hx
  | raise e' => rw [FrameStmt.run] at hx; exact nomatch hx
  | attempt body =>
    rw [FrameStmt.run] at hx
    cases hb : runFrames t h body with
    | throws e' => exact frames_no_throw t h body e' hb
    | _ => rw [hb] at hx; exact nomatch hx
  | frame vm body =>
    rw [FrameStmt.run] at hx
    split at hx
    · rename_i h1 made _
      cases hb : runFrames t h1 body with
      | throws e' => exact frames_no_throw t h1 body e' hb
      | ok y =>
        rw [hb, Res.bind_ok] at hx
        cases hl : y.1.leaveFrame t made with
        | throws e' => exact leave_no_throw _ _ _ _ hl
        | _ => simp only [hl] at hx; exact nomatch hx
      | _ => rw [hb] at hx; exact nomatch hx
    · exact nomatch hx
    · exact nomatch hx
    · exact nomatch hx

theorem frames_no_throw (t : Nat) (h : Heap) (l : List FrameStmt) (e : Exn) : runFrames t h l ≠ .throws e := by
  intro hx
  cases l with
  | nil => rw [runFrames] at hx; exact nomatch hx
  | cons s l =>
    rw [runFrames] at hx
    cases hs : FrameStmt.run t h s with
    | throws e' => exact stmt_no_throw t h s e' hs
    | ok y =>
      obtain ⟨h1, x⟩ := y
      rw [hs, Res.bind_ok] at hx
      cases x with
      | none => exact frames_no_throw t h1 l e hx
      | some e' => exact nomatch hx
    | _ => rw [hs] at hx; exact nomatch hx

end

theorem enter_others {h h1 : Heap} (hr : HeapReachable h) {t u : Nat} (hu : u ≠ t) {vm made : Bool}
    (hx : h.enterFrame t vm = .ok (h1, made)) : HeapReachable h1 ∧ h1.envs u = h.envs u := by
  unfold Heap.enterFrame at hx
  split at hx
  · obtain ⟨⟨h2, o⟩, hx1, hx2⟩ := Res.bind_eq_ok.1 hx
    injection hx2 with hx2; injection hx2 with hx2 _; subst hx2
    exact ⟨hr.step hx1, (runStep hr.inv.toPre hx1).others u hu⟩
  · split at hx
    · obtain ⟨⟨h2, o⟩, hx1, hx2⟩ := Res.bind_eq_ok.1 hx
      obtain ⟨⟨h3, o3⟩, hx3, hx4⟩ := Res.bind_eq_ok.1 hx2
      injection hx4 with hx4; injection hx4 with hx4 _; subst hx4
      have hr2 := hr.step hx1
      exact ⟨hr2.step hx3, ((runStep hr2.inv.toPre hx3).others u hu).trans
        ((runStep hr.inv.toPre hx1).others u hu)⟩
    · exact nomatch hx

theorem leave_others {h h1 : Heap} (hr : HeapReachable h) {t u : Nat} (hu : u ≠ t) {made : Bool}
    (hx : h.leaveFrame t made = .ok h1) : HeapReachable h1 ∧ h1.envs u = h.envs u := by
  unfold Heap.leaveFrame at hx
  obtain ⟨⟨h2, o⟩, hx1, hx2⟩ := Res.bind_eq_ok.1 hx
  have hr2 := hr.step hx1
  have ho := (runStep hr.inv.toPre hx1).others u hu
  dsimp only at hx2
  cases made with
  | false =>
    simp only [Bool.false_eq_true, if_false] at hx2
    injection hx2 with hx2; subst hx2
    exact ⟨hr2, ho⟩
  | true =>
    simp only [if_true] at hx2
    obtain ⟨⟨h3, o3⟩, hx3, hx4⟩ := Res.bind_eq_ok.1 hx2
    injection hx4 with hx4; subst hx4
    exact ⟨hr2.step hx3, ((runStep hr2.inv.toPre hx3).others u hu).trans ho⟩

mutual

theorem stmt_others {t u : Nat} (hu : u ≠ t) {h h' : Heap} (hr : HeapReachable h) {x : Option Exn}
    (s : FrameStmt) (hc : CallsIn (fun v _ => v ≠ u) s) (hx : FrameStmt.run t h s = .ok (h', x)) :
    HeapReachable h' ∧ h'.envs u = h.envs u := by
  cases s with
  | call v op =>
    rw [FrameStmt.run, Heap.callStmt] at hx
    split at hx
    · rename_i h1 o hrun
      injection hx with hx; injection hx with hx _; subst hx
      exact ⟨hr.step hrun, (runStep hr.inv.toPre hrun).others u (Ne.symm hc)⟩
    · injection hx with hx; injection hx with hx _; subst hx
      exact ⟨hr, rfl⟩
    · exact nomatch hx
    · exact nomatch hx
  | raise e =>
    rw [FrameStmt.run] at hx
    injection hx with hx; injection hx with hx _; subst hx
    exact ⟨hr, rfl⟩
  | attempt body =>
    rw [FrameStmt.run] at hx
    obtain ⟨⟨h1, y⟩, hx1, hx2⟩ := Res.bind_eq_ok.1 hx
    injection hx2 with hx2; injection hx2 with hx2 _; subst hx2
    exact frames_others hu hr body hc hx1
  | frame vm body =>
    rw [FrameStmt.run] at hx
    split at hx
    · rename_i h1 made hent
      obtain ⟨⟨h2, y⟩, hx1, hx2⟩ := Res.bind_eq_ok.1 hx
      obtain ⟨h3, hx3, hx4⟩ := Res.bind_eq_ok.1 hx2
      injection hx4 with hx4; injection hx4 with hx4 _; subst hx4
      obtain ⟨hr1, h1e⟩ := enter_others hr hu hent
      obtain ⟨hr2, h2e⟩ := frames_others hu hr1 body hc hx1
      obtain ⟨hr3, h3e⟩ := leave_others hr2 hu hx3
      exact ⟨hr3, h3e.trans (h2e.trans h1e)⟩
    · injection hx with hx; injection hx with hx _; subst hx
      exact ⟨hr, rfl⟩
    · exact nomatch hx
    · exact nomatch hx

theorem frames_others {t u : Nat} (hu : u ≠ t) {h h' : Heap} (hr : HeapReachable h) {x : Option Exn}
    (l : List FrameStmt) (hc : AllCalls (fun v _ => v ≠ u) l) (hx : runFrames t h l = .ok (h', x)) :
    HeapReachable h' ∧ h'.envs u = h.envs u := by
  cases l with
  | nil =>
    rw [runFrames] at hx
    injection hx with hx; injection hx with hx _; subst hx
    exact ⟨hr, rfl⟩
  | cons s l =>
    rw [runFrames] at hx
    obtain ⟨⟨h1, y⟩, hx1, hx2⟩ := Res.bind_eq_ok.1 hx
    obtain ⟨hr1, h1e⟩ := stmt_others hu hr s hc.1 hx1
    cases y with
    | none =>
      obtain ⟨hr2, h2e⟩ := frames_others hu hr1 l hc.2 hx2
      exact ⟨hr2, h2e.trans h1e⟩
    | some e =>
      injection hx2 with hx2; injection hx2 with hx2 _; subst hx2
      exact ⟨hr1, h1e⟩

end

end Jnivm
