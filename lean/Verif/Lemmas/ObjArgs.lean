import Verif.Lemmas.Refs
import Verif.Lemmas.HeapObjs
import Verif.Spec.ObjArgs
/-! Conversion of object arguments, and the objects that temporaries own. -/
namespace Jnivm
open Spec
namespace Heap

/-- A step before objects are released changes no denotation. -/
theorem Step.denotes {t : Nat} {h h' : Heap} (s : Step t h h') (hp : h.Pre) {r x : Option Nat}
    (hd : Denotes h r x) : Denotes h' r x := by
  induction hd with
  | null => exact .null
  | direct ho hk =>
    obtain ⟨o', ho', hs, _⟩ := s.live _ _ ho
    refine .direct ho' (isWrapper_iff.1 ?_)
    rw [hs.wrapper]; exact isWrapper_iff.2 hk
  | global ho hk _ ih =>
    obtain ⟨o', ho', hs, _⟩ := s.live _ _ ho
    exact .global ho' (by rw [hk] at hs; exact hs.global) ih
  | weak ho hk _ ih =>
    obtain ⟨o', ho', hs, _⟩ := s.live _ _ ho
    exact .weak ho' (by rw [hk] at hs; exact hs.weak) ih
  | cleared ho hk hl =>
    obtain ⟨o', ho', hs, _⟩ := s.live _ _ ho
    refine .cleared ho' (by rw [hk] at hs; exact hs.weak) ?_
    rintro ⟨x, hx⟩
    have hlt : _ < h.next := Nat.lt_trans (hp.target _ _ _ ho (.inl hk)).1 (hp.bound _ _ ho)
    cases hn : h.objs _ with
    | none => rw [s.fresh _ hlt hn] at hx; cases hx
    | some y => exact hl ⟨y, hn⟩

theorem Step.denotes_iff {t : Nat} {h h' : Heap} (s : Step t h h') (hp : h.Pre) {r x : Option Nat}
    (hv : Valid h r) : Denotes h' r x ↔ Denotes h r x := by
  refine ⟨fun hd => ?_, s.denotes hp⟩
  obtain ⟨y, _, hy'⟩ := denote_total hp hv
  rw [denotes_fun hd (s.denotes hp hy')]; exact hy'

theorem Step.valid {t : Nat} {h h' : Heap} (s : Step t h h') {r : Option Nat} (hv : Valid h r) :
    Valid h' r := by
  cases r with
  | none => exact hv
  | some i => exact s.live' hv

variable {w : CppTypes}

theorem unpack_cases {h : Heap} (hp : h.Pre) {c : CppClass} {r : Option Nat} (hv : Valid h r) :
    (∃ o, h.unpack w c r = .ok o ∧ DenotesA w h c r o) ∨
      ∃ i, h.unpack w c r = .throws .badCast ∧ Denotes h r (some i) ∧ w.isa i c = false := by
  obtain ⟨o, ho, hd⟩ := denote_total hp hv
  unfold unpack
  rw [ho, Res.bind_ok]
  cases o with
  | none => exact .inl ⟨none, rfl, hd, fun _ h => nomatch h⟩
  | some i =>
    cases hw : w.isa i c with
    | true => exact .inl ⟨some i, by simp [hw], hd, fun j hj => by cases hj; exact hw⟩
    | false => exact .inr ⟨i, by simp [hw], hd, hw⟩

theorem staticClass_ok {h : Heap} (hp : h.Pre) {c : CppClass} :
    ∀ k, h.staticClass w c = some k → ∃ n, (n, k) ∈ h.classes := hp.typeClass?

theorem asPointer_ok {h : Heap} (hp : h.Pre) {t : Nat} {e : Env} (he : h.envs t = some e) {c : CppClass}
    {f : Option Nat → ObjArg} {o : Option Nat} (hl : ∀ i, o = some i → h.Live i) :
    ∃ h', h.asPointer w t c f o = .ok (h', f o) ∧ Step t h h' ∧ Pushed t o.toList h h' := by
  obtain ⟨h', hx⟩ := toJNI?_exists hp he hl (staticClass_ok (w := w) hp (c := c))
  exact ⟨h', by rw [asPointer, hx, Res.bind_ok], (hp.toJNI? (staticClass_ok hp) hx).1, (pushed_toJNI? hx).2⟩

theorem denotesA_live {h : Heap} (hp : h.Pre) {c : CppClass} {r o : Option Nat} (hd : DenotesA w h c r o) :
    ∀ i, o = some i → h.Live i := by
  rintro i rfl
  obtain ⟨o, ho, _⟩ := denotes_ok hp hd.1
  exact ⟨o, ho⟩

theorem convert_cases {h : Heap} (hp : h.Pre) {t : Nat} {e : Env} (he : h.envs t = some e)
    {r : Option Nat} (hv : Valid h r) (p : ObjParam) :
    (∃ h' x, h.convert w t r p = .ok (h', x) ∧ Passed w h p r x ∧ Step t h h' ∧
      Pushed t (newLocals p x) h h') ∨
    ∃ ex, h.convert w t r p = .throws ex ∧ Refused w h p r ex := by
  cases p with
  | jobject => exact .inl ⟨h, _, rfl, .jobject, Step.refl t hp, Pushed.refl t h⟩
  | shared c =>
    rcases unpack_cases (w := w) hp (c := c) hv with ⟨o, hx, hd⟩ | ⟨i, hx, hd, hw⟩
    · exact .inl ⟨h, _, by rw [convert, hx, Res.bind_ok], .shared hd, Step.refl t hp, Pushed.refl t h⟩
    · exact .inr ⟨_, by rw [convert, hx]; rfl, .type (c := c) (by simp) hd hw⟩
  | pointer c =>
    rcases unpack_cases (w := w) hp (c := c) hv with ⟨o, hx, hd⟩ | ⟨i, hx, hd, hw⟩
    · obtain ⟨h', h1, h2, h3⟩ := asPointer_ok (w := w) hp he (c := c) (f := .pointer) (denotesA_live hp hd)
      exact .inl ⟨h', _, by rw [convert, hx, Res.bind_ok, h1], .pointer hd, h2, h3⟩
    · exact .inr ⟨_, by rw [convert, hx]; rfl, .type (c := c) (by simp) hd hw⟩
  | jhandle c =>
    rcases unpack_cases (w := w) hp (c := c) hv with ⟨o, hx, hd⟩ | ⟨i, hx, hd, hw⟩
    · obtain ⟨h', h1, h2, h3⟩ := asPointer_ok (w := w) hp he (c := c) (f := .handle) (denotesA_live hp hd)
      exact .inl ⟨h', _, by rw [convert, hx, Res.bind_ok, h1], .jhandle hd, h2, h3⟩
    · exact .inr ⟨_, by rw [convert, hx]; rfl, .type (c := c) (by simp) hd hw⟩
  | ref c =>
    rcases unpack_cases (w := w) hp (c := c) hv with ⟨o, hx, hd⟩ | ⟨i, hx, hd, hw⟩
    · cases o with
      | none => exact .inr ⟨_, by rw [convert, hx, Res.bind_ok]; rfl, .null (c := c) (by simp) hd.1⟩
      | some i =>
        exact .inl ⟨h, _, by rw [convert, hx, Res.bind_ok]; rfl, .ref hd, Step.refl t hp, Pushed.refl t h⟩
    · exact .inr ⟨_, by rw [convert, hx]; rfl, .type (c := c) (by simp) hd hw⟩
  | value c =>
    rcases unpack_cases (w := w) hp (c := c) hv with ⟨o, hx, hd⟩ | ⟨i, hx, hd, hw⟩
    · cases o with
      | none => exact .inr ⟨_, by rw [convert, hx, Res.bind_ok]; rfl, .null (c := c) (by simp) hd.1⟩
      | some i =>
        exact .inl ⟨h, _, by rw [convert, hx, Res.bind_ok]; rfl, .value hd, Step.refl t hp, Pushed.refl t h⟩
    · exact .inr ⟨_, by rw [convert, hx]; rfl, .type (c := c) (by simp) hd hw⟩

theorem denotesA_fun {h : Heap} {c : CppClass} {r o o' : Option Nat} (h1 : DenotesA w h c r o)
    (h2 : DenotesA w h c r o') : o = o' := denotes_fun h1.1 h2.1

/-- A parameter gets one value only. -/
theorem _root_.Spec.Passed.unique {h : Heap} {p : ObjParam} {r : Option Nat} {x y : ObjArg}
    (h1 : Passed w h p r x) (h2 : Passed w h p r y) : x = y := by
  cases h1 with
  | jobject => cases h2; rfl
  | shared a => cases h2 with | shared b => rw [denotesA_fun a b]
  | pointer a => cases h2 with | pointer b => rw [denotesA_fun a b]
  | jhandle a => cases h2 with | jhandle b => rw [denotesA_fun a b]
  | ref a => cases h2 with | ref b => cases denotesA_fun a b; rfl
  | value a => cases h2 with | value b => cases denotesA_fun a b; rfl

theorem _root_.Spec.PassedAll.unique {h : Heap} {as : List (ObjParam × Option Nat)} {xs ys : List ObjArg}
    (h1 : PassedAll w h as xs) (h2 : PassedAll w h as ys) : xs = ys := by
  induction h1 generalizing ys with
  | nil => cases h2; rfl
  | cons a _ ih => cases h2 with | cons b h2 => rw [a.unique b, ih h2]

/-- What is refused is not passed. -/
theorem _root_.Spec.Refused.not_passed {h : Heap} {p : ObjParam} {r : Option Nat} {x : ObjArg} {ex : Exn}
    (h1 : Refused w h p r ex) (h2 : Passed w h p r x) : False := by
  cases h1 with
  | @type c _ i hm hd hw =>
    simp only [List.mem_cons, List.not_mem_nil, or_false] at hm
    have key : ∀ {o}, DenotesA w h c r o → False := fun {o} ha => by
      cases denotes_fun hd ha.1
      rw [ha.2 i rfl] at hw; cases hw
    rcases hm with rfl | rfl | rfl | rfl | rfl <;> cases h2 <;> exact key (by assumption)
  | @null _ c hm hd =>
    simp only [List.mem_cons, List.not_mem_nil, or_false] at hm
    rcases hm with rfl | rfl
    · cases h2 with | ref ha => cases denotes_fun hd ha.1
    · cases h2 with | value ha => cases denotes_fun hd ha.1

theorem denotesA_step {t : Nat} {h h' : Heap} (s : Step t h h') (hp : h.Pre) {c : CppClass}
    {r o : Option Nat} (hv : Valid h r) : DenotesA w h' c r o ↔ DenotesA w h c r o :=
  and_congr (s.denotes_iff hp hv) Iff.rfl

theorem passed_step {t : Nat} {h h' : Heap} (s : Step t h h') (hp : h.Pre) {p : ObjParam}
    {r : Option Nat} {x : ObjArg} (hv : Valid h r) : Passed w h' p r x ↔ Passed w h p r x := by
  constructor
  · intro h1
    cases h1 with
    | jobject => exact .jobject
    | shared a => exact .shared ((denotesA_step s hp hv).1 a)
    | pointer a => exact .pointer ((denotesA_step s hp hv).1 a)
    | jhandle a => exact .jhandle ((denotesA_step s hp hv).1 a)
    | ref a => exact .ref ((denotesA_step s hp hv).1 a)
    | value a => exact .value ((denotesA_step s hp hv).1 a)
  · intro h1
    cases h1 with
    | jobject => exact .jobject
    | shared a => exact .shared ((denotesA_step s hp hv).2 a)
    | pointer a => exact .pointer ((denotesA_step s hp hv).2 a)
    | jhandle a => exact .jhandle ((denotesA_step s hp hv).2 a)
    | ref a => exact .ref ((denotesA_step s hp hv).2 a)
    | value a => exact .value ((denotesA_step s hp hv).2 a)

theorem refused_step {t : Nat} {h h' : Heap} (s : Step t h h') (hp : h.Pre) {p : ObjParam}
    {r : Option Nat} {ex : Exn} (hv : Valid h r) (h1 : Refused w h' p r ex) : Refused w h p r ex := by
  cases h1 with
  | type hm hd hw => exact .type hm ((s.denotes_iff hp hv).1 hd) hw
  | null hm hd => exact .null hm ((s.denotes_iff hp hv).1 hd)

theorem convertAll_cases {as : List (ObjParam × Option Nat)} {h : Heap} (hp : h.Pre) {t : Nat} {e : Env}
    (he : h.envs t = some e) (hv : ∀ a ∈ as, Valid h a.2) :
    (∃ h' xs, convertAll w t h as = .ok (h', xs) ∧ PassedAll w h as xs ∧ Step t h h' ∧
      Pushed t (allLocals as xs) h h') ∨
    ∃ pre p r post ex, as = pre ++ (p, r) :: post ∧ convertAll w t h as = .throws ex ∧
      Refused w h p r ex ∧ ∀ a ∈ pre, ∃ x, Passed w h a.1 a.2 x := by
  induction as generalizing h e with
  | nil => exact .inl ⟨h, [], rfl, .nil, Step.refl t hp, Pushed.refl t h⟩
  | cons a as ih =>
    obtain ⟨p, r⟩ := a
    have hvr : Valid h r := hv (p, r) List.mem_cons_self
    rcases convert_cases (w := w) hp he hvr p with ⟨h1, x, hx, hpx, s, hpu⟩ | ⟨ex, hx, hrf⟩
    · have hv1 : ∀ a ∈ as, Valid h a.2 := fun a ha => hv a (List.mem_cons_of_mem _ ha)
      rcases ih s.pre (hpu.env e he) (fun a ha => s.valid (hv1 a ha)) with
        ⟨h2, xs, hxs, hps, s2, hpu2⟩ | ⟨pre, q, r', post, ex, has, hxs, hrf, hpre⟩
      · refine .inl ⟨h2, x :: xs, by rw [convertAll, hx, Res.bind_ok]; simp only [hxs]; rfl, .cons hpx ?_,
          s.trans s2, hpu.trans hpu2⟩
        clear ih hxs hpu2 s2
        induction hps with
        | nil => exact .nil
        | cons h3 _ ih =>
          refine .cons ((passed_step s hp (hv1 _ List.mem_cons_self)).1 h3) (ih ?_ ?_)
          · intro a ha
            rcases List.mem_cons.1 ha with rfl | ha
            · exact hvr
            · exact hv1 a (List.mem_cons_of_mem _ ha)
          · exact fun a ha => hv1 a (List.mem_cons_of_mem _ ha)
      · subst has
        refine .inr ⟨(p, r) :: pre, q, r', post, ex, rfl, ?_, ?_, fun a ha => ?_⟩
        · rw [convertAll, hx, Res.bind_ok]; simp only [hxs]; rfl
        · exact refused_step s hp (hv1 (q, r') (by simp)) hrf
        · rcases List.mem_cons.1 ha with rfl | ha
          · exact ⟨x, hpx⟩
          · obtain ⟨y, hy⟩ := hpre a ha
            exact ⟨y, (passed_step s hp (hv1 a (List.mem_append_left _ ha))).1 hy⟩
    · exact .inr ⟨[], p, r, as, ex, rfl, by rw [convertAll, hx]; rfl, hrf, fun _ h => nomatch h⟩

/-! ### Temporaries -/

theorem Pre.hold {h : Heap} (hp : h.Pre) {os : List Nat} (hl : ∀ i ∈ os, h.Live i) : (h.hold os).Pre := by
  refine ⟨hp.bound, fun i hi => ?_, hp.edges, hp.target, hp.thread, hp.frames, hp.free, hp.eid, hp.eidInj,
    fun n c hc => ⟨List.mem_append_right _ (hp.classes n c hc).1, (hp.classes n c hc).2⟩, hp.cls⟩
  rcases mem_roots.1 hi with hg | hg | hg
  · exact hp.roots i (mem_roots.2 (.inl hg))
  · rcases List.mem_append.1 hg with hg | hg
    · exact hl i hg
    · exact hp.roots i (mem_roots.2 (.inr (.inl hg)))
  · exact hp.roots i (mem_roots.2 (.inr (.inr hg)))

theorem foldl_erase (os rest : List Nat) : os.foldl (fun l i => l.erase i) (os ++ rest) = rest := by
  induction os with
  | nil => rfl
  | cons i os ih => simp only [List.cons_append, List.foldl_cons, List.erase_cons_head]; exact ih

/-- The objects `os` are owned by temporaries, all other entries belong to the tables of the VM. -/
structure Holding (os : List Nat) (h : Heap) : Prop where
  pinned : ∃ rest, h.pinned = os ++ rest ∧ ∀ n c, (n, c) ∈ h.classes → c ∈ rest

theorem Holding.mono {os : List Nat} {h h' : Heap} (x : Holding os h) (y : Pins h h') : Holding os h' := by
  obtain ⟨rest, h1, h2⟩ := x.pinned
  obtain ⟨l, h3, h4, _⟩ := y
  refine ⟨rest ++ l, by rw [h3, h1, List.append_assoc], fun n c hc => ?_⟩
  rcases h4 n c hc with hc | hc
  · exact List.mem_append_left _ (h2 n c hc)
  · exact List.mem_append_right _ hc

theorem pins_run {h h' : Heap} (hp : h.Pre) {t : Nat} {op : HeapOp} {out : Out}
    (hx : op.run h t = .ok (h', out)) : Pins h h' := by
  obtain ⟨h1, hx1, rfl⟩ := run_ok hx
  exact (step_exec hp hx1).pinned.trans (Pins.of_eq (collect_rest _).pinned (collect_rest _).classes)

theorem pins_runHeap {ops : List (Nat × HeapOp)} {h h' : Heap} (hi : h.Inv)
    (hx : runHeap h ops = .ok h') : Pins h h' := by
  induction ops generalizing h with
  | nil => cases hx; exact Pins.of_eq rfl rfl
  | cons x ops ih =>
    obtain ⟨t, op⟩ := x
    obtain ⟨⟨h1, out⟩, hx1, hx2⟩ := Res.bind_eq_ok.1 hx
    exact (pins_run hi.toPre hx1).trans (ih (hi.run hx1) hx2)

theorem Pre.holding {h : Heap} (hp : h.Pre) (os : List Nat) : Holding os (h.hold os) :=
  ⟨h.pinned, rfl, fun n c hc => (hp.classes n c hc).1⟩

theorem Holding.collect {os : List Nat} {h : Heap} (x : Holding os h) : Holding os h.collect :=
  x.mono (Pins.of_eq (collect_rest h).pinned (collect_rest h).classes)

theorem Pre.letGo {h : Heap} (hp : h.Pre) {os : List Nat} (x : Holding os h) : (h.letGo os).Pre := by
  obtain ⟨rest, h1, h2⟩ := x.pinned
  have he : (h.letGo os).pinned = rest := by simp only [Heap.letGo, h1, foldl_erase]
  refine ⟨hp.bound, fun i hi => ?_, hp.edges, hp.target, hp.thread, hp.frames, hp.free, hp.eid, hp.eidInj,
    fun n c hc => ⟨by rw [he]; exact h2 n c hc, (hp.classes n c hc).2⟩, hp.cls⟩
  rcases mem_roots.1 hi with hg | hg | hg
  · exact hp.roots i (mem_roots.2 (.inl hg))
  · rw [he] at hg
    exact hp.roots i (mem_roots.2 (.inr (.inl (by rw [h1]; exact List.mem_append_right _ hg))))
  · exact hp.roots i (mem_roots.2 (.inr (.inr hg)))

theorem Holding.live {os : List Nat} {h : Heap} (x : Holding os h) (hp : h.Pre) {i : Nat} (hi : i ∈ os) :
    h.Live i := by
  obtain ⟨rest, h1, _⟩ := x.pinned
  exact hp.roots i (mem_roots.2 (.inr (.inl (by rw [h1]; exact List.mem_append_left _ hi))))

/-! ### Whole calls -/

/-- The new local reference is in the frame of a thread that has an environment. -/
theorem toJNI_local {h h' : Heap} (hp : h.Pre) {t i : Nat} {s : Option Nat} (hx : h.toJNI t s i = .ok h') :
    HasLocal h' t i := by
  have henv : ∃ e, h.envs t = some e := by
    cases he : h.envs t with
    | some e => exact ⟨e, rfl⟩
    | none =>
      exfalso
      unfold Heap.toJNI at hx
      cases ho : h.objs i with
      | none => simp [ho] at hx
      | some o =>
        simp only [ho] at hx
        have he' : (h.setObj i { o with cls := s }).envs t = none := he
        split at hx
        · simp [Heap.pushLocal, Heap.env, he', Res.bind] at hx
        · simp [Heap.pushLocal, Heap.env, he, Res.bind] at hx
  obtain ⟨e, he⟩ := henv
  refine ⟨{ e with frames := addFront [i] e.frames }, (pushed_toJNI hx).env e he, ?_⟩
  have hne := hp.frames t e he
  cases hf : e.frames with
  | nil => exact absurd hf hne
  | cons f fs => exact ⟨f ++ [i], by simp [addFront], by simp⟩

theorem hasLocal_end {h : Heap} {os : List Nat} {t i : Nat} (hl : HasLocal h t i) :
    HasLocal (h.letGo os).collect t i := by
  obtain ⟨e, he, hf⟩ := hl
  exact ⟨e, by rw [(collect_rest _).envs]; exact he, hf⟩

theorem hasLocal_live {h : Heap} (hi : h.Inv) {t i : Nat} (hl : HasLocal h t i) : Spec.Live h i :=
  hi.roots i ((root_iff hi.toPre).1 (.inr (.inr (.inl ⟨t, hl⟩))))

/-- More roots own more. -/
theorem allHeld_hold {h : Heap} (ha : h.AllHeld) (os : List Nat) : (h.hold os).AllHeld := by
  intro i o ho
  have := ha i o ho
  unfold held at this ⊢
  rw [Bool.or_eq_true] at this ⊢
  refine this.imp (fun hr => ?_) id
  rw [List.contains_iff_mem] at hr ⊢
  rcases mem_roots.1 hr with hg | hg | hg
  · exact mem_roots.2 (.inl hg)
  · exact mem_roots.2 (.inr (.inl (List.mem_append_right _ hg)))
  · exact mem_roots.2 (.inr (.inr hg))

theorem letGo_hold (h : Heap) (os : List Nat) : (h.hold os).letGo os = h := by
  simp only [letGo, hold, foldl_erase]

theorem unpack_live {h : Heap} (hp : h.Pre) {c : CppClass} {r o : Option Nat} (hx : h.unpack w c r = .ok o) :
    ∀ i, o = some i → h.Live i := by
  rintro i rfl
  obtain ⟨o, ho, hx⟩ := Res.bind_eq_ok.1 hx
  cases o with
  | none => cases hx
  | some j =>
    cases hw : w.isa j c with
    | false => simp [hw] at hx
    | true =>
      simp only [hw, if_true] at hx
      cases hx
      exact denote_live hp ho

theorem unpack_denotes {h : Heap} (hp : h.Pre) {c : CppClass} {r o : Option Nat}
    (hx : h.unpack w c r = .ok o) : DenotesA w h c r o := by
  obtain ⟨x, ho, hx⟩ := Res.bind_eq_ok.1 hx
  have hd := (denote_iff hp).1 ho
  cases x with
  | none => cases hx; exact ⟨hd, fun _ h => nomatch h⟩
  | some j =>
    cases hw : w.isa j c with
    | false => simp [hw] at hx
    | true =>
      simp only [hw, if_true] at hx
      cases hx
      exact ⟨hd, fun i hi => by cases hi; exact hw⟩

theorem asPointer_step {h h' : Heap} (hp : h.Pre) {t : Nat} {c : CppClass} {f : Option Nat → ObjArg}
    {o : Option Nat} {x : ObjArg} (hx : h.asPointer w t c f o = .ok (h', x)) :
    Step t h h' ∧ x = f o ∧ Pushed t o.toList h h' := by
  obtain ⟨⟨h1, o'⟩, hx1, hx2⟩ := Res.bind_eq_ok.1 hx
  obtain ⟨s, rfl⟩ := hp.toJNI? (staticClass_ok hp) hx1
  cases hx2
  exact ⟨s, rfl, (pushed_toJNI? hx1).2⟩

/-- Whatever the arguments are, a conversion that succeeds is a step, and what a temporary owns is
alive. -/
theorem convert_step {h h' : Heap} (hp : h.Pre) {t : Nat} {r : Option Nat} {p : ObjParam} {x : ObjArg}
    (hx : h.convert w t r p = .ok (h', x)) :
    Step t h h' ∧ Pushed t (newLocals p x) h h' ∧ ∀ i, x.owned = some i → h'.Live i := by
  cases p with
  | jobject => cases hx; exact ⟨Step.refl t hp, Pushed.refl t h, fun _ h => nomatch h⟩
  | shared c =>
    obtain ⟨o, h1, h2⟩ := Res.bind_eq_ok.1 hx
    cases h2
    exact ⟨Step.refl t hp, Pushed.refl t h, unpack_live hp h1⟩
  | pointer c =>
    obtain ⟨o, h1, h2⟩ := Res.bind_eq_ok.1 hx
    obtain ⟨s, rfl, hpu⟩ := asPointer_step hp h2
    exact ⟨s, hpu, fun _ h => nomatch h⟩
  | jhandle c =>
    obtain ⟨o, h1, h2⟩ := Res.bind_eq_ok.1 hx
    obtain ⟨s, rfl, hpu⟩ := asPointer_step hp h2
    exact ⟨s, hpu, fun _ h => nomatch h⟩
  | ref c =>
    obtain ⟨o, h1, h2⟩ := Res.bind_eq_ok.1 hx
    cases o with
    | none => cases h2
    | some i => cases h2; exact ⟨Step.refl t hp, Pushed.refl t h, fun _ h => nomatch h⟩
  | value c =>
    obtain ⟨o, h1, h2⟩ := Res.bind_eq_ok.1 hx
    cases o with
    | none => cases h2
    | some i => cases h2; exact ⟨Step.refl t hp, Pushed.refl t h, fun _ h => nomatch h⟩

theorem convertAll_step {as : List (ObjParam × Option Nat)} {h h' : Heap} (hp : h.Pre) {t : Nat}
    {xs : List ObjArg} (hx : convertAll w t h as = .ok (h', xs)) :
    Step t h h' ∧ Pushed t (allLocals as xs) h h' ∧ ∀ i ∈ xs.filterMap ObjArg.owned, h'.Live i := by
  induction as generalizing h xs with
  | nil => cases hx; exact ⟨Step.refl t hp, Pushed.refl t _, fun _ h => nomatch h⟩
  | cons a as ih =>
    obtain ⟨p, r⟩ := a
    obtain ⟨⟨h1, x⟩, hx1, hx2⟩ := Res.bind_eq_ok.1 hx
    dsimp only at hx2
    obtain ⟨⟨h2, ys⟩, hx2', hx3⟩ := Res.bind_eq_ok.1 hx2
    cases hx3
    obtain ⟨s, hpu, hl⟩ := convert_step hp hx1
    obtain ⟨s2, hpu2, hl2⟩ := ih s.pre hx2'
    refine ⟨s.trans s2, hpu.trans hpu2, fun i hi => ?_⟩
    obtain ⟨y, hy, hyi⟩ := List.mem_filterMap.1 hi
    rcases List.mem_cons.1 hy with rfl | hy
    · exact s2.live' (hl i hyi)
    · exact hl2 i (List.mem_filterMap.2 ⟨y, hy, hyi⟩)

theorem receiver_live {h : Heap} (hp : h.Pre) {this : Option (CppClass × Option Nat)} {self : List Nat}
    (hx : h.receiver w this = .ok self) : ∀ i ∈ self, h.Live i := by
  cases this with
  | none => cases hx; exact fun _ h => nomatch h
  | some cr =>
    obtain ⟨c, r⟩ := cr
    obtain ⟨o, h1, h2⟩ := Res.bind_eq_ok.1 hx
    cases o with
    | none => cases h2
    | some j =>
      cases h2
      intro i hi
      rw [List.mem_singleton.1 hi]
      exact unpack_live hp h1 j rfl

theorem hookEnter_ok {h h1 : Heap} (hp : h.Pre) {t : Nat} {this : Option (CppClass × Option Nat)}
    {as : List (ObjParam × Option Nat)} {temps : List Nat} {xs : List ObjArg}
    (hx : h.hookEnter w t this as = .ok (h1, temps, xs)) :
    ∃ self h2, h.receiver w this = .ok self ∧ convertAll w t h as = .ok (h2, xs) ∧
      temps = self ++ xs.filterMap ObjArg.owned ∧ h1 = (h2.hold temps).collect ∧
      Step t h h2 ∧ Pushed t (allLocals as xs) h h2 ∧ h1.Inv ∧ Holding temps h1 := by
  obtain ⟨self, hs, hx⟩ := Res.bind_eq_ok.1 hx
  obtain ⟨⟨h2, ys⟩, hc, hx⟩ := Res.bind_eq_ok.1 hx
  cases hx
  obtain ⟨s, hpu, hl⟩ := convertAll_step hp hc
  have hlive : ∀ i ∈ self ++ xs.filterMap ObjArg.owned, h2.Live i := by
    intro i hi
    rcases List.mem_append.1 hi with hi | hi
    · exact s.live' (receiver_live hp hs i hi)
    · exact hl i hi
  exact ⟨self, h2, hs, hc, rfl, rfl, s, hpu, (s.pre.hold hlive).collect, (s.pre.holding _).collect⟩

theorem copyOf_ok {h h' : Heap} (hp : h.Pre) (t : Nat) {o : Option Nat} {k : Nat}
    (hx : h.copyOf o = .ok (h', k)) : Step t h h' ∧ k = h.next ∧ h'.next = h.next + 1 ∧
      (∃ cls, h' = (h.alloc ⟨.plain, cls⟩).1 ∧ cls = o.bind fun i => (h.objs i).bind Obj.cls) := by
  cases o with
  | none =>
    cases hx
    exact ⟨hp.alloc t (by simp [Kind.edges]) (by simp) (by simp), rfl, rfl, none, rfl, rfl⟩
  | some i =>
    unfold copyOf at hx
    cases ho : h.objs i with
    | none => simp [ho] at hx
    | some o =>
      simp only [ho] at hx
      cases hx
      exact ⟨hp.alloc t (by simp [Kind.edges]) (by simp) (fun c hc => hp.cls i o c ho hc), rfl, rfl,
        o.cls, rfl, by simp [ho]⟩

theorem convertResult_step {h h' : Heap} (hp : h.Pre) {t : Nat} {ret : ObjRet} {r : Option Nat}
    (hx : h.convertResult w t ret = .ok (h', r)) : Step t h h' := by
  cases ret with
  | void => cases hx; exact Step.refl t hp
  | jobject r => cases hx; exact Step.refl t hp
  | shared c o => exact (hp.toJNI? (staticClass_ok hp) hx).1
  | value c o =>
    obtain ⟨⟨h1, k⟩, hx1, hx2⟩ := Res.bind_eq_ok.1 hx
    have s := (copyOf_ok hp t hx1).1
    exact s.trans (s.pre.toJNI? (staticClass_ok s.pre) hx2).1

theorem hookLeave_ok {h h' : Heap} (hi : h.Inv) {t : Nat} {temps : List Nat} (hh : Holding temps h)
    {ret : ObjRet} {r : Option Nat} (hx : h.hookLeave w t temps ret = .ok (h', r)) :
    ∃ h1 h2, h1 = (h.letGo temps |>.hold ret.owned).collect ∧ h1.Inv ∧ Holding ret.owned h1 ∧
      (∀ i ∈ ret.owned, h.Live i) ∧
      h1.convertResult w t ret = .ok (h2, r) ∧ Step t h1 h2 ∧ h' = (h2.letGo ret.owned).collect ∧
      (h2.letGo ret.owned).Pre ∧ h'.Inv := by
  unfold hookLeave at hx
  split at hx
  · next ha =>
    obtain ⟨⟨h2, r'⟩, hx1, hx2⟩ := Res.bind_eq_ok.1 hx
    cases hx2
    have hl : ∀ i ∈ ret.owned, h.Live i := fun i hm => by
      have := List.all_eq_true.1 ha i hm
      obtain ⟨o, ho⟩ := Option.isSome_iff_exists.1 this
      exact ⟨o, ho⟩
    have hp1 := hi.toPre.letGo hh
    have hp2 : (h.letGo temps |>.hold ret.owned).Pre := hp1.hold hl
    have hh1 := (hp1.holding ret.owned).collect
    have s := convertResult_step hp2.collect.toPre hx1
    have hp3 := s.pre.letGo (hh1.mono s.pinned)
    exact ⟨_, h2, rfl, hp2.collect, hh1, hl, hx1, s, rfl, hp3, hp3.collect⟩
  · cases hx

theorem Inv.hookCall {h h' : Heap} (hi : h.Inv) {t : Nat} {c : ObjCall} {r : Option Nat}
    (hx : h.hookCall w t c = .ok (h', r)) : h'.Inv := by
  obtain ⟨⟨h1, temps, xs⟩, hx1, hx2⟩ := Res.bind_eq_ok.1 hx
  obtain ⟨h2, hx2, hx3⟩ := Res.bind_eq_ok.1 hx2
  obtain ⟨_, _, _, _, _, _, _, _, hi1, hh1⟩ := hookEnter_ok hi.toPre hx1
  obtain ⟨_, _, _, _, _, _, _, _, _, _, hi'⟩ := hookLeave_ok (hi1.runHeap hx2) (hh1.mono (pins_runHeap hi1 hx2)) hx3
  exact hi'

end Heap

theorem _root_.Spec.HookReachable.inv {w : CppTypes} {h : Heap} (hr : HookReachable w h) : h.Inv := by
  induction hr with
  | initial => exact Heap.initial_inv
  | op _ hx ih => exact ih.run hx
  | hook _ hx ih => exact ih.hookCall hx

theorem _root_.Spec.HookReachable.of_heap {w : CppTypes} {h : Heap} (hr : HeapReachable h) :
    HookReachable w h := by
  obtain ⟨ops, hx⟩ := hr
  have key : ∀ {ops : List (Nat × HeapOp)} {a b : Heap}, HookReachable w a → runHeap a ops = .ok b →
      HookReachable w b := by
    intro ops
    induction ops with
    | nil => intro a b ha hx; cases hx; exact ha
    | cons x ops ih =>
      obtain ⟨t, op⟩ := x
      intro a b ha hx
      obtain ⟨⟨h1, out⟩, hx1, hx2⟩ := Res.bind_eq_ok.1 hx
      exact ih (.op ha hx1) hx2
  exact key .initial hx

end Jnivm
