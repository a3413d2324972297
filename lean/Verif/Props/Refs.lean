import Verif.Lemmas.Refs
/-!
Properties of local, global and weak references (C27 to C34).

All theorems hold for every heap that any history of calls by any number of threads can produce.
-/
namespace Jnivm
open Spec

/-! ## C27: local frames nest -/

/-- There is always at least one frame. -/
theorem frames_nonempty {h : Heap} (hr : HeapReachable h) {t : Nat} {e : Env}
    (he : h.envs t = some e) : e.frames ≠ [] := hr.inv.frames t e he

/-- Recycled frames carry no references. -/
theorem recycled_empty {h : Heap} (hr : HeapReachable h) {t : Nat} {e : Env}
    (he : h.envs t = some e) : ∀ f ∈ e.free, f = [] := hr.inv.free t e he

/-- Two threads, nested frames and a recycled frame. -/
def sampleFrames : List (Nat × HeapOp) :=
  [(0, .newObject none), (1, .attach), (1, .newObject none), (0, .pushLocalFrame),
    (0, .newObject none), (0, .pushLocalFrame), (0, .popLocalFrame (some 11))]

example : ∃ h e, HeapReachable h ∧ h.envs 0 = some e ∧ e.frames = [[11, 11], [9]] ∧
    e.free = [[]] := by
  obtain ⟨h, _, hr, hp⟩ := reachable_of (ops := sampleFrames)
    (p := fun h => (h.envs 0).any fun e => e.frames == [[11, 11], [9]] && e.free == [[]])
    (by decide +kernel)
  obtain ⟨e, he, hp⟩ := Option.any_eq_true _ _ |>.1 hp
  simp only [Bool.and_eq_true, beq_iff_eq] at hp
  exact ⟨h, e, hr, he, hp⟩

/-- A pushed frame is empty, it is taken from the recycled ones if there are any, and nothing else
changes in the environment. -/
theorem push_fresh {h h' : Heap} (hr : HeapReachable h) {t : Nat} {e : Env} {out : Out}
    (he : h.envs t = some e) (hx : HeapOp.pushLocalFrame.run h t = .ok (h', out)) :
    h'.envs t = some { e with frames := [] :: e.frames, free := e.free.tail } := by
  obtain ⟨e', he', _, heff⟩ := Heap.effect_run hr.inv.toPre he hx (by simp)
  obtain ⟨h1, hx1, rfl⟩ := Heap.run_ok hx
  have hb := (Heap.exec_ok hx1).1
  simp only [HeapOp.body, outUnit, Heap.pushLocalFrame, Heap.env, he, Res.bind_ok] at hb
  rw [Heap.collect_envs] at he' ⊢
  cases hf : e.free with
  | nil =>
    simp only [hf, Res.bind_ok] at hb
    injection hb with hb; injection hb with hb; subst hb
    simp only [Heap.setEnv, ↓reduceIte, Option.some.injEq] at he' ⊢
    subst he'; cases e; simp_all
  | cons f fs =>
    simp only [hf, Res.bind_ok] at hb
    injection hb with hb; injection hb with hb; subst hb
    simp only [Heap.setEnv, ↓reduceIte, Option.some.injEq] at he' ⊢
    subst he'
    have : f = [] := by injection heff
    cases e; simp_all

/-- Push a frame, do anything that stays inside of it (any nested frames, any calls of other
threads), pop it: the frames are exactly what they were, plus the result in the frame that is current
again. -/
theorem frame_bracket {h h1 h2 h3 : Heap} (hr : HeapReachable h) {t : Nat} {e : Env}
    {o1 o3 : Out} {r : Option Nat} {ops : List (Nat × HeapOp)} (he : h.envs t = some e)
    (hpush : HeapOp.pushLocalFrame.run h t = .ok (h1, o1))
    (hin : Along (fun h u op => u = t → Inside t e.frames h op) h1 ops)
    (hrun : runHeap h1 ops = .ok h2)
    (hbal : ∀ e2, h2.envs t = some e2 → e2.frames.length = e.frames.length + 1)
    (hpop : (HeapOp.popLocalFrame r).run h2 t = .ok (h3, o3)) :
    ∃ e3 f fs x, h3.envs t = some e3 ∧ e.frames = f :: fs ∧ Denotes h2 r x ∧
      e3.frames = (f ++ x.toList) :: fs := by
  have hr1 := hr.step hpush
  have he1 := push_fresh hr he hpush
  obtain ⟨e2, inner, he2, hf2, hne⟩ :=
    Along.induct (Q := fun h => ∃ e' inner, h.envs t = some e' ∧ e'.frames = inner ++ e.frames ∧ inner ≠ [])
      (fun h u op h' out hi hq hp hx => Heap.inside_run hi.toPre hx hp hq) hr1.inv
      ⟨_, [[]], he1, rfl, by simp⟩ hin hrun
  have hi2 := hr1.inv.runHeap hrun
  obtain ⟨e3, he3, _, x, hd, hf3, _⟩ := Heap.effect_run hi2.toPre he2 hpop (by simp)
  have hlen := hbal e2 he2
  rw [hf2, List.length_append] at hlen
  obtain ⟨g, rfl⟩ := List.length_eq_one_iff.1 (show inner.length = 1 by omega)
  obtain ⟨f, fs, hf⟩ := List.exists_cons_of_ne_nil (frames_nonempty hr he)
  refine ⟨e3, f, fs, x, he3, hf, (Heap.denote_iff hi2.toPre).1 hd, ?_⟩
  rw [hf3, hf2, List.singleton_append, Heap.dropFront_one (frames_nonempty hr he), hf]
  rfl

/-- The history of `frame_bracket`: nested frames, references made and deleted inside, another
thread, and a result. -/
def sampleInside : List (Nat × HeapOp) :=
  [(0, .newObject none), (1, .newObject none), (0, .pushLocalFrame), (0, .newLocalRef (some 9)),
    (0, .deleteLocalRef (some 9)), (0, .popLocalFrame none), (1, .pushLocalFrame),
    (0, .deleteLocalRef (some 11))]

example : ∃ h h1 h2 h3 e o1 o3, HeapReachable h ∧ h.envs 0 = some e ∧
    HeapOp.pushLocalFrame.run h 0 = .ok (h1, o1) ∧
    Along (fun h u op => u = 0 → Inside 0 e.frames h op) h1 sampleInside ∧
    runHeap h1 sampleInside = .ok h2 ∧
    (∀ e2, h2.envs 0 = some e2 → e2.frames.length = e.frames.length + 1) ∧
    (HeapOp.popLocalFrame (some 9)).run h2 0 = .ok (h3, o3) := by
  obtain ⟨h, hx, hr, hp⟩ := reachable_of (ops := [(0, .newObject none), (1, .attach), (1, .newObject none)])
    (p := fun h => (h.envs 0).any fun e => e.frames == [[9]] &&
      (HeapOp.pushLocalFrame.run h 0).holds fun x =>
        alongB (fun h u op => u != 0 || insideB 0 [[9]] h op) x.1 sampleInside &&
        (runHeap x.1 sampleInside).holds fun h2 => (h2.envs 0).any (fun e => e.frames.length == 2) &&
          ((HeapOp.popLocalFrame (some 9)).run h2 0).holds fun _ => true)
    (by decide +kernel)
  obtain ⟨e, he, hp⟩ := Option.any_eq_true _ _ |>.1 hp
  simp only [Bool.and_eq_true, beq_iff_eq, Res.holds_iff] at hp
  obtain ⟨hf, ⟨h1, o1⟩, hx1, ha, h2, hx2, h5, ⟨h3, o3⟩, hx3, _⟩ := hp
  refine ⟨h, h1, h2, h3, e, o1, o3, hr, he, hx1, ?_, hx2, ?_, hx3⟩
  · rw [hf]
    refine alongB_sound (fun h u op hi hb hu => ?_) (hr.step hx1).inv ha
    subst hu
    exact insideB_sound hi (by simpa using hb)
  · intro e2 he2
    simpa [he2, hf] using h5

/-! ## C28: a referenced object stays alive -/

/-- Whatever can be reached from a local or global reference is alive. -/
theorem reachable_live {h : Heap} (hr : HeapReachable h) {i : Nat} (hi : Reachable h i) :
    Live h i := by
  have hp := hr.inv.toPre
  cases (reachable_iff hp).1 hi with
  | root h1 => exact hp.roots i h1
  | edge _ h2 => exact hp.edges _ _ h2

/-- A local reference in one of the `outer` frames of a thread is kept by every history in which the
thread does not pop these frames, does not delete a reference to the object and does not detach, and
so the object stays alive; other threads may do anything. -/
theorem local_ref_keeps_alive {h h' : Heap} (hr : HeapReachable h) {t i : Nat} {e : Env}
    {inner outer : List (List Nat)} {ops : List (Nat × HeapOp)} (he : h.envs t = some e)
    (hf : e.frames = inner ++ outer) (hi : ∃ f ∈ outer, i ∈ f)
    (hs : Along (fun h u op => u = t → Spares t i outer.length h op) h ops)
    (hx : runHeap h ops = .ok h') : HasLocal h' t i ∧ Live h' i := by
  have hpos : 0 < outer.length := by
    obtain ⟨f, hf, _⟩ := hi
    exact List.length_pos_of_mem hf
  obtain ⟨e', a, b, he', hf', _, f, hfb, hif⟩ :=
    Along.induct (Q := fun h => ∃ e inner out, h.envs t = some e ∧ e.frames = inner ++ out ∧
        out.length = outer.length ∧ ∃ f ∈ out, i ∈ f)
      (fun h u op h' out hi hq hp hx => Heap.spares_run hi.toPre hpos hx hp hq) hr.inv
      ⟨e, inner, outer, he, hf, rfl, hi⟩ hs hx
  have hl : HasLocal h' t i := ⟨e', he', f, by rw [hf']; simp [hfb], hif⟩
  exact ⟨hl, reachable_live (hr.steps hx) (.root (.inr (.inr (.inl ⟨t, hl⟩))))⟩

/-- Local references of another thread deleted, frames pushed and popped on top, other references
deleted. -/
def sampleSpares : List (Nat × HeapOp) :=
  [(0, .pushLocalFrame), (1, .attach), (1, .newLocalRef (some 9)), (1, .deleteLocalRef (some 9)),
    (0, .deleteLocalRef (some 10)), (0, .popLocalFrame none)]

example : ∃ h h' e, HeapReachable h ∧ h.envs 0 = some e ∧ e.frames = [] ++ [[9, 10]] ∧
    Along (fun h u op => u = 0 → Spares 0 9 [[9, 10]].length h op) h sampleSpares ∧
    runHeap h sampleSpares = .ok h' := by
  obtain ⟨h, hx, hr, hp⟩ := reachable_of (ops := [(0, .newObject none), (0, .newObject none)])
    (p := fun h => (h.envs 0).any fun e => e.frames == [[9, 10]] &&
      alongB (fun h u op => u != 0 || sparesB 0 9 1 h op) h sampleSpares &&
      (runHeap h sampleSpares).holds fun _ => true)
    (by decide +kernel)
  obtain ⟨e, he, hp⟩ := Option.any_eq_true _ _ |>.1 hp
  simp only [Bool.and_eq_true, beq_iff_eq, Res.holds_iff] at hp
  obtain ⟨⟨hf, ha⟩, h', hx', _⟩ := hp
  refine ⟨h, h', e, hr, he, hf, ?_, hx'⟩
  refine alongB_sound (fun h u op hi hb hu => ?_) hr.inv ha
  subst hu
  exact sparesB_sound hi (by simpa using hb)

/-- One call keeps a reference object in the list of global references. -/
theorem global_kept {h h' : Heap} (hi : h.Inv) {t g : Nat} {op : HeapOp} {out : Out} {k : Kind}
    (hk : k.isWrapper = true) (hx : op.run h t = .ok (h', out)) (hg : g ∈ h.globals)
    (ho : ∃ o, h.objs g = some o ∧ o.kind = k)
    (h1 : op ≠ .deleteGlobalRef (some g)) (h2 : op ≠ .deleteWeakGlobalRef (some g)) :
    g ∈ h'.globals ∧ ∃ o, h'.objs g = some o ∧ o.kind = k := by
  obtain ⟨o, ho, hko⟩ := ho
  have mem : g ∈ h'.globals := by
    by_cases hne : ∃ e, h.envs t = some e
    · obtain ⟨e, he⟩ := hne
      by_cases hd : op = .detach
      · subst hd
        obtain ⟨h1', hx1, rfl⟩ := Heap.run_ok hx
        have := (Heap.exec_ok hx1).1
        simp only [HeapOp.body] at this
        cases this
        rw [Heap.collect_globals]; exact hg
      · obtain ⟨h1', hx1, rfl⟩ := Heap.run_ok hx
        have eff := (Heap.effect_exec hi.toPre he hx1 hd).2
        rw [Heap.collect_globals]
        cases op <;> simp only [Heap.GlobalEffect] at eff <;> try (rw [eff]; exact hg)
        case newGlobalRef r =>
          obtain ⟨x, _, eff⟩ := eff
          cases x with
          | none => rw [eff.2]; exact hg
          | some i => obtain ⟨g', _, hgl, _⟩ := eff; rw [hgl]; simp [hg]
        case newWeakGlobalRef r =>
          obtain ⟨x, _, eff⟩ := eff
          cases x with
          | none => rw [eff.2]; exact hg
          | some i => obtain ⟨g', _, hgl, _⟩ := eff; rw [hgl]; simp [hg]
        case deleteGlobalRef r =>
          cases r with
          | none => simp only at eff; rw [eff]; exact hg
          | some g' =>
            simp only at eff
            rw [eff.2]
            exact (List.mem_erase_of_ne (by rintro rfl; exact h1 rfl)).2 hg
        case deleteWeakGlobalRef r =>
          cases r with
          | none => simp only at eff; rw [eff]; exact hg
          | some g' =>
            simp only at eff
            rw [eff.2]
            exact (List.mem_erase_of_ne (by rintro rfl; exact h2 rfl)).2 hg
    · obtain ⟨h1', hx1, rfl⟩ := Heap.run_ok hx
      obtain ⟨hb, hne'⟩ := Heap.exec_ok hx1
      rw [Heap.collect_globals]
      cases op <;> simp only [HeapOp.needsEnv, forall_const] at hne' <;>
        first | exact absurd hne' hne | skip
      case attach =>
        simp only [HeapOp.body] at hb
        cases hb
        simp only [Heap.attach]
        split <;> exact hg
      case detach =>
        simp only [HeapOp.body] at hb
        cases hb
        exact hg
  refine ⟨mem, ?_⟩
  obtain ⟨o', ho'⟩ : h'.Live g := (hi.run hx).roots g (Heap.mem_roots.2 (.inl mem))
  obtain ⟨o2, ho2, hs, _⟩ := (runStep hi.toPre hx).old g o' (hi.bound g o ho) ho'
  rw [ho] at ho2; cases ho2
  refine ⟨o', ho', ?_⟩
  cases k with
  | weak t => rw [hko] at hs; exact hs.weak
  | global t => rw [hko] at hs; exact hs.global
  | _ => cases hk

/-- A global reference is kept by every history that does not delete it, and so is its object. -/
theorem global_ref_keeps_alive {h h' : Heap} (hr : HeapReachable h) {g i : Nat}
    {ops : List (Nat × HeapOp)} (hg : g ∈ h.globals) (ho : ∃ o, h.objs g = some o ∧ o.kind = .global i)
    (hops : ∀ x ∈ ops, x.2 ≠ .deleteGlobalRef (some g)) (hx : runHeap h ops = .ok h') :
    g ∈ h'.globals ∧ Denotes h' (some g) (some i) ∧ Live h' i := by
  induction ops generalizing h with
  | nil =>
    have hx : h = h' := by injection hx
    subst hx
    obtain ⟨o, ho, hk⟩ := ho
    have hp := hr.inv.toPre
    have hl : Live h i := hp.edges g i ⟨o, ho, by simp [hk, Kind.edges]⟩
    refine ⟨hg, ?_, hl⟩
    obtain ⟨oi, hoi⟩ := hl
    exact .global ho hk (.direct hoi (isWrapper_iff.1 ((hp.target g o i ho (.inr hk)).2 oi hoi)))
  | cons x ops ih =>
    obtain ⟨t, op⟩ := x
    obtain ⟨⟨h1, out⟩, hx1, hx2⟩ := Res.bind_eq_ok.1 hx
    by_cases hdw : op = .deleteWeakGlobalRef (some g)
    · -- refused: the reference is not weak
      subst hdw
      obtain ⟨h1', hx1', rfl⟩ := Heap.run_ok hx1
      obtain ⟨hb, hne⟩ := Heap.exec_ok hx1'
      obtain ⟨e, he⟩ := hne rfl
      have eff := (Heap.effect_exec hr.inv.toPre he hx1' (by simp)).2
      obtain ⟨⟨o', i', ho', hk'⟩, _⟩ := eff
      obtain ⟨o, ho, hk⟩ := ho
      rw [ho] at ho'; cases ho'; rw [hk] at hk'; cases hk'
    · obtain ⟨hg1, ho1⟩ := global_kept hr.inv (k := .global i) rfl hx1 hg ho
        (hops (t, op) (by simp)) hdw
      exact ih (hr.step hx1) hg1 ho1 (fun x hx => hops x (by simp [hx])) hx2

example : ∃ h h', HeapReachable h ∧ 10 ∈ h.globals ∧ (∃ o, h.objs 10 = some o ∧ o.kind = .global 9) ∧
    runHeap h [(0, .deleteLocalRef (some 9)), (0, .newWeakGlobalRef (some 10)),
      (0, .deleteWeakGlobalRef (some 11)), (0, .detach)] = .ok h' ∧ ¬ HasLocal h' 0 9 := by
  obtain ⟨h, hx, hr, hp⟩ := reachable_of (ops := [(0, .newObject none), (0, .newGlobalRef (some 9))])
    (p := fun h => h.globals.contains 10 && (h.objs 10).any (fun o => o.kind == .global 9) &&
      (runHeap h [(0, .deleteLocalRef (some 9)), (0, .newWeakGlobalRef (some 10)),
        (0, .deleteWeakGlobalRef (some 11)), (0, .detach)]).holds fun h' => (h'.envs 0).isNone)
    (by decide +kernel)
  simp only [Bool.and_eq_true, Res.holds_iff, List.contains_iff_mem] at hp
  obtain ⟨⟨h1, h2⟩, h', hx', h3⟩ := hp
  obtain ⟨o, ho, hk⟩ := Option.any_eq_true _ _ |>.1 h2
  refine ⟨h, h', hr, h1, ⟨o, ho, by simpa using hk⟩, hx', ?_⟩
  rintro ⟨e, he, _⟩
  rw [he] at h3; cases h3

/-! ## C29: an unreferenced object is released -/

/-- Every live object is referenced directly: by a local or global reference, a pending exception,
the tables of the VM, a global reference object or an array.  When the last such reference goes, the
object is released in the same call.  A weak reference does not count. -/
theorem live_referenced {h : Heap} (hr : HeapReachable h) {i : Nat} (hl : Live h i) :
    Root h i ∨ ∃ j, Owns h j i := by
  have hi := hr.inv
  obtain ⟨o, ho⟩ := hl
  rcases (Heap.held_iff hi.bound).1 (hi.held i o ho) with h1 | ⟨j, h1⟩
  · exact .inl ((root_iff hi.toPre).2 h1)
  · exact .inr ⟨j, owns_iff.2 h1⟩

/-- Partial form of C29: if no array contains itself (directly or through others), exactly the
objects that can be reached from a local or global reference are alive.  Missing: cyclic arrays, see
`array_cycle_leaks`. -/
theorem live_iff_reachable_partial {h : Heap} (hr : HeapReachable h)
    (hac : ∀ i, ¬ OwnsPath h i i) {i : Nat} : Live h i ↔ Reachable h i :=
  ⟨Heap.reachable_of_acyclic hr.inv hac, reachable_live hr⟩

/-- No object owns another one, so there is no cycle (two objects, one of them released). -/
example : ∃ h, HeapReachable h ∧ (∀ i, ¬ OwnsPath h i i) ∧ Live h 9 ∧ 10 < h.next ∧ ¬ Live h 10 := by
  obtain ⟨h, hx, hr, hp⟩ := reachable_of
    (ops := [(0, .newObject none), (0, .newObject none), (0, .deleteLocalRef (some 10))])
    (p := fun h => (h.objs 9).isSome && (h.objs 10).isNone && h.next == 11 &&
      (List.range h.next).all fun j => (h.objs j).all fun o => o.kind.edges == [])
    (by decide +kernel)
  simp only [Bool.and_eq_true, List.all_eq_true, List.mem_range, beq_iff_eq] at hp
  obtain ⟨⟨⟨h9, h10⟩, hn⟩, hall⟩ := hp
  have none : ∀ j k, ¬ Owns h j k := by
    intro j k hown
    obtain ⟨o, ho, hk⟩ := owns_iff.1 hown
    have := hall j (hr.inv.bound j o ho)
    simp only [ho, Option.all_some, beq_iff_eq] at this
    rw [this] at hk; cases hk
  refine ⟨h, hr, ?_, Option.isSome_iff_exists.1 h9, by omega, ?_⟩
  · intro i hp
    cases hp with
    | one h1 => exact none _ _ h1
    | cons h1 _ => exact none _ _ h1
  · rintro ⟨o, ho⟩; rw [ho] at h10; cases h10

/-- C29 fails in general: an array that contains itself is never released. -/
theorem array_cycle_leaks : ∃ h i, HeapReachable h ∧ Live h i ∧ ¬ Reachable h i := by
  obtain ⟨h, hx, hr, hp⟩ := reachable_of
    (ops := [(0, .newObjectArray 1 "[Ljava/lang/Object;".toList none),
      (0, .setObjectArrayElement (some 10) 0 (some 10)), (0, .deleteLocalRef (some 10))])
    (p := fun h => (h.objs 10).isSome && !h.roots.contains 10 &&
      (List.range h.next).all fun j => j == 10 || (h.objs j).all fun o => !o.kind.edges.contains 10)
    (by decide +kernel)
  simp only [Bool.and_eq_true, List.all_eq_true, List.mem_range, Bool.or_eq_true, beq_iff_eq,
    Bool.not_eq_true'] at hp
  obtain ⟨⟨h10, hroot⟩, hall⟩ := hp
  refine ⟨h, 10, hr, Option.isSome_iff_exists.1 h10, ?_⟩
  have : ∀ i, h.Reach i → i ≠ 10 := by
    intro i hi
    induction hi with
    | root h1 =>
      rintro rfl
      rw [List.contains_iff_mem.2 h1] at hroot; cases hroot
    | edge _ h2 ih =>
      rintro rfl
      obtain ⟨o, ho, hk⟩ := h2
      rcases hall _ (hr.inv.bound _ o ho) with h3 | h3
      · exact ih h3
      · simp only [ho, Option.all_some, Bool.not_eq_true'] at h3
        rw [List.contains_iff_mem.2 hk] at h3; cases h3
  intro hr'
  exact this 10 ((reachable_iff hr.inv.toPre).1 hr') rfl

/-! ## C30: deleting one local reference removes exactly one -/

/-- `DeleteLocalRef` removes the first reference to the object in the innermost frame that has one,
and nothing if there is none. -/
theorem delete_local_exact {h h' : Heap} (hr : HeapReachable h) {t i : Nat} {e : Env} {out : Out}
    {r : Option Nat} (he : h.envs t = some e) (hd : Denotes h r (some i))
    (hx : (HeapOp.deleteLocalRef r).run h t = .ok (h', out)) :
    ∃ e', h'.envs t = some e' ∧
      ((∀ f ∈ e.frames, i ∉ f) ∧ e'.frames = e.frames ∨
        ∃ pre a b post, e.frames = pre ++ (a ++ i :: b) :: post ∧ (∀ f ∈ pre, i ∉ f) ∧ i ∉ a ∧
          e'.frames = pre ++ (a ++ b) :: post) := by
  have hp := hr.inv.toPre
  obtain ⟨e', he', _, x, hd', hf⟩ := Heap.effect_run hp he hx (by simp)
  rw [(Heap.denote_iff hp).2 hd] at hd'; cases hd'
  refine ⟨e', he', ?_⟩
  simp only at hf
  rw [hf]
  clear hf he hx he'
  generalize e.frames = fs
  induction fs with
  | nil => exact .inl ⟨by simp, rfl⟩
  | cons f fs ih =>
    rw [Heap.eraseLocal]
    split
    · rename_i hc
      have hif := List.contains_iff_mem.1 hc
      obtain ⟨a, b, ha, hab, her⟩ := List.exists_erase_eq hif
      exact .inr ⟨[], a, b, fs, by simp [hab], by simp, ha, by simp [her]⟩
    · rename_i hc
      have hnf : i ∉ f := fun hi => hc (List.contains_iff_mem.2 hi)
      rcases ih with ⟨h1, h2⟩ | ⟨pre, a, b, post, h1, h2, h3, h4⟩
      · refine .inl ⟨?_, by rw [h2]⟩
        intro g hg
        rcases List.mem_cons.1 hg with rfl | hg
        · exact hnf
        · exact h1 g hg
      · refine .inr ⟨f :: pre, a, b, post, by simp [h1], ?_, h3, by simp [h4]⟩
        intro g hg
        rcases List.mem_cons.1 hg with rfl | hg
        · exact hnf
        · exact h2 g hg

/-- `DeleteLocalRef` touches no global reference, no pending exception and no other thread; deleting
null or a cleared weak reference changes nothing at all. -/
theorem delete_local_rest {h h' : Heap} (hr : HeapReachable h) {t : Nat} {e : Env} {out : Out}
    {r : Option Nat} (he : h.envs t = some e) (hx : (HeapOp.deleteLocalRef r).run h t = .ok (h', out)) :
    h'.globals = h.globals ∧ (∃ e', h'.envs t = some e' ∧ e'.pending = e.pending) ∧
      (∀ u, u ≠ t → h'.envs u = h.envs u) ∧ (Denotes h r none → h' = h) := by
  have hp := hr.inv.toPre
  refine ⟨?_, ?_, (runStep hp hx).others, ?_⟩
  · obtain ⟨h1, hx1, rfl⟩ := Heap.run_ok hx
    exact (Heap.collect_globals h1).trans (Heap.effect_exec hp he hx1 (by simp)).2
  · obtain ⟨h1, hx1, rfl⟩ := Heap.run_ok hx
    obtain ⟨⟨e', h2, _, _, h4⟩, _⟩ := Heap.effect_exec hp he hx1 (by simp)
    exact ⟨e', by simpa using h2, h4⟩
  · intro hd
    obtain ⟨h1, hx1, rfl⟩ := Heap.run_ok hx
    have hb := (Heap.exec_ok hx1).1
    simp only [HeapOp.body] at hb
    obtain ⟨hb, _⟩ := Heap.outUnit_ok hb
    rw [Heap.deleteLocalRef, Heap.env_ok.2 he, Res.bind_ok, (Heap.denote_iff hp).2 hd, Res.bind_ok] at hb
    cases hb
    exact Heap.collect_of_allHeld hr.inv.held

/-- Two references to the same object in the outer and one in the inner frame; deleting through a
global reference. -/
example : ∃ h h' e out, HeapReachable h ∧ h.envs 0 = some e ∧ e.frames = [[9], [9, 9]] ∧
    Denotes h (some 10) (some 9) ∧ (HeapOp.deleteLocalRef (some 10)).run h 0 = .ok (h', out) := by
  obtain ⟨h, hx, hr, hp⟩ := reachable_of
    (ops := [(0, .newObject none), (0, .newLocalRef (some 9)), (0, .newGlobalRef (some 9)),
      (0, .pushLocalFrame), (0, .newLocalRef (some 9))])
    (p := fun h => (h.envs 0).any fun e => e.frames == [[9], [9, 9]] && h.denote (some 10) == .ok (some 9)
      && ((HeapOp.deleteLocalRef (some 10)).run h 0).holds fun _ => true)
    (by decide +kernel)
  obtain ⟨e, he, hp⟩ := Option.any_eq_true _ _ |>.1 hp
  simp only [Bool.and_eq_true, beq_iff_eq, Res.holds_iff] at hp
  obtain ⟨⟨hf, hd⟩, ⟨h', out⟩, hx', _⟩ := hp
  exact ⟨h, h', e, out, hr, he, hf, (Heap.denote_iff hr.inv.toPre).1 hd, hx'⟩

/-! ## C31: weak references observe lifetime -/

/-- A weak reference object denotes its target while that is alive and null afterwards. -/
theorem weak_denotes {h : Heap} (hr : HeapReachable h) {w i : Nat} {o : Obj}
    (ho : h.objs w = some o) (hk : o.kind = .weak i) :
    (Live h i → Denotes h (some w) (some i)) ∧ (¬ Live h i → Denotes h (some w) none) := by
  refine ⟨?_, fun hl => .cleared ho hk hl⟩
  rintro ⟨oi, hoi⟩
  exact .weak ho hk
    (.direct hoi (isWrapper_iff.1 ((hr.inv.target w o i ho (.inl hk)).2 oi hoi)))

/-- A released object never comes back: numbers are not reused in any history. -/
theorem dead_stays_dead {h h' : Heap} (hr : HeapReachable h) {i : Nat} (hi : i < h.next)
    (hd : ¬ Live h i) {ops : List (Nat × HeapOp)} (hx : runHeap h ops = .ok h') :
    i < h'.next ∧ ¬ Live h' i := by
  refine Along.induct (P := fun _ _ _ => True) (Q := fun h => i < h.next ∧ ¬ Live h i)
    (fun h t op h' out hinv hq _ hx => ?_) hr.inv ⟨hi, hd⟩ Along.trivial hx
  have s := runStep hinv.toPre hx
  refine ⟨Nat.lt_of_lt_of_le hq.1 s.next, ?_⟩
  rintro ⟨o', ho'⟩
  obtain ⟨o, ho, _⟩ := s.old i o' hq.1 ho'
  exact hq.2 ⟨o, ho⟩

/-- From its creation until it is deleted a weak global reference observes exactly the object it was
made for: `NewLocalRef` on it gives that object while it is alive and null afterwards, and
`IsSameObject` with null tells which. -/
theorem weak_ref_history {h h1 h2 : Heap} (hr : HeapReachable h) {t i w : Nat} {r : Option Nat}
    {ops : List (Nat × HeapOp)} (hd : Denotes h r (some i))
    (hnew : (HeapOp.newWeakGlobalRef r).run h t = .ok (h1, .ref (some w)))
    (hops : ∀ x ∈ ops, x.2 ≠ .deleteWeakGlobalRef (some w)) (hx : runHeap h1 ops = .ok h2) :
    w ∈ h2.globals ∧ (∀ j, Denotes h2 (some w) (some j) ↔ j = i ∧ Live h2 i) ∧
      (Denotes h2 (some w) none ↔ ¬ Live h2 i) ∧
      (∃ b, h2.isSameObject (some w) none = .ok b ∧ (b = true ↔ ¬ Live h2 i)) ∧
      ∀ u e, h2.envs u = some e → ∃ h3 x, (HeapOp.newLocalRef (some w)).run h2 u = .ok (h3, .ref x) ∧
        (Live h2 i → x = some i) ∧ (¬ Live h2 i → x = none) := by
  -- the reference object survives
  have keep : ∀ {ops : List (Nat × HeapOp)} {h : Heap}, HeapReachable h → w ∈ h.globals →
      (∃ o, h.objs w = some o ∧ o.kind = .weak i) →
      (∀ x ∈ ops, x.2 ≠ .deleteWeakGlobalRef (some w)) → runHeap h ops = .ok h2 →
      w ∈ h2.globals ∧ ∃ o, h2.objs w = some o ∧ o.kind = .weak i := by
    intro ops
    induction ops with
    | nil => intro h _ hg ho _ hx; cases hx; exact ⟨hg, ho⟩
    | cons x ops ih =>
      obtain ⟨u, op⟩ := x
      intro h hr hg ho hops hx
      obtain ⟨⟨h1, out⟩, hx1, hx2⟩ := Res.bind_eq_ok.1 hx
      by_cases hdg : op = .deleteGlobalRef (some w)
      · subst hdg
        obtain ⟨h1', hx1', rfl⟩ := Heap.run_ok hx1
        obtain ⟨hb, hne⟩ := Heap.exec_ok hx1'
        obtain ⟨e, he⟩ := hne rfl
        have eff := (Heap.effect_exec hr.inv.toPre he hx1' (by simp)).2
        obtain ⟨⟨o', i', ho', hk'⟩, _⟩ := eff
        obtain ⟨o, ho, hk⟩ := ho
        rw [ho] at ho'; cases ho'; rw [hk] at hk'; cases hk'
      · obtain ⟨hg1, ho1⟩ := global_kept hr.inv (k := .weak i) rfl hx1 hg ho hdg
          (hops (u, op) (by simp))
        exact ih (hr.step hx1) hg1 ho1 (fun x hx => hops x (by simp [hx])) hx2
  have start : w ∈ h1.globals ∧ ∃ o, h1.objs w = some o ∧ o.kind = .weak i := by
    have hi1 := hr.inv.run hnew
    obtain ⟨h1', hx1, rfl⟩ := Heap.run_ok hnew
    obtain ⟨hb, hne⟩ := Heap.exec_ok hx1
    obtain ⟨e, he⟩ := hne rfl
    obtain ⟨x, hdx, eff⟩ := (Heap.effect_exec hr.inv.toPre he hx1 (by simp)).2
    rw [(Heap.denote_iff hr.inv.toPre).2 hd] at hdx; cases hdx
    obtain ⟨g, hg, hgl, _, o, ho, hk⟩ := eff
    cases hg
    have hmem : w ∈ h1'.collect.globals := by simp [hgl]
    refine ⟨hmem, o, ?_, hk⟩
    refine Heap.collect_keep (Heap.step_exec hr.inv.toPre hx1).pre.bound (.root ?_) ho
    exact Heap.mem_roots.2 (.inl (by simp [hgl]))
  have hr1 := hr.step hnew
  obtain ⟨hg, o, ho, hk⟩ := keep hr1 start.1 start.2 hops hx
  have hr2 := hr1.steps hx
  have hp2 := hr2.inv.toPre
  obtain ⟨hlive, hdead⟩ := weak_denotes hr2 ho hk
  have hsome : ∀ j, Denotes h2 (some w) (some j) ↔ j = i ∧ Live h2 i := by
    intro j
    by_cases hl : Live h2 i
    · constructor
      · intro hj
        have := Heap.denotes_fun hj (hlive hl)
        simp at this
        exact ⟨this, hl⟩
      · rintro ⟨rfl, _⟩; exact hlive hl
    · constructor
      · intro hj
        have := Heap.denotes_fun hj (hdead hl)
        cases this
      · rintro ⟨_, hl'⟩; exact absurd hl' hl
  have hnone : Denotes h2 (some w) none ↔ ¬ Live h2 i := by
    constructor
    · intro hn hl
      have := Heap.denotes_fun hn (hlive hl)
      cases this
    · exact hdead
  refine ⟨hg, hsome, hnone, ?_, ?_⟩
  · by_cases hl : Live h2 i
    · refine ⟨false, ?_, by simp [hl]⟩
      rw [Heap.isSameObject, if_neg (by simp), (Heap.denote_iff hp2).2 (hlive hl)]
      rfl
    · refine ⟨true, ?_, by simp [hl]⟩
      rw [Heap.isSameObject, if_neg (by simp), (Heap.denote_iff hp2).2 (hdead hl)]
      rfl
  · intro u e he
    by_cases hl : Live h2 i
    · obtain ⟨h3, hpush⟩ := Heap.pushLocal_exists hp2 (i := i) he
      refine ⟨h3.collect, some i, ?_, fun _ => rfl, fun hn => absurd hl hn⟩
      rw [HeapOp.run, Heap.exec_of_body he, HeapOp.body, Heap.newLocalRef,
        (Heap.denote_iff hp2).2 (hlive hl), Res.bind_ok]
      simp only [hpush, Res.bind_ok, outRef]
    · refine ⟨h2.collect, none, ?_, fun h => absurd h hl, fun _ => rfl⟩
      rw [HeapOp.run, Heap.exec_of_body he, HeapOp.body, Heap.newLocalRef,
        (Heap.denote_iff hp2).2 (hdead hl), Res.bind_ok]
      rfl

/-- The last local reference is deleted while the weak reference exists. -/
example : ∃ h h1 h2, HeapReachable h ∧ Denotes h (some 9) (some 9) ∧
    (HeapOp.newWeakGlobalRef (some 9)).run h 0 = .ok (h1, .ref (some 10)) ∧
    runHeap h1 [(0, .newLocalRef (some 10)), (0, .deleteLocalRef (some 9)),
      (0, .deleteLocalRef (some 10))] = .ok h2 ∧ Live h1 9 ∧ ¬ Live h2 9 := by
  obtain ⟨h, hx, hr, hp⟩ := reachable_of (ops := [(0, .newObject none)])
    (p := fun h => h.denote (some 9) == .ok (some 9) &&
      ((HeapOp.newWeakGlobalRef (some 9)).run h 0).holds fun x => x.2 == .ref (some 10) &&
        (runHeap x.1 [(0, .newLocalRef (some 10)), (0, .deleteLocalRef (some 9)),
          (0, .deleteLocalRef (some 10))]).holds fun h2 => (x.1.objs 9).isSome && (h2.objs 9).isNone)
    (by decide +kernel)
  simp only [Bool.and_eq_true, beq_iff_eq, Res.holds_iff] at hp
  obtain ⟨hd, ⟨h1, out⟩, hx1, ho, h2, hx2, hl, hdead⟩ := hp
  simp only at ho
  subst ho
  refine ⟨h, h1, h2, hr, (Heap.denote_iff hr.inv.toPre).1 hd, hx1, hx2, Option.isSome_iff_exists.1 hl, ?_⟩
  rintro ⟨o, ho⟩; rw [ho] at hdead; cases hdead

/-- A weak reference does not keep its object alive: without a strong reference it is released. -/
theorem weak_does_not_keep {h : Heap} (hr : HeapReachable h) {i : Nat} (h1 : ¬ Root h i)
    (h2 : ∀ j, ¬ Owns h j i) : ¬ Live h i := by
  intro hl
  rcases live_referenced hr hl with h3 | ⟨j, h3⟩
  · exact h1 h3
  · exact h2 j h3

/-! ## C32: IsSameObject is identity of the denoted object -/

/-- Two valid references are the same object exactly if they denote the same. -/
theorem same_iff {h : Heap} (hr : HeapReachable h) {a b : Option Nat} (ha : Valid h a)
    (hb : Valid h b) :
    ∃ ans, h.isSameObject a b = .ok ans ∧ (ans = true ↔ ∃ x, Denotes h a x ∧ Denotes h b x) := by
  have hp := hr.inv.toPre
  obtain ⟨x, hx, dx⟩ := Heap.denote_total hp ha
  obtain ⟨y, hy, dy⟩ := Heap.denote_total hp hb
  by_cases hab : a = b
  · subst hab
    exact ⟨true, by rw [Heap.isSameObject, if_pos rfl], by simp; exact ⟨x, dx⟩⟩
  · refine ⟨decide (x = y), ?_, ?_⟩
    · rw [Heap.isSameObject, if_neg hab, hx, Res.bind_ok, hy, Res.bind_ok]
    · rw [decide_eq_true_iff]
      constructor
      · rintro rfl; exact ⟨x, dx, dy⟩
      · rintro ⟨z, dz, dz'⟩
        rw [Heap.denotes_fun dx dz, Heap.denotes_fun dy dz']

/-- `IsSameObject` is an equivalence relation on valid references. -/
theorem same_equivalence {h : Heap} (hr : HeapReachable h) :
    (∀ a, Valid h a → h.isSameObject a a = .ok true) ∧
    (∀ a b, Valid h a → Valid h b → h.isSameObject a b = .ok true → h.isSameObject b a = .ok true) ∧
    (∀ a b c, Valid h a → Valid h b → Valid h c → h.isSameObject a b = .ok true →
      h.isSameObject b c = .ok true → h.isSameObject a c = .ok true) := by
  have key : ∀ {a b}, Valid h a → Valid h b →
      (h.isSameObject a b = .ok true ↔ ∃ x, Denotes h a x ∧ Denotes h b x) := by
    intro a b ha hb
    obtain ⟨ans, h1, h2⟩ := same_iff hr ha hb
    rw [← h2, h1]; simp
  refine ⟨fun a _ => by rw [Heap.isSameObject, if_pos rfl], fun a b ha hb hab => ?_,
    fun a b c ha hb hc hab hbc => ?_⟩
  · obtain ⟨x, h1, h2⟩ := (key ha hb).1 hab
    exact (key hb ha).2 ⟨x, h2, h1⟩
  · obtain ⟨x, h1, h2⟩ := (key ha hb).1 hab
    obtain ⟨y, h3, h4⟩ := (key hb hc).1 hbc
    rw [Heap.denotes_fun h2 h3] at h1
    exact (key ha hc).2 ⟨y, h1, h4⟩

/-- A global, a weak and a local reference to one object, and a cleared weak reference. -/
example : ∃ h, HeapReachable h ∧ Valid h (some 9) ∧ Valid h (some 10) ∧ Valid h (some 11) ∧
    Valid h (some 13) ∧ h.isSameObject (some 10) (some 11) = .ok true ∧
    h.isSameObject (some 11) (some 9) = .ok true ∧ h.isSameObject (some 13) none = .ok true ∧
    h.isSameObject (some 13) (some 9) = .ok false := by
  obtain ⟨h, hx, hr, hp⟩ := reachable_of
    (ops := [(0, .newObject none), (0, .newGlobalRef (some 9)), (0, .newWeakGlobalRef (some 10)),
      (0, .newObject none), (0, .newWeakGlobalRef (some 12)), (0, .deleteLocalRef (some 12))])
    (p := fun h => (h.objs 9).isSome && (h.objs 10).isSome && (h.objs 11).isSome && (h.objs 13).isSome &&
      h.isSameObject (some 10) (some 11) == .ok true && h.isSameObject (some 11) (some 9) == .ok true &&
      h.isSameObject (some 13) none == .ok true && h.isSameObject (some 13) (some 9) == .ok false)
    (by decide +kernel)
  simp only [Bool.and_eq_true, beq_iff_eq] at hp
  obtain ⟨⟨⟨⟨⟨⟨⟨h9, h10⟩, h11⟩, h13⟩, s1⟩, s2⟩, s3⟩, s4⟩ := hp
  exact ⟨h, hr, Option.isSome_iff_exists.1 h9, Option.isSome_iff_exists.1 h10,
    Option.isSome_iff_exists.1 h11, Option.isSome_iff_exists.1 h13, s1, s2, s3, s4⟩

/-! ## C33: PopLocalFrame hands its result to the outer frame -/

/-- Partial form of C33: popping with a reference that denotes an object returns that object, in the
enclosing frame and alive, even if only the popped frame referred to it; popping with null returns
null.  Missing: a cleared weak reference, see `pop_cleared_not_null`. -/
theorem pop_result_partial {h : Heap} (hr : HeapReachable h) {t : Nat} {e : Env}
    (he : h.envs t = some e) {r x : Option Nat} (hd : Denotes h r x) (hnc : x = none → r = none) :
    ∃ h' e', (HeapOp.popLocalFrame r).run h t = .ok (h', .ref x) ∧ h'.envs t = some e' ∧
      (∀ i, x = some i → Live h' i ∧ ∃ f fs, e'.frames = f :: fs ∧ i ∈ f) ∧
      (∀ o i, x = some i → h.objs i = some o → ∃ o', h'.objs i = some o' ∧ o'.kind = o.kind) := by
  have hp := hr.inv.toPre
  have hrun : ∃ h', (HeapOp.popLocalFrame r).run h t = .ok (h', .ref x) := by
    rw [HeapOp.run, Heap.exec_of_body he, HeapOp.body, Heap.popLocalFrame, Heap.env_ok.2 he,
      Res.bind_ok, (Heap.denote_iff hp).2 hd, Res.bind_ok]
    obtain ⟨f, fs, hf⟩ := List.exists_cons_of_ne_nil (frames_nonempty hr he)
    simp only [hf]
    cases x with
    | none => rw [hnc rfl]; exact ⟨_, rfl⟩
    | some i =>
      obtain ⟨h0, hx0⟩ := Heap.toJNI_exists
        (h := h.setEnv t { e with frames := if fs.isEmpty then [[]] else fs, free := [] :: e.free })
        (t := t) (i := i) (s := h.typeClass "java/lang/Object".toList)
        (hp.popEnv he hf).pre
        (Heap.setEnv_self ..)
        (let ⟨o, ho, _⟩ := Heap.denotes_ok hp hd; ⟨o, ho⟩)
        (fun c hc => hp.typeClass hc)
      refine ⟨h0.collect, ?_⟩
      simp only [show ∀ a : Heap, (a.setEnv t { e with frames := if fs.isEmpty then [[]] else fs, free := [] :: e.free }).typeClass = a.typeClass from fun _ => rfl, hx0, Res.bind_ok, outRef]
  obtain ⟨h', hx⟩ := hrun
  obtain ⟨e', he', _, x', hd', hf', _⟩ := Heap.effect_run hp he hx (by simp)
  rw [(Heap.denote_iff hp).2 hd] at hd'; cases hd'
  have hfront : ∀ i, x = some i → ∃ f fs, e'.frames = f :: fs ∧ i ∈ f := by
    rintro i rfl
    obtain ⟨f, fs, hf⟩ := List.exists_cons_of_ne_nil (frames_nonempty hr he)
    rw [hf', hf]
    cases fs with
    | nil => exact ⟨_, _, rfl, by simp⟩
    | cons g gs => exact ⟨_, _, rfl, by simp⟩
  have hlive : ∀ i, x = some i → Live h' i := by
    intro i hi
    obtain ⟨f, fs, hf, hif⟩ := hfront i hi
    exact reachable_live (hr.step hx) (.root (.inr (.inr (.inl ⟨t, e', he', f, by simp [hf], hif⟩))))
  refine ⟨h', e', hx, he', fun i hi => ⟨hlive i hi, hfront i hi⟩, fun o i hi ho => ?_⟩
  obtain ⟨o', ho'⟩ := hlive i hi
  -- the object itself is not changed by popping
  refine ⟨o', ho', ?_⟩
  obtain ⟨h1, hx1, rfl⟩ := Heap.run_ok hx
  have hb := (Heap.exec_ok hx1).1
  simp only [HeapOp.body] at hb
  replace hb := Heap.outRef_ok hb
  obtain ⟨r', hb, _⟩ := hb
  subst hi
  obtain ⟨f, fs, hf⟩ := List.exists_cons_of_ne_nil (frames_nonempty hr he)
  rw [Heap.popLocalFrame, Heap.env_ok.2 he, Res.bind_ok, (Heap.denote_iff hp).2 hd, Res.bind_ok] at hb
  simp only [hf] at hb
  obtain ⟨h2, hb1, hb2⟩ := Res.bind_eq_ok.1 hb
  injection hb2 with hb2
  injection hb2 with hb2 _
  subst hb2
  have ho1 := Heap.collect_sub ho'
  simp only [Heap.toJNI, Heap.setEnv_objs, ho] at hb1
  split at hb1
  · obtain ⟨e0, f0, fs0, _, _, rfl⟩ := Heap.pushLocal_ok hb1
    simp at ho1
    rw [← ho1]
  · obtain ⟨e0, f0, fs0, _, _, rfl⟩ := Heap.pushLocal_ok hb1
    simp [ho] at ho1
    rw [← ho1]

/-- The result is referenced only by the popped frame. -/
example : ∃ h e, HeapReachable h ∧ h.envs 0 = some e ∧ e.frames = [[9], []] ∧
    Denotes h (some 9) (some 9) := by
  obtain ⟨h, _, hr, hp⟩ := reachable_of (ops := [(0, .pushLocalFrame), (0, .newObject none)])
    (p := fun h => (h.envs 0).any fun e => e.frames == [[9], []] && h.denote (some 9) == .ok (some 9))
    (by decide +kernel)
  obtain ⟨e, he, hp⟩ := Option.any_eq_true _ _ |>.1 hp
  simp only [Bool.and_eq_true, beq_iff_eq] at hp
  exact ⟨h, e, hr, he, hp.1, (Heap.denote_iff hr.inv.toPre).1 hp.2⟩

/-- C33 fails for a cleared weak reference: `PopLocalFrame` hands it back instead of null. -/
theorem pop_cleared_not_null : ∃ h h' r x, HeapReachable h ∧ Denotes h r none ∧
    (HeapOp.popLocalFrame r).run h 0 = .ok (h', .ref x) ∧ x ≠ none := by
  obtain ⟨h, _, hr, hp⟩ := reachable_of
    (ops := [(0, .newObject none), (0, .newWeakGlobalRef (some 9)), (0, .deleteLocalRef (some 9)),
      (0, .pushLocalFrame)])
    (p := fun h => h.denote (some 10) == .ok none &&
      ((HeapOp.popLocalFrame (some 10)).run h 0).holds fun x => x.2 == .ref (some 10))
    (by decide +kernel)
  simp only [Bool.and_eq_true, beq_iff_eq, Res.holds_iff] at hp
  obtain ⟨hd, ⟨h', out⟩, hx, ho⟩ := hp
  simp only at ho
  subst ho
  exact ⟨h, h', some 10, some 10, hr, (Heap.denote_iff hr.inv.toPre).1 hd, hx, by simp⟩

end Jnivm
