import Verif.Model.Heap
/-!
Lemmas about ownership: what `collect` releases and what it keeps.
-/
namespace Jnivm
namespace Heap

/-- `i` is a live object. -/
def Live (h : Heap) (i : Nat) : Prop := ∃ o, h.objs i = some o

/-- The live object `j` owns `i`. -/
def Edge (h : Heap) (j i : Nat) : Prop := ∃ o, h.objs j = some o ∧ i ∈ o.kind.edges

/-- `i` is owned through a chain of strong references that starts at a root. -/
inductive Reach (h : Heap) : Nat → Prop where
  | root {i} : i ∈ h.roots → Reach h i
  | edge {j i} : Reach h j → h.Edge j i → Reach h i

theorem mem_roots {h : Heap} {i : Nat} : i ∈ h.roots ↔
    i ∈ h.globals ∨ i ∈ h.pinned ∨
      ∃ t e, t < h.nthreads ∧ h.envs t = some e ∧ ((∃ f ∈ e.frames, i ∈ f) ∨ e.pending = some i) := by
  simp only [roots, List.mem_append, List.mem_flatMap, List.mem_range, or_assoc]
  refine or_congr Iff.rfl (or_congr Iff.rfl ⟨?_, ?_⟩)
  · rintro ⟨t, ht, hi⟩
    cases he : h.envs t with
    | none => simp [he] at hi
    | some e =>
      simp only [he, List.mem_append, List.mem_flatten, Option.mem_toList] at hi
      exact ⟨t, e, ht, he, hi⟩
  · rintro ⟨t, e, ht, he, hi⟩
    refine ⟨t, ht, ?_⟩
    simp only [he, List.mem_append, List.mem_flatten, Option.mem_toList]
    exact hi

theorem held_iff {h : Heap} (hb : ∀ j o, h.objs j = some o → j < h.next) {i : Nat} :
    h.held i = true ↔ i ∈ h.roots ∨ ∃ j, h.Edge j i := by
  simp only [held, Bool.or_eq_true, List.contains_iff_mem, List.any_eq_true, List.mem_range]
  refine or_congr Iff.rfl ⟨?_, ?_⟩
  · rintro ⟨j, _, hj⟩
    cases ho : h.objs j with
    | none => simp [ho] at hj
    | some o => simp only [ho, List.contains_iff_mem] at hj; exact ⟨j, o, ho, hj⟩
  · rintro ⟨j, o, ho, hi⟩
    refine ⟨j, hb j o ho, ?_⟩
    simpa [ho] using hi

/-! ### sweep -/

@[simp] theorem sweep_next (h : Heap) : h.sweep.next = h.next := rfl
@[simp] theorem sweep_globals (h : Heap) : h.sweep.globals = h.globals := rfl
@[simp] theorem sweep_pinned (h : Heap) : h.sweep.pinned = h.pinned := rfl
@[simp] theorem sweep_classes (h : Heap) : h.sweep.classes = h.classes := rfl
@[simp] theorem sweep_envs (h : Heap) : h.sweep.envs = h.envs := rfl
@[simp] theorem sweep_nthreads (h : Heap) : h.sweep.nthreads = h.nthreads := rfl
@[simp] theorem sweep_nextEnv (h : Heap) : h.sweep.nextEnv = h.nextEnv := rfl
@[simp] theorem sweep_roots (h : Heap) : h.sweep.roots = h.roots := rfl

theorem sweep_objs {h : Heap} {i : Nat} {o : Obj} :
    h.sweep.objs i = some o ↔ h.held i = true ∧ h.objs i = some o := by
  simp only [sweep]; split <;> simp_all

/-! ### collect -/

/-- Everything but the objects. -/
structure SameRest (h h' : Heap) : Prop where
  next : h'.next = h.next
  globals : h'.globals = h.globals
  pinned : h'.pinned = h.pinned
  classes : h'.classes = h.classes
  envs : h'.envs = h.envs
  nthreads : h'.nthreads = h.nthreads
  nextEnv : h'.nextEnv = h.nextEnv

theorem SameRest.refl (h : Heap) : SameRest h h := ⟨rfl, rfl, rfl, rfl, rfl, rfl, rfl⟩

theorem SameRest.trans {a b c : Heap} (x : SameRest a b) (y : SameRest b c) : SameRest a c :=
  ⟨y.1.trans x.1, y.2.trans x.2, y.3.trans x.3, y.4.trans x.4, y.5.trans x.5, y.6.trans x.6,
    y.7.trans x.7⟩

theorem SameRest.roots {a b : Heap} (x : SameRest a b) : b.roots = a.roots := by
  simp only [Heap.roots, x.globals, x.pinned, x.envs, x.nthreads]

theorem collectN_rest (n : Nat) (h : Heap) : SameRest h (collectN n h) := by
  induction n generalizing h with
  | zero => exact SameRest.refl h
  | succ n ih => exact SameRest.trans (b := h.sweep) ⟨rfl, rfl, rfl, rfl, rfl, rfl, rfl⟩ (ih h.sweep)

theorem collect_rest (h : Heap) : SameRest h h.collect := collectN_rest _ _

@[simp] theorem collect_next (h : Heap) : h.collect.next = h.next := (collect_rest h).next
@[simp] theorem collect_globals (h : Heap) : h.collect.globals = h.globals := (collect_rest h).globals
@[simp] theorem collect_pinned (h : Heap) : h.collect.pinned = h.pinned := (collect_rest h).pinned
@[simp] theorem collect_classes (h : Heap) : h.collect.classes = h.classes := (collect_rest h).classes
@[simp] theorem collect_envs (h : Heap) : h.collect.envs = h.envs := (collect_rest h).envs
@[simp] theorem collect_nthreads (h : Heap) : h.collect.nthreads = h.nthreads := (collect_rest h).nthreads
@[simp] theorem collect_nextEnv (h : Heap) : h.collect.nextEnv = h.nextEnv := (collect_rest h).nextEnv
@[simp] theorem collect_roots (h : Heap) : h.collect.roots = h.roots := (collect_rest h).roots

theorem collectN_sub {n : Nat} {h : Heap} {i : Nat} {o : Obj}
    (hi : (collectN n h).objs i = some o) : h.objs i = some o := by
  induction n generalizing h with
  | zero => exact hi
  | succ n ih => exact (sweep_objs.1 (ih hi)).2

/-- Releasing changes no object that it keeps. -/
theorem collect_sub {h : Heap} {i : Nat} {o : Obj} (hi : h.collect.objs i = some o) :
    h.objs i = some o := collectN_sub hi

theorem collectN_keep {n : Nat} {h : Heap} (hb : ∀ j o, h.objs j = some o → j < h.next) {i : Nat}
    (hr : h.Reach i) {o : Obj} (hi : h.objs i = some o) : (collectN n h).objs i = some o := by
  induction n generalizing h with
  | zero => exact hi
  | succ n ih =>
    have keep : ∀ {j}, h.Reach j → h.held j = true := by
      intro j hj
      rw [held_iff hb]
      cases hj with
      | root h1 => exact .inl h1
      | edge h1 h2 => exact .inr ⟨_, h2⟩
    have hreach : ∀ {j}, h.Reach j → h.sweep.Reach j := by
      intro j hj
      induction hj with
      | root h1 => exact .root h1
      | edge h1 h2 ih2 =>
        obtain ⟨o, ho, he⟩ := h2
        exact .edge ih2 ⟨o, sweep_objs.2 ⟨keep h1, ho⟩, he⟩
    exact ih (fun j o hj => hb j o (sweep_objs.1 hj).2) (hreach hr) (sweep_objs.2 ⟨keep hr, hi⟩)

/-- What is owned through a chain of strong references from a root is kept. -/
theorem collect_keep {h : Heap} (hb : ∀ j o, h.objs j = some o → j < h.next) {i : Nat}
    (hr : h.Reach i) {o : Obj} (hi : h.objs i = some o) : h.collect.objs i = some o :=
  collectN_keep hb hr hi

/-- The number of live objects. -/
def count (h : Heap) : Nat := (List.range h.next).countP fun i => (h.objs i).isSome

theorem countP_lt_of {p q : Nat → Bool} : ∀ (l : List Nat), (∀ i ∈ l, p i = true → q i = true) →
    (∃ i ∈ l, q i = true ∧ p i = false) → l.countP p < l.countP q
  | [], _, h => by obtain ⟨i, hi, _⟩ := h; cases hi
  | x :: l, hs, hx => by
    have hle : l.countP p ≤ l.countP q :=
      List.countP_mono_left fun i hi => hs i (List.mem_cons_of_mem _ hi)
    obtain ⟨i, hi, hq, hp⟩ := hx
    rcases List.mem_cons.1 hi with rfl | hi
    · simp only [List.countP_cons, hp, hq]; simp; omega
    · have := countP_lt_of l (fun j hj => hs j (List.mem_cons_of_mem _ hj)) ⟨i, hi, hq, hp⟩
      simp only [List.countP_cons]
      have hx := hs x (List.mem_cons_self ..)
      cases hpx : p x with
      | false => simp; omega
      | true => simp [hx hpx]; omega

/-- Every live object is held. -/
def AllHeld (h : Heap) : Prop := ∀ i o, h.objs i = some o → h.held i = true

theorem sweep_count {h : Heap} (hb : ∀ j o, h.objs j = some o → j < h.next) (hn : ¬ h.AllHeld) :
    h.sweep.count < h.count := by
  refine countP_lt_of _ (fun i _ hi => ?_) ?_
  · obtain ⟨o, ho⟩ := Option.isSome_iff_exists.1 hi
    exact Option.isSome_iff_exists.2 ⟨o, (sweep_objs.1 ho).2⟩
  · simp only [AllHeld, Classical.not_forall] at hn
    obtain ⟨i, o, ho, hi⟩ := hn
    refine ⟨i, List.mem_range.2 (hb i o ho), by simp [ho], ?_⟩
    simp [sweep, hi]

theorem sweep_of_allHeld {h : Heap} (ha : h.AllHeld) : h.sweep = h := by
  have : (fun i => if h.held i then h.objs i else none) = h.objs := by
    funext i
    split
    · rfl
    · cases ho : h.objs i with
      | none => rfl
      | some o => exact absurd (ha i o ho) (by assumption)
  simp only [sweep, this]

theorem collectN_of_allHeld (n : Nat) {h : Heap} (ha : h.AllHeld) : collectN n h = h := by
  induction n with
  | zero => rfl
  | succ n ih => simp only [collectN, sweep_of_allHeld ha, ih]

theorem collectN_allHeld {n : Nat} {h : Heap} (hb : ∀ j o, h.objs j = some o → j < h.next)
    (hn : h.count ≤ n) : (collectN n h).AllHeld := by
  induction n generalizing h with
  | zero =>
    intro i o hi
    have hz : h.count = 0 := Nat.le_zero.1 hn
    have := List.countP_eq_zero.1 hz i (List.mem_range.2 (hb i o hi))
    simp [show h.objs i = some o from hi] at this
  | succ n ih =>
    by_cases ha : h.AllHeld
    · rw [collectN_of_allHeld _ ha]; exact ha
    · refine ih (fun j o hj => hb j o (sweep_objs.1 hj).2) ?_
      have := sweep_count hb ha
      omega

/-- After releasing, every live object has an owner. -/
theorem collect_allHeld {h : Heap} (hb : ∀ j o, h.objs j = some o → j < h.next) :
    h.collect.AllHeld := by
  refine collectN_allHeld hb ?_
  have := List.countP_le_length (p := fun i => (h.objs i).isSome) (l := List.range h.next)
  simpa [count] using this

/-- Nothing is released if everything has an owner. -/
theorem collect_of_allHeld {h : Heap} (ha : h.AllHeld) : h.collect = h := collectN_of_allHeld _ ha

end Heap
end Jnivm
