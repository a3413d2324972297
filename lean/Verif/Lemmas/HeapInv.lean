import Verif.Lemmas.Heap
/-!
The invariant of the reference machine and what a call may change.
-/
namespace Jnivm

/-- A kind never changes, except that an array gets other elements and a variable another value. -/
def Kind.Same : Kind → Kind → Prop
  | .array s, .array s' => s.length = s'.length
  | .record s, .record s' => s.length = s'.length
  | a, b => a = b

theorem Kind.Same.refl (k : Kind) : k.Same k := by cases k <;> simp [Kind.Same]

theorem Kind.Same.trans {a b c : Kind} (x : a.Same b) (y : b.Same c) : a.Same c := by
  cases a <;> cases b <;> simp only [Kind.Same, reduceCtorEq] at x <;> cases c <;>
    simp_all [Kind.Same]

theorem Kind.Same.of_eq {a b : Kind} (h : a = b) : a.Same b := h ▸ Kind.Same.refl a

theorem Kind.Same.weak {b : Kind} {t : Nat} (x : (Kind.weak t).Same b) : b = .weak t := by
  cases b <;> simp_all [Kind.Same]
theorem Kind.Same.global {b : Kind} {t : Nat} (x : (Kind.global t).Same b) : b = .global t := by
  cases b <;> simp_all [Kind.Same]
theorem Kind.Same.weak' {b : Kind} {t : Nat} (x : b.Same (Kind.weak t)) : b = .weak t := by
  cases b <;> simp_all [Kind.Same]
theorem Kind.Same.global' {b : Kind} {t : Nat} (x : b.Same (Kind.global t)) : b = .global t := by
  cases b <;> simp_all [Kind.Same]
theorem Kind.Same.wrapper {a b : Kind} (x : a.Same b) : b.isWrapper = a.isWrapper := by
  cases a <;> cases b <;> simp_all [Kind.Same, Kind.isWrapper]

namespace Heap

/-- The part of the invariant that holds also inside a call. -/
structure Pre (h : Heap) : Prop where
  bound : ∀ i o, h.objs i = some o → i < h.next
  roots : ∀ i, i ∈ h.roots → h.Live i
  edges : ∀ j i, h.Edge j i → h.Live i
  target : ∀ i o t, h.objs i = some o → o.kind = .weak t ∨ o.kind = .global t →
    t < i ∧ ∀ o', h.objs t = some o' → o'.kind.isWrapper = false
  thread : ∀ t e, h.envs t = some e → t < h.nthreads
  frames : ∀ t e, h.envs t = some e → e.frames ≠ []
  free : ∀ t e, h.envs t = some e → ∀ f ∈ e.free, f = []
  eid : ∀ t e, h.envs t = some e → e.eid < h.nextEnv
  eidInj : ∀ t u e e', h.envs t = some e → h.envs u = some e' → e.eid = e'.eid → t = u
  classes : ∀ n c, (n, c) ∈ h.classes → c ∈ h.pinned ∧ ∃ o, h.objs c = some o ∧ o.kind = .cls n
  cls : ∀ i o c, h.objs i = some o → o.cls = some c → ∃ n, (n, c) ∈ h.classes

/-- The invariant between calls. -/
structure Inv (h : Heap) : Prop extends Pre h where
  held : h.AllHeld

/-- The tables of the VM only grow; a new class is one of the new entries. -/
def Pins (h h' : Heap) : Prop := ∃ l, h'.pinned = h.pinned ++ l ∧
  (∀ n c, (n, c) ∈ h'.classes → (n, c) ∈ h.classes ∨ c ∈ l) ∧ ∀ x ∈ h.classes, x ∈ h'.classes

theorem Pins.add {h h' : Heap} (l : List Nat) (h1 : h'.pinned = h.pinned ++ l)
    (h2 : h'.classes = h.classes) : Pins h h' :=
  ⟨l, h1, fun _ _ hc => .inl (h2 ▸ hc), fun _ hc => h2 ▸ hc⟩

theorem Pins.of_eq {h h' : Heap} (h1 : h'.pinned = h.pinned) (h2 : h'.classes = h.classes) :
    Pins h h' := Pins.add [] (by rw [h1, List.append_nil]) h2

theorem Pins.trans {a b c : Heap} (x : Pins a b) (y : Pins b c) : Pins a c := by
  obtain ⟨l, h1, h2, g1⟩ := x
  obtain ⟨m, h3, h4, g2⟩ := y
  refine ⟨l ++ m, by rw [h3, h1, List.append_assoc], fun n k hk => ?_, fun x hx => g2 x (g1 x hx)⟩
  rcases h4 n k hk with hk | hk
  · rcases h2 n k hk with hk | hk
    · exact .inl hk
    · exact .inr (List.mem_append_left _ hk)
  · exact .inr (List.mem_append_right _ hk)

theorem Pins.subset {h h' : Heap} (x : Pins h h') {i : Nat} (hi : i ∈ h.pinned) : i ∈ h'.pinned := by
  obtain ⟨l, h1, _⟩ := x
  rw [h1]; exact List.mem_append_left _ hi

/-- What one call of thread `t` may change (before objects are released). -/
structure Step (t : Nat) (h h' : Heap) : Prop where
  pre : h'.Pre
  next : h.next ≤ h'.next
  live : ∀ i o, h.objs i = some o → ∃ o', h'.objs i = some o' ∧ o.kind.Same o'.kind ∧
    ∀ c, o.cls = some c → o'.cls = some c
  fresh : ∀ i, i < h.next → h.objs i = none → h'.objs i = none
  others : ∀ u, u ≠ t → h'.envs u = h.envs u
  classes : ∀ n c, h.classes.lookup n = some c → h'.classes.lookup n = some c
  pinned : Pins h h'

theorem Step.refl {h : Heap} (t : Nat) (hp : h.Pre) : Step t h h :=
  ⟨hp, Nat.le_refl _, fun _ o ho => ⟨o, ho, Kind.Same.refl _, fun _ hc => hc⟩, fun _ _ x => x,
    fun _ _ => rfl, fun _ _ x => x, Pins.of_eq rfl rfl⟩

theorem Step.trans {t : Nat} {a b c : Heap} (x : Step t a b) (y : Step t b c) : Step t a c where
  pre := y.pre
  next := Nat.le_trans x.next y.next
  live i o ho := by
    obtain ⟨o1, h1, k1, c1⟩ := x.live i o ho
    obtain ⟨o2, h2, k2, c2⟩ := y.live i o1 h1
    exact ⟨o2, h2, k1.trans k2, fun c hc => c2 c (c1 c hc)⟩
  fresh i hi ho := y.fresh i (Nat.lt_of_lt_of_le hi x.next) (x.fresh i hi ho)
  others u hu := (y.others u hu).trans (x.others u hu)
  classes n c hc := y.classes n c (x.classes n c hc)
  pinned := x.pinned.trans y.pinned

theorem Step.live' {t : Nat} {h h' : Heap} (x : Step t h h') {i : Nat} (hl : h.Live i) : h'.Live i := by
  obtain ⟨o, ho⟩ := hl
  obtain ⟨o', ho', _⟩ := x.live i o ho
  exact ⟨o', ho'⟩

/-- A step shows where every object comes from. -/
theorem Step.old {t : Nat} {h h' : Heap} (x : Step t h h') {i : Nat} {o' : Obj} (hi : i < h.next)
    (ho' : h'.objs i = some o') : ∃ o, h.objs i = some o ∧ o.kind.Same o'.kind ∧
      ∀ c, o.cls = some c → o'.cls = some c := by
  cases ho : h.objs i with
  | none => rw [x.fresh i hi ho] at ho'; cases ho'
  | some o =>
    obtain ⟨o1, h1, k⟩ := x.live i o ho
    rw [ho'] at h1; cases h1
    exact ⟨o, rfl, k⟩

/-! ### Building blocks -/

@[simp] theorem setEnv_envs (h : Heap) (t u : Nat) (e : Env) :
    (h.setEnv t e).envs u = if u = t then some e else h.envs u := rfl
@[simp] theorem setEnv_objs (h : Heap) (t : Nat) (e : Env) : (h.setEnv t e).objs = h.objs := rfl
@[simp] theorem setEnv_next (h : Heap) (t : Nat) (e : Env) : (h.setEnv t e).next = h.next := rfl
@[simp] theorem setEnv_globals (h : Heap) (t : Nat) (e : Env) : (h.setEnv t e).globals = h.globals := rfl
@[simp] theorem setEnv_classes (h : Heap) (t : Nat) (e : Env) : (h.setEnv t e).classes = h.classes := rfl
@[simp] theorem setObj_objs (h : Heap) (i j : Nat) (o : Obj) :
    (h.setObj i o).objs j = if j = i then some o else h.objs j := rfl
@[simp] theorem setObj_envs (h : Heap) (i : Nat) (o : Obj) : (h.setObj i o).envs = h.envs := rfl
@[simp] theorem setObj_next (h : Heap) (i : Nat) (o : Obj) : (h.setObj i o).next = h.next := rfl
@[simp] theorem setObj_roots (h : Heap) (i : Nat) (o : Obj) : (h.setObj i o).roots = h.roots := rfl
@[simp] theorem setObj_classes (h : Heap) (i : Nat) (o : Obj) : (h.setObj i o).classes = h.classes := rfl
@[simp] theorem setObj_globals (h : Heap) (i : Nat) (o : Obj) : (h.setObj i o).globals = h.globals := rfl

/-- Replace the environment of an attached thread. -/
theorem Pre.setEnv {h : Heap} (hp : h.Pre) {t : Nat} {e e' : Env} (he : h.envs t = some e)
    (h1 : e'.eid = e.eid) (h2 : e'.frames ≠ []) (h3 : ∀ f ∈ e'.free, f = [])
    (h4 : ∀ i, (∃ f ∈ e'.frames, i ∈ f) ∨ e'.pending = some i → h.Live i) :
    Step t h (h.setEnv t e') := by
  have hpre : (h.setEnv t e').Pre := by
    constructor
    · exact hp.bound
    · intro i hi
      rcases mem_roots.1 hi with hg | hg | ⟨u, e1, hu, heu, hi⟩
      · exact hp.roots i (mem_roots.2 (.inl hg))
      · exact hp.roots i (mem_roots.2 (.inr (.inl hg)))
      · rw [setEnv_envs] at heu
        split at heu
        · cases heu; exact h4 i hi
        · exact hp.roots i (mem_roots.2 (.inr (.inr ⟨u, e1, hu, heu, hi⟩)))
    · exact hp.edges
    · exact hp.target
    · intro u e1 heu
      rw [setEnv_envs] at heu
      split at heu
      · rename_i hut; rw [hut]; exact hp.thread t e he
      · exact hp.thread u e1 heu
    · intro u e1 heu
      rw [setEnv_envs] at heu
      split at heu
      · cases heu; exact h2
      · exact hp.frames u e1 heu
    · intro u e1 heu
      rw [setEnv_envs] at heu
      split at heu
      · cases heu; exact h3
      · exact hp.free u e1 heu
    · intro u e1 heu
      rw [setEnv_envs] at heu
      split at heu
      · cases heu; rw [h1]; exact hp.eid t e he
      · exact hp.eid u e1 heu
    · intro u v e1 e2 hu hv hid
      rw [setEnv_envs] at hu hv
      split at hu <;> split at hv
      · simp_all
      · cases hu; rw [h1] at hid
        have := hp.eidInj t v e e2 he hv hid
        simp_all
      · cases hv; rw [h1] at hid
        have := hp.eidInj u t e1 e hu he hid
        simp_all
      · exact hp.eidInj u v e1 e2 hu hv hid
    · exact hp.classes
    · exact hp.cls
  refine ⟨hpre, Nat.le_refl _, fun i o ho => ⟨o, ho, Kind.Same.refl _, fun _ hc => hc⟩,
    fun _ _ x => x, fun u hu => ?_, fun _ _ x => x, Pins.of_eq rfl rfl⟩
  rw [setEnv_envs, if_neg hu]

theorem Pre.live_lt {h : Heap} (hp : h.Pre) {i : Nat} (hl : h.Live i) : i < h.next := by
  obtain ⟨o, ho⟩ := hl; exact hp.bound i o ho

/-- Replace an object by one of the same kind. -/
theorem Pre.setObj {h : Heap} (hp : h.Pre) (t : Nat) {i : Nat} {o o' : Obj} (ho : h.objs i = some o)
    (h1 : o.kind.Same o'.kind) (h2 : ∀ c, o.cls = some c → o'.cls = some c)
    (h3 : ∀ j ∈ o'.kind.edges, h.Live j) (h4 : ∀ c, o'.cls = some c → ∃ n, (n, c) ∈ h.classes) :
    Step t h (h.setObj i o') := by
  have hlive : ∀ {j}, h.Live j → (h.setObj i o').Live j := by
    rintro j ⟨oj, hj⟩
    by_cases hji : j = i
    · exact ⟨o', by simp [hji]⟩
    · exact ⟨oj, by simp [hji, hj]⟩
  have hpre : (h.setObj i o').Pre := by
    constructor
    · intro j oj hj
      rw [setObj_objs] at hj
      split at hj
      · rename_i hji; rw [hji]; exact hp.bound i o ho
      · exact hp.bound j oj hj
    · intro j hj; exact hlive (hp.roots j hj)
    · rintro j k ⟨oj, hj, hk⟩
      rw [setObj_objs] at hj
      split at hj
      · cases hj; exact hlive (h3 k hk)
      · exact hlive (hp.edges j k ⟨oj, hj, hk⟩)
    · intro j oj k hj hk
      have hold : ∃ o1, h.objs j = some o1 ∧ (o1.kind = .weak k ∨ o1.kind = .global k) := by
        rw [setObj_objs] at hj
        split at hj
        · rename_i hji; cases hj
          refine ⟨o, hji ▸ ho, ?_⟩
          rcases hk with hk | hk
          · rw [hk] at h1; exact .inl h1.weak'
          · rw [hk] at h1; exact .inr h1.global'
        · exact ⟨oj, hj, hk⟩
      obtain ⟨o1, ho1, hk1⟩ := hold
      refine ⟨(hp.target j o1 k ho1 hk1).1, fun ok hok => ?_⟩
      rw [setObj_objs] at hok
      split at hok
      · rename_i hki; cases hok
        rw [h1.wrapper]; exact (hp.target j o1 k ho1 hk1).2 o (hki ▸ ho)
      · exact (hp.target j o1 k ho1 hk1).2 ok hok
    · exact hp.thread
    · exact hp.frames
    · exact hp.free
    · exact hp.eid
    · exact hp.eidInj
    · intro n c hc
      obtain ⟨hpin, oc, hoc, hkc⟩ := hp.classes n c hc
      refine ⟨hpin, ?_⟩
      by_cases hci : c = i
      · refine ⟨o', by simp [hci], ?_⟩
        rw [hci, ho] at hoc; cases hoc
        rw [hkc] at h1
        revert h1; cases o'.kind <;> simp [Kind.Same, eq_comm]
      · exact ⟨oc, by simp [hci, hoc], hkc⟩
    · intro j oj c hj hc
      rw [setObj_objs] at hj
      split at hj
      · cases hj; exact h4 c hc
      · exact hp.cls j oj c hj hc
  refine ⟨hpre, Nat.le_refl _, fun j oj hj => ?_, fun j _ hj => ?_, fun _ _ => rfl, fun _ _ x => x,
    Pins.of_eq rfl rfl⟩
  · by_cases hji : j = i
    · rw [hji, ho] at hj; cases hj
      exact ⟨o', by simp [hji], h1, h2⟩
    · exact ⟨oj, by simp [hji, hj], Kind.Same.refl _, fun _ hc => hc⟩
  · have hji : j ≠ i := fun hji => by rw [hji, ho] at hj; cases hj
    simp [hji, hj]

@[simp] theorem alloc_snd (h : Heap) (o : Obj) : (h.alloc o).2 = h.next := rfl
@[simp] theorem alloc_next (h : Heap) (o : Obj) : (h.alloc o).1.next = h.next + 1 := rfl
@[simp] theorem alloc_objs (h : Heap) (o : Obj) (i : Nat) :
    (h.alloc o).1.objs i = if i = h.next then some o else h.objs i := rfl
@[simp] theorem alloc_envs (h : Heap) (o : Obj) : (h.alloc o).1.envs = h.envs := rfl
@[simp] theorem alloc_classes (h : Heap) (o : Obj) : (h.alloc o).1.classes = h.classes := rfl
@[simp] theorem alloc_globals (h : Heap) (o : Obj) : (h.alloc o).1.globals = h.globals := rfl
@[simp] theorem alloc_pinned (h : Heap) (o : Obj) : (h.alloc o).1.pinned = h.pinned := rfl
@[simp] theorem alloc_roots (h : Heap) (o : Obj) : (h.alloc o).1.roots = h.roots := rfl

theorem made_cases (ty : Option Str) :
    Kind.made ty = .plain ∨ ty = some "java/lang/Throwable".toList ∧ Kind.made ty = .throwable none := by
  unfold Kind.made
  split
  · exact .inr ⟨‹_›, rfl⟩
  · exact .inl rfl

@[simp] theorem made_edges (ty : Option Str) : (Kind.made ty).edges = [] := by
  rcases made_cases ty with h | ⟨_, h⟩ <;> rw [h] <;> rfl

@[simp] theorem made_wrapper (ty : Option Str) : (Kind.made ty).isWrapper = false := by
  rcases made_cases ty with h | ⟨_, h⟩ <;> rw [h] <;> rfl

theorem made_target {ty : Option Str} {k : Nat} (hk : Kind.made ty = .weak k ∨ Kind.made ty = .global k) :
    False := by
  rcases made_cases ty with h | ⟨_, h⟩ <;> rw [h] at hk <;> simp at hk

theorem alloc_live (h : Heap) (o : Obj) : (h.alloc o).1.Live h.next := ⟨o, by simp⟩

/-- A new object. -/
theorem Pre.alloc {h : Heap} (hp : h.Pre) (t : Nat) {o : Obj}
    (h1 : ∀ j ∈ o.kind.edges, h.Live j)
    (h2 : ∀ k, o.kind = .weak k ∨ o.kind = .global k →
      ∃ ok, h.objs k = some ok ∧ ok.kind.isWrapper = false)
    (h3 : ∀ c, o.cls = some c → ∃ n, (n, c) ∈ h.classes) : Step t h (h.alloc o).1 := by
  have hne : ∀ {j oj}, h.objs j = some oj → j ≠ h.next := fun hj => Nat.ne_of_lt (hp.bound _ _ hj)
  have hlive : ∀ {j}, h.Live j → (h.alloc o).1.Live j := by
    rintro j ⟨oj, hj⟩
    exact ⟨oj, by simp [hne hj, hj]⟩
  have hpre : (h.alloc o).1.Pre := by
    constructor
    · intro j oj hj
      rw [alloc_objs] at hj
      rw [alloc_next]
      split at hj
      · omega
      · exact Nat.lt_succ_of_lt (hp.bound j oj hj)
    · intro j hj; exact hlive (hp.roots j hj)
    · rintro j k ⟨oj, hj, hk⟩
      rw [alloc_objs] at hj
      split at hj
      · cases hj; exact hlive (h1 k hk)
      · exact hlive (hp.edges j k ⟨oj, hj, hk⟩)
    · intro j oj k hj hk
      rw [alloc_objs] at hj
      split at hj
      · rename_i hjn; cases hj
        obtain ⟨ok, hok, hw⟩ := h2 k hk
        refine ⟨hjn ▸ hp.bound k ok hok, fun ok' hok' => ?_⟩
        rw [alloc_objs, if_neg (hne hok), hok] at hok'
        cases hok'; exact hw
      · obtain ⟨hlt, hw⟩ := hp.target j oj k hj hk
        refine ⟨hlt, fun ok' hok' => ?_⟩
        have : k ≠ h.next := Nat.ne_of_lt (Nat.lt_trans hlt (hp.bound j oj hj))
        rw [alloc_objs, if_neg this] at hok'
        exact hw ok' hok'
    · exact hp.thread
    · exact hp.frames
    · exact hp.free
    · exact hp.eid
    · exact hp.eidInj
    · intro n c hc
      obtain ⟨hpin, oc, hoc, hkc⟩ := hp.classes n c hc
      exact ⟨hpin, oc, by simp [hne hoc, hoc], hkc⟩
    · intro j oj c hj hc
      rw [alloc_objs] at hj
      split at hj
      · cases hj; exact h3 c hc
      · exact hp.cls j oj c hj hc
  refine ⟨hpre, Nat.le_succ _, fun j oj hj => ?_, fun j hlt hj => ?_, fun _ _ => rfl, fun _ _ x => x,
    Pins.of_eq rfl rfl⟩
  · exact ⟨oj, by simp [hne hj, hj], Kind.Same.refl _, fun _ hc => hc⟩
  · simp [Nat.ne_of_lt hlt, hj]

/-- Change of the list of global references. -/
theorem Pre.setGlobals {h : Heap} (hp : h.Pre) (t : Nat) {gs : List Nat} (h1 : ∀ i ∈ gs, h.Live i) :
    Step t h { h with globals := gs } := by
  refine ⟨?_, Nat.le_refl _, fun i o ho => ⟨o, ho, Kind.Same.refl _, fun _ hc => hc⟩,
    fun _ _ x => x, fun _ _ => rfl, fun _ _ x => x, Pins.of_eq rfl rfl⟩
  refine ⟨hp.bound, fun i hi => ?_, hp.edges, hp.target, hp.thread, hp.frames, hp.free, hp.eid,
    hp.eidInj, hp.classes, hp.cls⟩
  rcases mem_roots.1 hi with hg | hg | hg
  · exact h1 i hg
  · exact hp.roots i (mem_roots.2 (.inr (.inl hg)))
  · exact hp.roots i (mem_roots.2 (.inr (.inr hg)))

/-- A new entry of the tables of the VM. -/
theorem Pre.pin {h : Heap} (hp : h.Pre) (t : Nat) {i : Nat} (h1 : h.Live i) :
    Step t h { h with pinned := h.pinned ++ [i] } := by
  refine ⟨?_, Nat.le_refl _, fun i o ho => ⟨o, ho, Kind.Same.refl _, fun _ hc => hc⟩,
    fun _ _ x => x, fun _ _ => rfl, fun _ _ x => x, Pins.add _ rfl rfl⟩
  refine ⟨hp.bound, fun j hj => ?_, hp.edges, hp.target, hp.thread, hp.frames, hp.free, hp.eid,
    hp.eidInj, fun n c hc => ?_, hp.cls⟩
  · rcases mem_roots.1 hj with hg | hg | hg
    · exact hp.roots j (mem_roots.2 (.inl hg))
    · rcases List.mem_append.1 hg with hg | hg
      · exact hp.roots j (mem_roots.2 (.inr (.inl hg)))
      · rw [List.mem_singleton.1 hg]; exact h1
    · exact hp.roots j (mem_roots.2 (.inr (.inr hg)))
  · obtain ⟨a, b⟩ := hp.classes n c hc
    exact ⟨List.mem_append_left _ a, b⟩

theorem lookup_mem {α β : Type} [BEq α] [LawfulBEq α] {l : List (α × β)} {a : α} {b : β}
    (h : l.lookup a = some b) : (a, b) ∈ l := by
  induction l with
  | nil => cases h
  | cons x l ih =>
    obtain ⟨k, v⟩ := x
    rw [List.lookup_cons] at h
    split at h
    · rename_i hk
      cases h
      rw [eq_of_beq hk]
      exact List.mem_cons_self ..
    · exact List.mem_cons_of_mem _ (ih h)

/-- Find or create a class. -/
theorem Pre.intern {h : Heap} (hp : h.Pre) (t : Nat) (name : Str) :
    Step t h (h.intern name).1 ∧ (h.intern name).1.Live (h.intern name).2 ∧
      (h.intern name).1.classes.lookup name = some (h.intern name).2 := by
  simp only [Heap.intern]
  split
  · rename_i c hc
    obtain ⟨_, o, ho, _⟩ := hp.classes name c (lookup_mem hc)
    exact ⟨Step.refl t hp, ⟨o, ho⟩, hc⟩
  · rename_i hn
    have s1 : Step t h (h.alloc ⟨.cls name, none⟩).1 :=
      hp.alloc t (by simp [Kind.edges]) (by simp) (by simp)
    have s2 := s1.pre.pin t (alloc_live h ⟨.cls name, none⟩)
    have s3 := s1.trans s2
    refine ⟨⟨?_, s3.next, s3.live, s3.fresh, s3.others, fun n c hc => ?_,
        ⟨[h.next], rfl, fun n c hc => ?_, fun x hx => List.mem_cons_of_mem _ hx⟩⟩,
      alloc_live h _, ?_⟩
    · have p := s3.pre
      refine ⟨p.bound, p.roots, p.edges, p.target, p.thread, p.frames, p.free, p.eid, p.eidInj,
        fun n c hc => ?_, fun i o c ho hc => ?_⟩
      · rcases List.mem_cons.1 hc with hc | hc
        · cases hc
          exact ⟨by simp, ⟨.cls name, none⟩, by simp, rfl⟩
        · exact p.classes n c hc
      · obtain ⟨n, hn⟩ := p.cls i o c ho hc
        exact ⟨n, List.mem_cons_of_mem _ hn⟩
    · simp only [List.lookup_cons, alloc_classes]
      have : (n == name) = false := by
        rw [Bool.eq_false_iff]
        intro he
        rw [eq_of_beq he] at hc
        rw [hn] at hc; cases hc
      rw [this]; exact hc
    · rcases List.mem_cons.1 hc with hc | hc
      · cases hc
        exact .inr (List.mem_singleton.2 rfl)
      · exact .inl hc
    · simp

/-! ### Casts -/

theorem unwrap_le {h : Heap} (hp : h.Pre) {n i : Nat} {r : Option Nat}
    (hu : h.unwrap n i = .ok r) :
    (∃ o, h.objs i = some o ∧ o.kind.isWrapper = false ∧ r = some i) ∨
    (∃ o t, h.objs i = some o ∧ (o.kind = .weak t ∨ o.kind = .global t) ∧
      (r = some t ∧ h.Live t ∨ r = none ∧ ¬ h.Live t ∧ o.kind = .weak t)) := by
  cases n with
  | zero => cases hu
  | succ n =>
    rw [unwrap] at hu
    cases ho : h.objs i with
    | none => simp [ho] at hu
    | some o =>
      simp only [ho] at hu
      have inner : ∀ t, (o.kind = .weak t ∨ o.kind = .global t) → ∀ r, h.unwrap n t = .ok r →
          h.Live t → r = some t := by
        intro t hk r hu ht
        obtain ⟨ot, hot⟩ := ht
        cases n with
        | zero => cases hu
        | succ n =>
          have hw := (hp.target i o t ho hk).2 ot hot
          rw [unwrap] at hu
          simp only [hot] at hu
          cases hkt : ot.kind <;> simp [hkt, Kind.isWrapper] at hw <;> simp [hkt] at hu <;>
            exact hu.symm
      cases hk : o.kind with
      | weak t =>
        simp only [hk] at hu
        cases hot : h.objs t with
        | none =>
          simp only [hot] at hu
          cases hu
          exact .inr ⟨o, t, rfl, .inl hk, .inr ⟨rfl, fun ⟨o', ho'⟩ => by simp [hot] at ho', hk⟩⟩
        | some ot =>
          simp only [hot] at hu
          exact .inr ⟨o, t, rfl, .inl hk, .inl ⟨inner t (.inl hk) r hu ⟨ot, hot⟩, ot, hot⟩⟩
      | global t =>
        simp only [hk] at hu
        have ht : h.Live t := hp.edges i t ⟨o, ho, by simp [hk, Kind.edges]⟩
        exact .inr ⟨o, t, rfl, .inr hk, .inl ⟨inner t (.inr hk) r hu ht, ht⟩⟩
      | _ =>
        simp only [hk] at hu
        cases hu
        exact .inl ⟨o, rfl, by simp [hk, Kind.isWrapper], rfl⟩

/-- A reference denotes a live object that is no reference object. -/
theorem denote_ok {h : Heap} (hp : h.Pre) {r : Option Nat} {i : Nat}
    (hd : h.denote r = .ok (some i)) : ∃ o, h.objs i = some o ∧ o.kind.isWrapper = false := by
  cases r with
  | none => cases hd
  | some j =>
    rcases unwrap_le hp hd with ⟨o, ho, hw, hr⟩ | ⟨o, t, ho, hk, hr⟩
    · cases hr; exact ⟨o, ho, hw⟩
    · rcases hr with ⟨hr, ot, hot⟩ | ⟨hr, _⟩
      · cases hr; exact ⟨ot, hot, (hp.target j o i ho hk).2 ot hot⟩
      · cases hr

theorem denote_live {h : Heap} (hp : h.Pre) {r : Option Nat} {i : Nat}
    (hd : h.denote r = .ok (some i)) : h.Live i :=
  let ⟨o, ho, _⟩ := denote_ok hp hd; ⟨o, ho⟩

/-! ### References -/

theorem env_ok {h : Heap} {t : Nat} {e : Env} : h.env t = .ok e ↔ h.envs t = some e := by
  simp only [env]; split <;> simp_all

theorem pushLocal_ok {h h' : Heap} {t i : Nat} (hx : h.pushLocal t i = .ok h') :
    ∃ e f fs, h.envs t = some e ∧ e.frames = f :: fs ∧
      h' = h.setEnv t { e with frames := (f ++ [i]) :: fs } := by
  obtain ⟨e, he, hx⟩ := Res.bind_eq_ok.1 hx
  cases hf : e.frames with
  | nil => simp [hf] at hx
  | cons f fs => simp only [hf] at hx; cases hx; exact ⟨e, f, fs, env_ok.1 he, hf, rfl⟩

theorem Pre.rootsEnv {h : Heap} (hp : h.Pre) {t : Nat} {e : Env} (he : h.envs t = some e) {i : Nat}
    (hi : (∃ f ∈ e.frames, i ∈ f) ∨ e.pending = some i) : h.Live i :=
  hp.roots i (mem_roots.2 (.inr (.inr ⟨t, e, hp.thread t e he, he, hi⟩)))

theorem Pre.pushLocal {h h' : Heap} (hp : h.Pre) {t i : Nat} (hl : h.Live i)
    (hx : h.pushLocal t i = .ok h') : Step t h h' := by
  obtain ⟨e, f, fs, he, hf, rfl⟩ := pushLocal_ok hx
  refine hp.setEnv he rfl (by simp) (hp.free t e he) fun j hj => ?_
  rcases hj with ⟨g, hg, hj⟩ | hj
  · rcases List.mem_cons.1 hg with rfl | hg
    · rcases List.mem_append.1 hj with hj | hj
      · exact hp.rootsEnv he (.inl ⟨f, by simp [hf], hj⟩)
      · rw [List.mem_singleton.1 hj]; exact hl
    · exact hp.rootsEnv he (.inl ⟨g, by simp [hf, hg], hj⟩)
  · exact hp.rootsEnv he (.inr hj)

theorem Pre.typeClass {h : Heap} (_ : h.Pre) {n : Str} {c : Nat} (hc : h.typeClass n = some c) :
    ∃ n, (n, c) ∈ h.classes := ⟨n, lookup_mem hc⟩

theorem Pre.toJNI {h h' : Heap} (hp : h.Pre) {t i : Nat} {s : Option Nat}
    (hs : ∀ c, s = some c → ∃ n, (n, c) ∈ h.classes) (hx : h.toJNI t s i = .ok h') : Step t h h' := by
  simp only [Heap.toJNI] at hx
  cases ho : h.objs i with
  | none => simp [ho] at hx
  | some o =>
    simp only [ho] at hx
    cases hc : o.cls with
    | some c =>
      simp only [hc, Option.isNone_some] at hx
      exact hp.pushLocal ⟨o, ho⟩ hx
    | none =>
      simp only [hc, Option.isNone_none, if_true] at hx
      have s1 : Step t h (h.setObj i { o with cls := s }) :=
        hp.setObj t ho (Kind.Same.refl _) (by simp [hc])
          (fun j hj => hp.edges i j ⟨o, ho, hj⟩) hs
      exact s1.trans (s1.pre.pushLocal ⟨{ o with cls := s }, by simp⟩ hx)

theorem Pre.toJNI? {h h' : Heap} (hp : h.Pre) {t : Nat} {s i r : Option Nat}
    (hs : ∀ c, s = some c → ∃ n, (n, c) ∈ h.classes) (hx : h.toJNI? t s i = .ok (h', r)) :
    Step t h h' ∧ r = i := by
  cases i with
  | none => cases hx; exact ⟨Step.refl t hp, rfl⟩
  | some i =>
    obtain ⟨h1, hx1, hx2⟩ := Res.bind_eq_ok.1 hx
    cases hx2
    exact ⟨hp.toJNI hs hx1, rfl⟩

theorem Pre.typeClass? {h : Heap} (hp : h.Pre) {ty : Option Str} :
    ∀ c, ty.bind h.typeClass = some c → ∃ n, (n, c) ∈ h.classes := by
  intro c hc
  obtain ⟨n, _, hn⟩ := Option.bind_eq_some_iff.1 hc
  exact hp.typeClass hn

/-! ### Calls -/

theorem step_newObject {h h' : Heap} (hp : h.Pre) {t : Nat} {ty : Option Str} {r : Option Nat}
    (hx : h.newObject t ty = .ok (h', r)) : Step t h h' := by
  obtain ⟨h1, hx1, hx2⟩ := Res.bind_eq_ok.1 hx
  cases hx2
  have s1 : Step t h (h.alloc ⟨.made ty, none⟩).1 :=
    hp.alloc t (by simp) (fun _ hk => (made_target hk).elim) (by simp)
  exact s1.trans (s1.pre.toJNI s1.pre.typeClass? hx1)

theorem step_returnObject {h h' : Heap} (hp : h.Pre) {t : Nat} {ty : Option Str} {o r : Option Nat}
    (hx : h.returnObject t o ty = .ok (h', r)) : Step t h h' := by
  obtain ⟨i, hx1, hx2⟩ := Res.bind_eq_ok.1 hx
  exact (hp.toJNI? hp.typeClass? hx2).1

theorem step_findClass {h h' : Heap} (hp : h.Pre) {t : Nat} {n : Str} {r : Option Nat}
    (hx : h.findClass t n = .ok (h', r)) : Step t h h' := by
  obtain ⟨h1, hx1, hx2⟩ := Res.bind_eq_ok.1 hx
  cases hx2
  obtain ⟨s1, _⟩ := hp.intern t n
  exact s1.trans (s1.pre.toJNI (fun c hc => s1.pre.typeClass hc) hx1)

theorem step_newMember {h : Heap} (hp : h.Pre) (t : Nat) (m s : Bool) :
    Step t h (h.newMember m s).1 := by
  have s1 : Step t h (h.alloc ⟨if m then .method s else .field s, none⟩).1 :=
    hp.alloc t (by cases m <;> simp [Kind.edges]) (by cases m <;> simp) (by simp)
  exact s1.trans (s1.pre.pin t (alloc_live _ _))

theorem step_pushLocalFrame {h h' : Heap} (hp : h.Pre) {t : Nat}
    (hx : h.pushLocalFrame t = .ok h') : Step t h h' := by
  obtain ⟨e, he, hx⟩ := Res.bind_eq_ok.1 hx
  have he := env_ok.1 he
  cases hf : e.free with
  | nil =>
    simp only [hf] at hx; cases hx
    refine hp.setEnv he rfl (by simp) (by simp) fun j hj => ?_
    refine hp.rootsEnv he ?_
    rcases hj with ⟨g, hg, hj⟩ | hj
    · rcases List.mem_cons.1 hg with rfl | hg
      · cases hj
      · exact .inl ⟨g, hg, hj⟩
    · exact .inr hj
  | cons f fs =>
    simp only [hf] at hx; cases hx
    have hfree := hp.free t e he
    refine hp.setEnv he rfl (by simp) (fun g hg => hfree g (by simp [hf, hg])) fun j hj => ?_
    refine hp.rootsEnv he ?_
    rcases hj with ⟨g, hg, hj⟩ | hj
    · rcases List.mem_cons.1 hg with rfl | hg
      · rw [hfree g (by simp [hf])] at hj; cases hj
      · exact .inl ⟨g, hg, hj⟩
    · exact .inr hj

theorem Pre.popEnv {h : Heap} (hp : h.Pre) {t : Nat} {e : Env} {f : List Nat}
    {fs : List (List Nat)} (he : h.envs t = some e) (hf : e.frames = f :: fs) :
    Step t h (h.setEnv t
      { e with frames := if fs.isEmpty then [[]] else fs, free := [] :: e.free }) := by
  refine hp.setEnv he rfl ?_ ?_ fun j hj => hp.rootsEnv he ?_
  · cases fs <;> simp
  · intro g hg
    rcases List.mem_cons.1 hg with rfl | hg
    · rfl
    · exact hp.free t e he g hg
  · rcases hj with ⟨g, hg, hj⟩ | hj
    · refine .inl ⟨g, ?_, hj⟩
      cases fs with
      | nil => simp at hg; rw [hg] at hj; cases hj
      | cons g1 gs => rw [hf]; exact List.mem_cons_of_mem _ hg
    · exact .inr hj

theorem step_popLocalFrame {h h' : Heap} (hp : h.Pre) {t : Nat} {o r : Option Nat}
    (hx : h.popLocalFrame t o = .ok (h', r)) : Step t h h' := by
  obtain ⟨e, he, hx⟩ := Res.bind_eq_ok.1 hx
  obtain ⟨res, hd, hx⟩ := Res.bind_eq_ok.1 hx
  have he := env_ok.1 he
  cases hf : e.frames with
  | nil => simp [hf] at hx
  | cons f fs =>
    simp only [hf] at hx
    have s1 := hp.popEnv he hf
    cases res with
    | none => simp only at hx; cases hx; exact s1
    | some i =>
      obtain ⟨h1, hx1, hx2⟩ := Res.bind_eq_ok.1 hx
      cases hx2
      exact s1.trans (s1.pre.toJNI (fun c hc => s1.pre.typeClass hc) hx1)

theorem step_newWrapper {h : Heap} (hp : h.Pre) (t : Nat) {o : Option Nat} {i : Nat} {n : Str}
    (hd : h.denote o = .ok (some i)) {k : Kind} (hk : k = .weak i ∨ k = .global i) :
    let h1 := (h.intern n).1
    let h2 := (h1.alloc ⟨k, some (h.intern n).2⟩).1
    Step t h { h2 with globals := h2.globals ++ [h1.next] } := by
  obtain ⟨s1, _, hc⟩ := hp.intern t n
  obtain ⟨oi, ho, hw⟩ := denote_ok hp hd
  obtain ⟨oi', ho', hk', _⟩ := s1.live i oi ho
  have s2 : Step t (h.intern n).1 ((h.intern n).1.alloc ⟨k, some (h.intern n).2⟩).1 := by
    refine s1.pre.alloc t ?_ ?_ ?_
    · intro j hj
      rcases hk with rfl | rfl
      · simp [Kind.edges] at hj
      · simp [Kind.edges] at hj; rw [hj]; exact ⟨oi', ho'⟩
    · intro j hj
      have : j = i := by rcases hk with rfl | rfl <;> simp at hj <;> exact hj.symm
      rw [this]
      exact ⟨oi', ho', hk'.wrapper.trans hw⟩
    · intro c hcc; cases hcc; exact ⟨n, lookup_mem hc⟩
  refine (s1.trans s2).trans (s2.pre.setGlobals t fun j hj => ?_)
  rcases List.mem_append.1 hj with hj | hj
  · exact s2.pre.roots j (mem_roots.2 (.inl hj))
  · rw [List.mem_singleton.1 hj]; exact alloc_live _ _

theorem step_newGlobalRef {h h' : Heap} (hp : h.Pre) (t : Nat) {o r : Option Nat}
    (hx : h.newGlobalRef o = .ok (h', r)) : Step t h h' := by
  obtain ⟨d, hd, hx⟩ := Res.bind_eq_ok.1 hx
  cases d with
  | none => cases hx; exact Step.refl t hp
  | some i =>
    cases hx
    exact step_newWrapper hp t hd (.inr rfl)

theorem step_newWeakGlobalRef {h h' : Heap} (hp : h.Pre) (t : Nat) {o r : Option Nat}
    (hx : h.newWeakGlobalRef o = .ok (h', r)) : Step t h h' := by
  obtain ⟨d, hd, hx⟩ := Res.bind_eq_ok.1 hx
  cases d with
  | none => cases hx; exact Step.refl t hp
  | some i =>
    cases hx
    exact step_newWrapper hp t hd (.inl rfl)

theorem step_eraseGlobal {h : Heap} (hp : h.Pre) (t i : Nat) :
    Step t h { h with globals := h.globals.erase i } :=
  hp.setGlobals t fun _ hj => hp.roots _ (mem_roots.2 (.inl (List.mem_of_mem_erase hj)))

theorem step_deleteGlobalRef {h h' : Heap} (hp : h.Pre) (t : Nat) {o : Option Nat}
    (hx : h.deleteGlobalRef o = .ok h') : Step t h h' := by
  obtain ⟨d, hd, hx⟩ := Res.bind_eq_ok.1 hx
  cases d with
  | none => cases hx; exact Step.refl t hp
  | some i => cases hx; exact step_eraseGlobal hp t i

theorem step_deleteWeakGlobalRef {h h' : Heap} (hp : h.Pre) (t : Nat) {o : Option Nat}
    (hx : h.deleteWeakGlobalRef o = .ok h') : Step t h h' := by
  obtain ⟨d, hd, hx⟩ := Res.bind_eq_ok.1 hx
  cases d with
  | none => cases hx; exact Step.refl t hp
  | some i => cases hx; exact step_eraseGlobal hp t i

theorem eraseLocal_mem {i : Nat} {fs : List (List Nat)} {f : List Nat} (hf : f ∈ eraseLocal i fs) :
    ∃ g ∈ fs, ∀ j ∈ f, j ∈ g := by
  induction fs with
  | nil => cases hf
  | cons g fs ih =>
    rw [eraseLocal] at hf
    split at hf
    · rcases List.mem_cons.1 hf with rfl | hf
      · exact ⟨g, by simp, fun j hj => List.mem_of_mem_erase hj⟩
      · exact ⟨f, by simp [hf], fun j hj => hj⟩
    · rcases List.mem_cons.1 hf with rfl | hf
      · exact ⟨f, by simp, fun j hj => hj⟩
      · obtain ⟨g1, hg1, hs⟩ := ih hf
        exact ⟨g1, by simp [hg1], hs⟩

theorem eraseLocal_length (i : Nat) (fs : List (List Nat)) : (eraseLocal i fs).length = fs.length := by
  induction fs with
  | nil => rfl
  | cons g fs ih => rw [eraseLocal]; split <;> simp [ih]

theorem step_deleteLocalRef {h h' : Heap} (hp : h.Pre) {t : Nat} {o : Option Nat}
    (hx : h.deleteLocalRef t o = .ok h') : Step t h h' := by
  obtain ⟨e, he, hx⟩ := Res.bind_eq_ok.1 hx
  obtain ⟨d, hd, hx⟩ := Res.bind_eq_ok.1 hx
  have he := env_ok.1 he
  cases d with
  | none => cases hx; exact Step.refl t hp
  | some i =>
    cases hx
    refine hp.setEnv he rfl ?_ (hp.free t e he) fun j hj => hp.rootsEnv he ?_
    · intro hnil
      have := eraseLocal_length i e.frames
      rw [show eraseLocal i e.frames = [] from hnil] at this
      exact hp.frames t e he (List.length_eq_zero_iff.1 this.symm)
    · rcases hj with ⟨g, hg, hj⟩ | hj
      · obtain ⟨g1, hg1, hs⟩ := eraseLocal_mem hg
        exact .inl ⟨g1, hg1, hs j hj⟩
      · exact .inr hj

theorem step_newLocalRef {h h' : Heap} (hp : h.Pre) {t : Nat} {o r : Option Nat}
    (hx : h.newLocalRef t o = .ok (h', r)) : Step t h h' := by
  obtain ⟨d, hd, hx⟩ := Res.bind_eq_ok.1 hx
  cases d with
  | none => cases hx; exact Step.refl t hp
  | some i =>
    obtain ⟨h1, hx1, hx2⟩ := Res.bind_eq_ok.1 hx
    cases hx2
    exact hp.pushLocal (denote_live hp hd) hx1

theorem step_getObjectClass {h h' : Heap} (hp : h.Pre) {t : Nat} {o r : Option Nat}
    (hx : h.getObjectClass t o = .ok (h', r)) : Step t h h' := by
  cases o with
  | none => exact step_findClass hp hx
  | some o =>
    obtain ⟨d, hd, hx⟩ := Res.bind_eq_ok.1 hx
    cases d with
    | none => cases hx
    | some i =>
      simp only at hx
      cases ho : h.objs i with
      | none => simp [ho] at hx
      | some o => simp only [ho] at hx; exact (hp.toJNI? (fun c hc => hp.typeClass hc) hx).1

theorem step_newObjectArray {h h' : Heap} (hp : h.Pre) {t : Nat} {len : Int} {n : Str}
    {init r : Option Nat} (hx : h.newObjectArray t len n init = .ok (h', r)) : Step t h h' := by
  simp only [Heap.newObjectArray] at hx
  obtain ⟨s1, _, hc⟩ := hp.intern t n
  split at hx
  · cases hx
  · split at hx
    · cases hx
    · rename_i hneg hdead
      obtain ⟨h1, hx1, hx2⟩ := Res.bind_eq_ok.1 hx
      cases hx2
      have s2 : Step t (h.intern n).1
          ((h.intern n).1.alloc ⟨.array (List.replicate len.toNat init), some (h.intern n).2⟩).1 := by
        refine s1.pre.alloc t ?_ (by simp) ?_
        · intro j hj
          simp only [Kind.edges, List.mem_filterMap, id] at hj
          obtain ⟨a, ha, hj⟩ := hj
          obtain ⟨hl, rfl⟩ := List.mem_replicate.1 ha
          subst hj
          simp only [Option.any_some, Bool.and_eq_true, decide_eq_true_eq, not_and,
            Bool.not_eq_true, Option.isNone_eq_false_iff] at hdead
          exact Option.isSome_iff_exists.1 (hdead (by omega))
        · intro c hcc; cases hcc; exact ⟨n, lookup_mem hc⟩
      exact (s1.trans s2).trans (s2.pre.toJNI (by simp) hx1)

theorem arrayOf_ok {h : Heap} {a : Option Nat} {x : Nat × Obj × List (Option Nat)}
    (hx : h.arrayOf a = .ok x) :
    h.denote a = .ok (some x.1) ∧ h.objs x.1 = some x.2.1 ∧ x.2.1.kind = .array x.2.2 := by
  obtain ⟨d, hd, hx⟩ := Res.bind_eq_ok.1 hx
  cases d with
  | none => cases hx
  | some i =>
    simp only at hx
    cases ho : h.objs i with
    | none => simp [ho] at hx
    | some o =>
      simp only [ho] at hx
      cases hk : o.kind <;> simp only [hk, reduceCtorEq] at hx
      cases hx
      exact ⟨hd, ho, hk⟩

theorem slotIndex_ok {slots : List (Option Nat)} {i : Int} {n : Nat}
    (hx : slotIndex slots i = .ok n) : i = n ∧ n < slots.length := by
  simp only [slotIndex] at hx
  split at hx
  · cases hx; omega
  · cases hx

theorem step_getObjectArrayElement {h h' : Heap} (hp : h.Pre) {t : Nat} {a r : Option Nat} {i : Int}
    (hx : h.getObjectArrayElement t a i = .ok (h', r)) : Step t h h' := by
  obtain ⟨x, _, hx⟩ := Res.bind_eq_ok.1 hx
  obtain ⟨n, _, hx⟩ := Res.bind_eq_ok.1 hx
  exact (hp.toJNI? (fun c hc => hp.typeClass hc) hx).1

theorem step_setObjectArrayElement {h h' : Heap} (hp : h.Pre) (t : Nat) {a v : Option Nat} {i : Int}
    (hx : h.setObjectArrayElement a i v = .ok h') : Step t h h' := by
  obtain ⟨x, ha, hx⟩ := Res.bind_eq_ok.1 hx
  obtain ⟨d, hd, hx⟩ := Res.bind_eq_ok.1 hx
  obtain ⟨n, hn, hx⟩ := Res.bind_eq_ok.1 hx
  obtain ⟨y, o, slots⟩ := x
  obtain ⟨_, ho, hk⟩ := arrayOf_ok ha
  cases hx
  simp only at ho hk
  refine hp.setObj t ho ?_ (fun c hc => hc) ?_ (fun c hc => hp.cls y o c ho hc)
  · rw [hk]; simp [Kind.Same]
  · intro j hj
    simp only [Kind.edges, List.mem_filterMap, id] at hj
    obtain ⟨b, hb, hj⟩ := hj
    subst hj
    rcases List.mem_or_eq_of_mem_set hb with hb | hb
    · exact hp.edges y j ⟨o, ho, by simp [hk, Kind.edges]; exact hb⟩
    · exact denote_live hp (r := v) (by rw [hd, hb])

theorem step_newRecord {h h' : Heap} (hp : h.Pre) {t n : Nat} {ty : Option Str} {r : Option Nat}
    (hx : h.newRecord t n ty = .ok (h', r)) : Step t h h' := by
  obtain ⟨h1, hx1, hx2⟩ := Res.bind_eq_ok.1 hx
  cases hx2
  have s1 : Step t h (h.alloc ⟨.record (List.replicate n none), none⟩).1 :=
    hp.alloc t (by simp [Kind.edges]) (by simp) (by simp)
  exact s1.trans (s1.pre.toJNI s1.pre.typeClass? hx1)

theorem newCopy_ok {h h' : Heap} {t : Nat} {k : Option Nat} {ty : Option Str} {r : Option Nat}
    (hx : h.newCopy t k ty = .ok (h', r)) : r = some h.next ∧ (∀ c, k = some c → ∃ n, (n, c) ∈ h.classes) ∧
      (h.alloc ⟨.plain, k⟩).1.toJNI t (ty.bind (h.alloc ⟨.plain, k⟩).1.typeClass) h.next = .ok h' := by
  simp only [Heap.newCopy] at hx
  split at hx
  · rename_i hc
    obtain ⟨h1, hx1, hx2⟩ := Res.bind_eq_ok.1 hx
    cases hx2
    refine ⟨rfl, ?_, hx1⟩
    rintro c rfl
    simp only [Option.all_some, List.any_eq_true, beq_iff_eq] at hc
    obtain ⟨x, hm, rfl⟩ := hc
    exact ⟨x.1, hm⟩
  · cases hx

theorem step_newCopy {h h' : Heap} (hp : h.Pre) {t : Nat} {k : Option Nat} {ty : Option Str} {r : Option Nat}
    (hx : h.newCopy t k ty = .ok (h', r)) : Step t h h' := by
  obtain ⟨_, hc, hx1⟩ := newCopy_ok hx
  have s1 : Step t h (h.alloc ⟨.plain, k⟩).1 := hp.alloc t (by simp [Kind.edges]) (by simp) hc
  exact s1.trans (s1.pre.toJNI s1.pre.typeClass? hx1)

theorem step_newStatics {h : Heap} (hp : h.Pre) (t n : Nat) : Step t h (h.newStatics n).1 := by
  have s1 : Step t h (h.alloc ⟨.record (List.replicate n none), none⟩).1 :=
    hp.alloc t (by simp [Kind.edges]) (by simp) (by simp)
  exact s1.trans (s1.pre.pin t (alloc_live _ _))

theorem recordOf_ok {h : Heap} {a : Option Nat} {i : Nat} {x : Nat × Obj × List (Option Nat)}
    (hx : h.recordOf a i = .ok x) :
    h.denote a = .ok (some x.1) ∧ h.objs x.1 = some x.2.1 ∧ x.2.1.kind = .record x.2.2 ∧ i < x.2.2.length := by
  obtain ⟨d, hd, hx⟩ := Res.bind_eq_ok.1 hx
  cases d with
  | none => cases hx
  | some j =>
    simp only at hx
    cases ho : h.objs j with
    | none => simp [ho] at hx
    | some o =>
      simp only [ho] at hx
      cases hk : o.kind <;> simp only [hk, reduceCtorEq] at hx
      split at hx
      · cases hx
        exact ⟨hd, ho, hk, by assumption⟩
      · cases hx

theorem step_getVar {h h' : Heap} (hp : h.Pre) {t i : Nat} {a r : Option Nat}
    {ty : Option Str} (hx : h.getVar t a i ty = .ok (h', r)) : Step t h h' := by
  obtain ⟨x, _, hx⟩ := Res.bind_eq_ok.1 hx
  exact (hp.toJNI? hp.typeClass? hx).1

theorem step_setVar {h h' : Heap} (hp : h.Pre) (t : Nat) {a v : Option Nat} {i : Nat}
    (hx : h.setVar a i v = .ok h') : Step t h h' := by
  cases a with
  | none => cases hx; exact Step.refl t hp
  | some r =>
    obtain ⟨d, hd, hx⟩ := Res.bind_eq_ok.1 hx
    obtain ⟨x, ha, hx⟩ := Res.bind_eq_ok.1 hx
    obtain ⟨y, o, vars⟩ := x
    obtain ⟨_, ho, hk, _⟩ := recordOf_ok ha
    cases hx
    simp only at ho hk
    refine hp.setObj t ho ?_ (fun c hc => hc) ?_ (fun c hc => hp.cls y o c ho hc)
    · rw [hk]; simp [Kind.Same]
    · intro j hj
      simp only [Kind.edges, List.mem_filterMap, id] at hj
      obtain ⟨b, hb, hj⟩ := hj
      subst hj
      rcases List.mem_or_eq_of_mem_set hb with hb | hb
      · exact hp.edges y j ⟨o, ho, by simp [hk, Kind.edges]; exact hb⟩
      · exact denote_live hp (r := v) (by rw [hd, hb])

theorem cast_ok {h : Heap} {p : Kind → Bool} {o : Option Nat} {i : Nat}
    (hx : h.cast p o = .ok (some i)) :
    h.denote o = .ok (some i) ∧ ∃ ob, h.objs i = some ob ∧ p ob.kind = true := by
  obtain ⟨d, hd, hx⟩ := Res.bind_eq_ok.1 hx
  cases d with
  | none => cases hx
  | some j =>
    simp only at hx
    cases ho : h.objs j with
    | none => simp [ho] at hx
    | some ob =>
      simp only [ho] at hx
      split at hx
      · cases hx; exact ⟨hd, ob, ho, by assumption⟩
      · cases hx

theorem step_throw {h h' : Heap} (hp : h.Pre) {t : Nat} {o : Option Nat}
    (hx : h.throw t o = .ok h') : Step t h h' := by
  obtain ⟨e, he, hx⟩ := Res.bind_eq_ok.1 hx
  obtain ⟨d, hd, hx⟩ := Res.bind_eq_ok.1 hx
  have he := env_ok.1 he
  cases hx
  refine hp.setEnv he rfl (hp.frames t e he) (hp.free t e he) fun j hj => ?_
  rcases hj with hj | hj
  · exact hp.rootsEnv he (.inl hj)
  · simp only at hj
    rw [hj] at hd
    obtain ⟨_, ob, ho, _⟩ := cast_ok hd
    exact ⟨ob, ho⟩

theorem step_raise {h h' : Heap} (hp : h.Pre) {t : Nat} {p : Exn}
    (hx : h.raise t p = .ok h') : Step t h h' := by
  obtain ⟨e, he, hx⟩ := Res.bind_eq_ok.1 hx
  have s1 : Step t h (h.alloc ⟨.throwable (some p), none⟩).1 :=
    hp.alloc t (by simp [Kind.edges]) (by simp) (by simp)
  have he := env_ok.1 he
  cases hx
  refine s1.trans (s1.pre.setEnv he rfl (s1.pre.frames t e he) (s1.pre.free t e he) fun j hj => ?_)
  rcases hj with hj | hj
  · exact s1.pre.rootsEnv he (.inl hj)
  · cases hj; exact alloc_live _ _

theorem step_exceptionOccurred {h h' : Heap} (hp : h.Pre) {t : Nat} {r : Option Nat}
    (hx : h.exceptionOccurred t = .ok (h', r)) : Step t h h' := by
  obtain ⟨e, he, hx⟩ := Res.bind_eq_ok.1 hx
  exact (hp.toJNI? (fun c hc => hp.typeClass hc) hx).1

theorem step_exceptionClear {h h' : Heap} (hp : h.Pre) {t : Nat}
    (hx : h.exceptionClear t = .ok h') : Step t h h' := by
  obtain ⟨e, he, hx⟩ := Res.bind_eq_ok.1 hx
  have he := env_ok.1 he
  cases hx
  refine hp.setEnv he rfl (hp.frames t e he) (hp.free t e he) fun j hj => ?_
  rcases hj with hj | hj
  · exact hp.rootsEnv he (.inl hj)
  · cases hj

theorem step_toReflected {h h' : Heap} (hp : h.Pre) {t : Nat} {m s : Bool} {c i r : Option Nat}
    (hx : h.toReflected t m c i s = .ok (h', r)) : Step t h h' := by
  simp only [Heap.toReflected] at hx
  split at hx
  · split at hx
    · cases hx
    · generalize (if m = true then Kind.method s else Kind.field s) = k at hx
      split at hx
      · exact step_newLocalRef hp hx
      · cases hx; exact Step.refl t hp
  · cases hx; exact Step.refl t hp

theorem step_fromReflected {h h' : Heap} (hp : h.Pre) {t : Nat} {m : Bool} {o r : Option Nat}
    (hx : h.fromReflected t m o = .ok (h', r)) : Step t h h' := by
  cases o with
  | none => cases hx; exact Step.refl t hp
  | some o =>
    obtain ⟨⟨h1, c⟩, hx1, hx⟩ := Res.bind_eq_ok.1 hx
    obtain ⟨⟨h2, d⟩, hx2, hx⟩ := Res.bind_eq_ok.1 hx
    obtain ⟨b, hx3, hx⟩ := Res.bind_eq_ok.1 hx
    have s1 := step_getObjectClass hp hx1
    have s2 := step_findClass s1.pre hx2
    cases hx
    exact s1.trans s2

theorem step_attach {h : Heap} (hp : h.Pre) (t : Nat) : Step t h (h.attach t).1 := by
  simp only [Heap.attach]
  split
  · exact Step.refl t hp
  · rename_i hn
    have henv : ∀ u e, (h.setEnv t h.newEnv).envs u = some e →
        (u = t ∧ e = h.newEnv) ∨ (u ≠ t ∧ h.envs u = some e) := by
      intro u e he
      rw [setEnv_envs] at he
      split at he
      · cases he; exact .inl ⟨by assumption, rfl⟩
      · exact .inr ⟨by assumption, he⟩
    refine ⟨?_, Nat.le_refl _, fun i o ho => ⟨o, ho, Kind.Same.refl _, fun _ hc => hc⟩,
      fun _ _ x => x, fun u hu => by simp [setEnv, hu], fun _ _ x => x, Pins.of_eq rfl rfl⟩
    refine ⟨hp.bound, fun i hi => ?_, hp.edges, hp.target, fun u e hu => ?_, fun u e hu => ?_,
      fun u e hu => ?_, fun u e hu => ?_, fun u v e e' hu hv hid => ?_, hp.classes, hp.cls⟩
    · rcases mem_roots.1 hi with hg | hg | ⟨u, e, hu, he, hi⟩
      · exact hp.roots i (mem_roots.2 (.inl hg))
      · exact hp.roots i (mem_roots.2 (.inr (.inl hg)))
      · rcases henv u e he with ⟨_, rfl⟩ | ⟨_, he⟩
        · simp [newEnv] at hi
        · exact hp.rootsEnv he hi
    · show u < max h.nthreads (t + 1)
      rcases henv u e hu with ⟨rfl, _⟩ | ⟨_, he⟩
      · omega
      · have := hp.thread u e he; omega
    · rcases henv u e hu with ⟨_, rfl⟩ | ⟨_, he⟩
      · simp [newEnv]
      · exact hp.frames u e he
    · rcases henv u e hu with ⟨_, rfl⟩ | ⟨_, he⟩
      · simp [newEnv]
      · exact hp.free u e he
    · show e.eid < h.nextEnv + 1
      rcases henv u e hu with ⟨_, rfl⟩ | ⟨_, he⟩
      · simp [newEnv]
      · have := hp.eid u e he; omega
    · rcases henv u e hu with ⟨h1, rfl⟩ | ⟨h1, he⟩ <;> rcases henv v e' hv with ⟨h2, rfl⟩ | ⟨h2, he'⟩
      · rw [h1, h2]
      · have := hp.eid v e' he'
        rw [← hid] at this; simp [newEnv] at this
      · have := hp.eid u e he
        rw [hid] at this; simp [newEnv] at this
      · exact hp.eidInj u v e e' he he' hid

theorem step_detach {h : Heap} (hp : h.Pre) (t : Nat) : Step t h (h.detach t) := by
  have henv : ∀ u e, (h.detach t).envs u = some e → h.envs u = some e := by
    intro u e he
    simp only [detach] at he
    split at he
    · cases he
    · exact he
  refine ⟨?_, Nat.le_refl _, fun i o ho => ⟨o, ho, Kind.Same.refl _, fun _ hc => hc⟩,
      fun _ _ x => x, fun u hu => by simp [detach, hu], fun _ _ x => x, Pins.of_eq rfl rfl⟩
  refine ⟨hp.bound, fun i hi => ?_, hp.edges, hp.target, fun u e hu => hp.thread u e (henv u e hu),
    fun u e hu => hp.frames u e (henv u e hu), fun u e hu => hp.free u e (henv u e hu),
    fun u e hu => hp.eid u e (henv u e hu),
    fun u v e e' hu hv hid => hp.eidInj u v e e' (henv u e hu) (henv v e' hv) hid,
    hp.classes, hp.cls⟩
  rcases mem_roots.1 hi with hg | hg | ⟨u, e, hu, he, hi⟩
  · exact hp.roots i (mem_roots.2 (.inl hg))
  · exact hp.roots i (mem_roots.2 (.inr (.inl hg)))
  · exact hp.rootsEnv (henv u e he) hi

theorem exec_ok {h h' : Heap} {t : Nat} {op : HeapOp} {out : Out}
    (hx : op.exec h t = .ok (h', out)) :
    op.body h t = .ok (h', out) ∧ (op.needsEnv = true → ∃ e, h.envs t = some e) := by
  simp only [HeapOp.exec] at hx
  split at hx
  · cases hx
  · rename_i hn
    refine ⟨hx, fun hne => ?_⟩
    simp only [hne, Bool.true_and, Bool.not_eq_true, Option.isNone_eq_false_iff] at hn
    exact Option.isSome_iff_exists.1 hn

theorem outRef_ok {x : Res (Heap × Option Nat)} {h' : Heap} {out : Out}
    (hx : outRef x = .ok (h', out)) : ∃ r, x = .ok (h', r) ∧ out = .ref r := by
  obtain ⟨⟨h1, r⟩, hx1, hx2⟩ := Res.bind_eq_ok.1 hx
  cases hx2; exact ⟨r, hx1, rfl⟩

theorem outUnit_ok {x : Res Heap} {h' : Heap} {out : Out}
    (hx : outUnit x = .ok (h', out)) : x = .ok h' ∧ out = .unit := by
  obtain ⟨h1, hx1, hx2⟩ := Res.bind_eq_ok.1 hx
  cases hx2; exact ⟨hx1, rfl⟩

theorem outBool_ok {h : Heap} {x : Res Bool} {h' : Heap} {out : Out}
    (hx : outBool h x = .ok (h', out)) : ∃ b, x = .ok b ∧ h' = h ∧ out = .bool b := by
  obtain ⟨h1, hx1, hx2⟩ := Res.bind_eq_ok.1 hx
  cases hx2; exact ⟨h1, hx1, rfl, rfl⟩

/-- Every call is a step. -/
theorem step_exec {h h' : Heap} (hp : h.Pre) {t : Nat} {op : HeapOp} {out : Out}
    (hx : op.exec h t = .ok (h', out)) : Step t h h' := by
  replace hx := (exec_ok hx).1
  cases op <;> simp only [HeapOp.body] at hx
  case newObject => exact step_newObject hp (outRef_ok hx).choose_spec.1
  case returnObject => exact step_returnObject hp (outRef_ok hx).choose_spec.1
  case findClass => exact step_findClass hp (outRef_ok hx).choose_spec.1
  case newMember => cases hx; exact step_newMember hp t _ _
  case pushLocalFrame => exact step_pushLocalFrame hp (outUnit_ok hx).1
  case popLocalFrame => exact step_popLocalFrame hp (outRef_ok hx).choose_spec.1
  case newGlobalRef => exact step_newGlobalRef hp t (outRef_ok hx).choose_spec.1
  case newWeakGlobalRef => exact step_newWeakGlobalRef hp t (outRef_ok hx).choose_spec.1
  case deleteGlobalRef => exact step_deleteGlobalRef hp t (outUnit_ok hx).1
  case deleteWeakGlobalRef => exact step_deleteWeakGlobalRef hp t (outUnit_ok hx).1
  case deleteLocalRef => exact step_deleteLocalRef hp (outUnit_ok hx).1
  case newLocalRef => exact step_newLocalRef hp (outRef_ok hx).choose_spec.1
  case isSameObject => rw [(outBool_ok hx).choose_spec.2.1]; exact Step.refl t hp
  case getObjectRefType =>
    obtain ⟨k, _, hx⟩ := Res.bind_eq_ok.1 hx
    cases hx; exact Step.refl t hp
  case getObjectClass => exact step_getObjectClass hp (outRef_ok hx).choose_spec.1
  case newObjectArray => exact step_newObjectArray hp (outRef_ok hx).choose_spec.1
  case getObjectArrayElement => exact step_getObjectArrayElement hp (outRef_ok hx).choose_spec.1
  case setObjectArrayElement => exact step_setObjectArrayElement hp t (outUnit_ok hx).1
  case newRecord => exact step_newRecord hp (outRef_ok hx).choose_spec.1
  case newStatics => cases hx; exact step_newStatics hp t _
  case classObject => cases hx; exact (hp.intern t _).1
  case getVar => exact step_getVar hp (outRef_ok hx).choose_spec.1
  case setVar => exact step_setVar hp t (outUnit_ok hx).1
  case newCopy => exact step_newCopy hp (outRef_ok hx).choose_spec.1
  case throw => exact step_throw hp (outUnit_ok hx).1
  case raise => exact step_raise hp (outUnit_ok hx).1
  case exceptionOccurred => exact step_exceptionOccurred hp (outRef_ok hx).choose_spec.1
  case exceptionClear => exact step_exceptionClear hp (outUnit_ok hx).1
  case exceptionCheck => rw [(outBool_ok hx).choose_spec.2.1]; exact Step.refl t hp
  case toReflected => exact step_toReflected hp (outRef_ok hx).choose_spec.1
  case fromReflected => exact step_fromReflected hp (outRef_ok hx).choose_spec.1
  case attach => cases hx; exact step_attach hp t
  case detach => cases hx; exact step_detach hp t

/-! ### Releasing -/

theorem Pre.sweep {h : Heap} (hp : h.Pre) : h.sweep.Pre := by
  have live : ∀ {i}, h.held i = true → h.Live i → h.sweep.Live i := by
    rintro i hh ⟨o, ho⟩
    exact ⟨o, sweep_objs.2 ⟨hh, ho⟩⟩
  have hroot : ∀ i, i ∈ h.roots → h.sweep.Live i := fun i hi =>
    live ((held_iff hp.bound).2 (.inl hi)) (hp.roots i hi)
  refine ⟨fun i o ho => hp.bound i o (sweep_objs.1 ho).2, hroot, ?_, ?_, hp.thread, hp.frames, hp.free,
    hp.eid, hp.eidInj, fun n c hc => ?_, fun i o c ho hc => hp.cls i o c (sweep_objs.1 ho).2 hc⟩
  · rintro j i ⟨o, ho, hi⟩
    have he : h.Edge j i := ⟨o, (sweep_objs.1 ho).2, hi⟩
    exact live ((held_iff hp.bound).2 (.inr ⟨j, he⟩)) (hp.edges j i he)
  · intro i o t ho hk
    obtain ⟨h1, h2⟩ := hp.target i o t (sweep_objs.1 ho).2 hk
    exact ⟨h1, fun o' ho' => h2 o' (sweep_objs.1 ho').2⟩
  · obtain ⟨hpin, o, ho, hk⟩ := hp.classes n c hc
    refine ⟨hpin, o, sweep_objs.2 ⟨?_, ho⟩, hk⟩
    exact (held_iff hp.bound).2 (.inl (mem_roots.2 (.inr (.inl hpin))))

theorem Pre.collectN {h : Heap} (hp : h.Pre) (n : Nat) : (Heap.collectN n h).Pre := by
  induction n generalizing h with
  | zero => exact hp
  | succ n ih => exact ih hp.sweep

theorem Pre.collect {h : Heap} (hp : h.Pre) : h.collect.Inv :=
  ⟨hp.collectN _, collect_allHeld hp.bound⟩

theorem run_ok {h h' : Heap} {t : Nat} {op : HeapOp} {out : Out} (hx : op.run h t = .ok (h', out)) :
    ∃ h1, op.exec h t = .ok (h1, out) ∧ h' = h1.collect := by
  obtain ⟨⟨h1, o1⟩, hx1, hx2⟩ := Res.bind_eq_ok.1 hx
  cases hx2; exact ⟨h1, hx1, rfl⟩

theorem Inv.run {h h' : Heap} (hi : h.Inv) {t : Nat} {op : HeapOp} {out : Out}
    (hx : op.run h t = .ok (h', out)) : h'.Inv := by
  obtain ⟨h1, hx1, rfl⟩ := run_ok hx
  exact (step_exec hi.toPre hx1).pre.collect

theorem Inv.runHeap {h h' : Heap} (hi : h.Inv) {ops : List (Nat × HeapOp)}
    (hx : runHeap h ops = .ok h') : h'.Inv := by
  induction ops generalizing h with
  | nil => cases hx; exact hi
  | cons x ops ih =>
    obtain ⟨t, op⟩ := x
    obtain ⟨⟨h1, out⟩, hx1, hx2⟩ := Res.bind_eq_ok.1 hx
    exact ih (hi.run hx1) hx2

theorem initial_inv : Heap.initial.Inv := by
  have h0 : (⟨fun _ => none, 0, [], [], [], fun _ => none, 0, 0⟩ : Heap).Pre := by
    constructor <;> simp [Heap.roots, Heap.Edge]
  have h1 := (step_attach h0 0).pre
  have fold : ∀ (l : List String) (h : Heap), h.Pre → (∀ i o, h.objs i = some o → i ∈ h.pinned) →
      (l.foldl (fun h n => (h.intern n.toList).1) h).Inv := by
    intro l
    induction l with
    | nil =>
      exact fun h hp hh => ⟨hp, fun i o ho =>
        (held_iff hp.bound).2 (.inl (mem_roots.2 (.inr (.inl (hh i o ho)))))⟩
    | cons n l ih =>
      intro h hp hh
      refine ih _ (hp.intern 0 n.toList).1.pre ?_
      simp only [Heap.intern]
      split
      · exact hh
      · intro i o ho
        simp only [alloc_objs] at ho
        split at ho
        · simp_all
        · simp [hh i o ho]
  exact fold _ _ h1 (by simp [Heap.attach])

end Heap

theorem HeapReachable.inv {h : Heap} (hr : HeapReachable h) : h.Inv := by
  obtain ⟨ops, hx⟩ := hr
  exact Heap.initial_inv.runHeap hx

end Jnivm
