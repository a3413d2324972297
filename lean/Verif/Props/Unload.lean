import Verif.Lemmas.Unload
import Verif.Lemmas.Defaults
import Verif.Props.Baron
/-! C73: libraries use the VM when they are loaded and unloaded. -/
namespace Jnivm
open Spec

theorem librun_add {depth : Nat} (n k : Nat) : ∀ m : LibVm,
    m.run depth (n + k) = (m.run depth n).bind fun m => m.run depth k := by
  induction n with
  | zero => intro m; rw [Nat.zero_add]; rfl
  | succ n ih =>
    intro m
    rw [Nat.add_right_comm]
    show (m.step depth).bind _ = ((m.step depth).bind _).bind _
    cases m.step depth with
    | ok m1 => exact ih m1
    | throws e => rfl
    | ub u => rfl
    | diverges => rfl

/-- Whatever the libraries do when they are loaded and unloaded: after finitely many steps nothing is left to
be done, or a step went wrong. -/
theorem unload_terminates (depth : Nat) (m : LibVm) :
    ∃ n r, (∀ k, n ≤ k → m.run depth k = r) ∧ ∀ m', r = .ok m' → m'.stack = [] := by
  refine ⟨m.weight, m.run depth m.weight, fun k hk => ?_, fun m' h => librun_ends depth _ (Nat.le_refl _) h⟩
  obtain ⟨j, rfl⟩ := Nat.exists_eq_add_of_le hk
  rw [librun_add]
  cases h : m.run depth m.weight with
  | ok m1 => exact librun_done (librun_ends depth _ (Nat.le_refl _) h) j
  | throws e => rfl
  | ub u => rfl
  | diverges => rfl

theorem _root_.Spec.WholeRun.inv {depth : Nat} {deny : Option Deny} {w : World} {calls : List LibCall} {m : LibVm}
    (h : WholeRun depth deny w calls m) : m.Inv ∧ m.stack = [] ∧ m.libs = [] := by
  obtain ⟨m1, order, ⟨n, h1, h2⟩, hp, k, h3, h4⟩ := h
  have hi := finish_inv (librun_inv n (start_inv deny w calls) h1) h2 hp
  refine ⟨librun_inv k hi h3, h4, ?_⟩
  -- nothing is inserted while the table is destroyed
  have key : ∀ k {m m' : LibVm}, m.ending = true → m.libs = [] → m.run depth k = .ok m' → m'.libs = [] := by
    intro k
    induction k with
    | zero => intro m m' _ hl h; cases h; exact hl
    | succ k ih =>
      intro m m' he hl h
      obtain ⟨m2, h5, h6⟩ := Res.bind_eq_ok.1 (show (m.step depth).bind _ = _ from h)
      obtain ⟨he2, hl2⟩ := libstep_ending he hl h5
      exact ih he2 hl2 h6
  exact key k (m := m1.finish order) rfl rfl h3

/-- C73. Whatever was attached and removed, also by `JNI_OnLoad` and `JNI_OnUnload` themselves, and whatever
the loader answered: in the end every object had a complete life, its two functions were called once each,
unless its load function threw an exception; then its library stays open. -/
theorem unload_exact {depth : Nat} {deny : Option Deny} {w : World} {calls : List LibCall} {m : LibVm}
    (h : WholeRun depth deny w calls m) (i : Nat) :
    Life i (eventsOf i m.trace) ∨ Leak i (eventsOf i m.trace) := by
  obtain ⟨hi, hs, hl⟩ := h.inv
  refine hi.holds.fin i ?_
  unfold LibVm.holders
  rw [hs, hl]
  exact List.not_mem_nil

/-- C73, if no load function throws every object has a complete life. -/
theorem unload_balanced_partial {depth : Nat} {deny : Option Deny} {w : World} {calls : List LibCall} {m : LibVm}
    (h : WholeRun depth deny w calls m) (ht : ∀ i, .threw i ∉ m.trace) (i : Nat) :
    Life i (eventsOf i m.trace) := by
  refine (unload_exact h i).resolve_right ?_
  rintro ⟨hd, sym, he⟩
  refine ht i (mem_events.1 ?_)
  show LibEvent.threw i ∈ eventsOf i _
  rw [he]; simp

/-- At every moment a path has one entry at most, and what is in the table is open. -/
theorem unload_registered {depth : Nat} {deny : Option Deny} {w : World} {calls : List LibCall} {n : Nat}
    {m : LibVm} (h : (LibVm.start deny w calls).run depth n = .ok m) :
    (m.libs.map (·.1)).Nodup ∧ (m.libs.map (·.2.id)).Nodup ∧ ∀ x ∈ m.libs, match x.2.handle with
      | none => eventsOf x.2.id m.trace = []
      | some hd => eventsOf x.2.id m.trace = [.opened x.2.id hd] ∨
        eventsOf x.2.id m.trace = [.opened x.2.id hd, .onLoad x.2.id (loadSymbol x.2.path)] := by
  have hi := librun_inv n (start_inv deny w calls) h
  refine ⟨hi.keys, ?_, fun x hx => ?_⟩
  · have := hi.holds.nodup
    unfold LibVm.holders at this
    rw [List.map_append, List.map_map] at this
    exact (List.nodup_append.1 this).2.1
  · exact hi.holds.ok (x.2.id, x.2.Opened) (List.mem_append_right _ (List.mem_map_of_mem hx))

/-- A library that removes itself when it is unloaded: its path is not in the table any more, nothing happens.
Its `JNI_OnUnload` goes on and is not called again. -/
theorem unload_self {depth : Nat} {m : LibVm} {rpath : Str} {x : Str × Lib} {l l' : List LibCall}
    {s : List LibFrame} {h : Nat} (hs : m.stack = .calls (.remove rpath :: l) :: s) (he : m.ending = false)
    (hf : m.libs.find? (·.1 == rpath) = some x) (hh : x.2.handle = some h) (hu : x.2.hasUnload = true)
    (hl : x.2.unload = .remove rpath :: l') :
    m.run depth 2 = .ok { m with libs := m.libs.filter (fun y => y.1 != rpath),
                                 trace := m.trace ++ [.onUnload x.2.id (unloadSymbol x.2.path)],
                                 stack := .calls l' :: .closing x.2.id h :: .calls l :: s } := by
  have h1 : m.step depth = .ok { m with libs := m.libs.filter (fun y => y.1 != rpath),
                                        trace := m.trace ++ [.onUnload x.2.id (unloadSymbol x.2.path)],
                                        stack := .calls (.remove rpath :: l') :: .closing x.2.id h :: .calls l :: s } := by
    unfold LibVm.step
    rw [hs]
    simp only [LibCall.exec, LibVm.remove, he, Bool.false_eq_true, if_false, hf, LibVm.unload, hh, hu, if_true, hl]
  have h2 : (m.libs.filter (fun y => y.1 != rpath)).find? (·.1 == rpath) = none := by
    rw [List.find?_eq_none]
    intro y hy
    have := (List.mem_filter.1 hy).2
    simpa [bne] using this
  simp only [LibVm.run, h1, Res.bind_ok]
  simp only [LibVm.step, LibCall.exec, LibVm.remove, he, Bool.false_eq_true, if_false, h2, Res.bind_ok]

/-- Sample: such a library. -/
example : ∃ (m : LibVm) (x : Str × Lib) (h : Nat) (l l' : List LibCall) (s : List LibFrame),
    m.stack = .calls (.remove "a".toList :: l) :: s ∧ m.ending = false ∧
    m.libs.find? (·.1 == "a".toList) = some x ∧ x.2.handle = some h ∧ x.2.hasUnload = true ∧
    x.2.unload = .remove "a".toList :: l' :=
  ⟨{ LibVm.start none World.initial [.remove "a".toList] with
      libs := [("a".toList, ⟨0, some 1, [], true, [.remove "a".toList]⟩)] }, _, _, [], [], [], rfl, rfl, rfl, rfl,
    rfl, rfl⟩

/-! ### Unloading at the end of the VM -/

/-- The VM while its destructor unloads the libraries. -/
def LibVm.dying (m : LibVm) : LibVm := { m with ending := true, deny := none, libs := [] }

theorem look_run_plain {depth : Nat} {t : EnvTable} (ht : t ≠ .baron) (d d' : Option Deny) (w : World) (l : Look) :
    l.run depth d t w = l.run depth d' t w := by
  cases t with
  | strict => rfl
  | making => rfl
  | baron => exact absurd rfl ht

/-- C73, fake-jni VMs. While the destructor of the VM unloads the libraries they can use the VM as before, as
long as they leave the table of the libraries alone: the same is found, the same is made. -/
theorem unload_usable_partial (depth : Nat) (p : List LibCall) : ∀ (m : LibVm) (s : List LibFrame),
    (∀ c ∈ p, LeavesLibs c) → m.baron = false → m.env ≠ some .baron → m.stack = .calls p :: s →
    ∀ n, n ≤ p.length → m.dying.run depth n = (m.run depth n).bind fun m' => .ok m'.dying := by
  induction p with
  | nil => intro m s _ _ _ _ n hn; cases Nat.le_zero.1 hn; rfl
  | cons c p ih =>
    intro m s hp hb he hs n hn
    cases n with
    | zero => rfl
    | succ n =>
      have hle := Nat.le_of_succ_le_succ hn
      have hp' : ∀ c ∈ p, LeavesLibs c := fun c hc => hp c (List.mem_cons_of_mem _ hc)
      obtain ⟨libs, trace, next, stack, ending, baron, deny, env, world, found⟩ := m
      have hs : stack = .calls (c :: p) :: s := hs
      have hb : baron = false := hb
      subst hs hb
      have hc := hp c (List.mem_cons_self ..)
      simp only [LibVm.run, LibVm.step, LibVm.dying]
      cases c with
      | attach => exact hc.elim
      | remove => exact hc.elim
      | look l =>
        cases env with
        | none => exact ih ⟨libs, trace, next, .calls p :: s, ending, false, deny, none, world, found⟩ s hp' rfl he rfl n hle
        | some t =>
          have ht : t ≠ .baron := fun h => he (congrArg some h)
          simp only [LibCall.exec]
          rw [look_run_plain ht none deny]
          cases l.run depth deny t world with
          | ok x =>
            exact ih ⟨libs, trace, next, .calls p :: s, ending, false, deny, some t, x.1, found ++ [x.2]⟩ s hp' rfl he rfl n hle
          | throws e => rfl
          | ub u => rfl
          | diverges => rfl
      | attachThread =>
        cases env with
        | none =>
          exact ih ⟨libs, trace, next, .calls p :: s, ending, false, deny, some .strict, world, found⟩ s hp' rfl
            (fun h => nomatch h) rfl n hle
        | some t => exact ih ⟨libs, trace, next, .calls p :: s, ending, false, deny, some t, world, found⟩ s hp' rfl he rfl n hle
      | detachThread =>
        exact ih ⟨libs, trace, next, .calls p :: s, ending, false, deny, none, world, found⟩ s hp' rfl
          (fun h => nomatch h) rfl n hle

/-- A program that attaches one library; this is what its `JNI_OnUnload` does. -/
def oneLib (unload : List LibCall) : LibCall := .attach "a".toList (some 1) none false [] false true unload

/-- The VM after that. -/
def oneLibVm (deny : Option Deny) (w : World) (unload : List LibCall) : LibVm :=
  { LibVm.start deny w [] with libs := [("a".toList, ⟨0, some 1, [], true, unload⟩)], trace := [.opened 0 1],
                               next := 1, stack := [] }

/-- Sample: a library that looks for a class, attaches the thread and looks again, in a VM with another one. -/
example : ∃ (m : LibVm) (p : List LibCall) (s : List LibFrame), (∀ c ∈ p, LeavesLibs c) ∧ m.baron = false ∧
    m.env ≠ some .baron ∧ m.stack = .calls p :: s ∧ m.libs ≠ [] ∧ p.length = 4 :=
  ⟨{ oneLibVm none World.initial [] with stack := [.calls [.look (.findClass "Test".toList), .detachThread,
      .attachThread, .look (.findClass "java/lang/Object".toList)], .closing 1 2] }, _, _,
    by intro c hc; simp only [List.mem_cons, List.not_mem_nil, or_false] at hc
       rcases hc with rfl | rfl | rfl | rfl <;> trivial,
    rfl, (fun h => nomatch h), rfl, (fun h => nomatch h), rfl⟩

/-- What is left to be done while the destructor runs. -/
def LibFrame.Tame : LibFrame → Prop
  | .calls l => ∀ c ∈ l, OnlyFinds c
  | .loading .. => False
  | .closing .. => True
  | .ending rest => ∀ i ∈ rest, ∀ c ∈ i.unload, OnlyFinds c

structure LibVm.Tame (m : LibVm) : Prop where
  plain : m.baron = false
  env : m.env ≠ some .baron
  stack : ∀ f ∈ m.stack, f.Tame

theorem tame_step (depth : Nat) {m : LibVm} (h : m.Tame) : ∃ m', m.step depth = .ok m' ∧ m'.Tame := by
  obtain ⟨libs, trace, next, stack, ending, baron, deny, env, world, found⟩ := m
  obtain ⟨hb, he, hs⟩ := h
  have hb : baron = false := hb
  subst hb
  simp only [LibVm.step]
  have tail : ∀ {f : LibFrame} {s : List LibFrame}, (∀ g ∈ f :: s, g.Tame) → ∀ g ∈ s, g.Tame :=
    fun h g hg => h g (List.mem_cons_of_mem _ hg)
  match stack, hs with
  | [], hs => exact ⟨_, rfl, rfl, he, hs⟩
  | .calls [] :: s, hs => exact ⟨_, rfl, rfl, he, tail hs⟩
  | .calls (c :: l) :: s, hs =>
    have hl : ∀ c' ∈ c :: l, OnlyFinds c' := hs _ (List.mem_cons_self ..)
    have hst : ∀ f ∈ LibFrame.calls l :: s, f.Tame := by
      intro f hf
      rcases List.mem_cons.1 hf with rfl | hf
      · exact fun c' hc' => hl c' (List.mem_cons_of_mem _ hc')
      · exact tail hs f hf
    have hc := hl c (List.mem_cons_self ..)
    match c, hc with
    | .look (.findClass n), _ =>
      cases env with
      | none => exact ⟨_, rfl, rfl, he, hst⟩
      | some t =>
        cases t with
        | strict => exact ⟨_, rfl, rfl, he, hst⟩
        | making => exact ⟨_, rfl, rfl, he, hst⟩
        | baron => exact absurd rfl he
    | .attachThread, _ =>
      cases env with
      | none => exact ⟨_, rfl, rfl, (fun h => nomatch h), hst⟩
      | some t => exact ⟨_, rfl, rfl, he, hst⟩
    | .detachThread, _ => exact ⟨_, rfl, rfl, (fun h => nomatch h), hst⟩
  | .loading rpath lib throws :: s, hs => exact (hs _ (List.mem_cons_self ..)).elim
  | .closing id hd :: s, hs => exact ⟨_, rfl, rfl, he, tail hs⟩
  | .ending [] :: s, hs => exact ⟨_, rfl, rfl, he, tail hs⟩
  | .ending (lib :: rest) :: s, hs =>
    have hl : ∀ i ∈ lib :: rest, ∀ c ∈ i.unload, OnlyFinds c := hs _ (List.mem_cons_self ..)
    have hst : ∀ f ∈ LibFrame.ending rest :: s, f.Tame := by
      intro f hf
      rcases List.mem_cons.1 hf with rfl | hf
      · exact fun i hi => hl i (List.mem_cons_of_mem _ hi)
      · exact tail hs f hf
    refine ⟨_, rfl, ?_⟩
    unfold LibVm.unload
    cases lib.handle with
    | none => exact ⟨rfl, he, hst⟩
    | some hd =>
      cases lib.hasUnload with
      | false => exact ⟨rfl, he, hst⟩
      | true =>
        refine ⟨rfl, he, fun f hf => ?_⟩
        rcases List.mem_cons.1 hf with rfl | hf
        · exact hl lib (List.mem_cons_self ..)
        · rcases List.mem_cons.1 hf with rfl | hf
          · trivial
          · exact hst f hf

/-- C73, fake-jni VMs. If the unload functions of the libraries look for classes and attach or detach the
thread only, the destructor of the VM unloads all libraries. -/
theorem unload_completes_partial (depth : Nat) {m : LibVm} (hb : m.baron = false) (he : m.env ≠ some .baron)
    {order : List Lib} (ho : ∀ i ∈ order, ∀ c ∈ i.unload, OnlyFinds c) :
    ∃ m', RunsTo depth (m.finish order) m' := by
  have key : ∀ n (m : LibVm), m.Tame → ∃ m', m.run depth n = .ok m' := by
    intro n
    induction n with
    | zero => exact fun m _ => ⟨m, rfl⟩
    | succ n ih =>
      intro m h
      obtain ⟨m1, h1, h2⟩ := tame_step depth h
      obtain ⟨m2, h3⟩ := ih m1 h2
      exact ⟨m2, by simp only [LibVm.run, h1, Res.bind_ok, h3]⟩
  obtain ⟨m', h⟩ := key (m.finish order).weight (m.finish order)
    ⟨hb, he, fun f hf => by cases List.mem_singleton.1 hf; exact ho⟩
  exact ⟨m', _, h, librun_ends depth _ (Nat.le_refl _) h⟩

/-- C73, Baron VMs. While the destructor of the VM unloads the libraries they can look up what exists. -/
theorem unload_found_partial (depth : Nat) (p : List Look) : ∀ (m : LibVm) (s : List LibFrame), m.env = some .baron →
    m.stack = .calls (p.map .look) :: s → MemReachable m.world → (∀ l ∈ p, Exists depth m.world l) →
    ∃ f, m.run depth p.length = .ok { m with stack := .calls [] :: s, found := m.found ++ f } ∧
      f.length = p.length ∧ ∀ x ∈ f.zip p, x.1.isSome ∧ x.2.plain depth true m.world = .ok (m.world, x.1) := by
  induction p with
  | nil =>
    intro m s _ hs _ _
    refine ⟨[], ?_, rfl, fun x hx => (nomatch hx)⟩
    simp only [List.length_nil, LibVm.run, List.append_nil]
    rw [List.map_nil] at hs
    rw [← hs]
  | cons l p ih =>
    intro m s he hs hr hx
    obtain ⟨w', id, hw⟩ := hx l (List.mem_cons_self ..)
    have hww : w' = m.world := plain_world hr hw
    subst hww
    have h1 : m.step depth = .ok { m with stack := .calls (p.map .look) :: s, found := m.found ++ [some id] } := by
      unfold LibVm.step
      rw [hs]
      simp only [List.map_cons, LibCall.exec, he, Look.run, hw, Res.bind_ok]
    obtain ⟨f, h2, h3, h4⟩ := ih { m with stack := .calls (p.map .look) :: s, found := m.found ++ [some id] } s he rfl hr
      (fun l hl => hx l (List.mem_cons_of_mem _ hl))
    refine ⟨some id :: f, ?_, by rw [List.length_cons, List.length_cons, h3], ?_⟩
    · simp only [List.length_cons, LibVm.run, h1, Res.bind_ok, h2]
      simp only [List.append_assoc, List.singleton_append]
    · intro x hx
      rw [List.zip_cons_cons] at hx
      rcases List.mem_cons.1 hx with rfl | hx
      · exact ⟨rfl, hw⟩
      · exact h4 x hx

/-- Sample: a class that exists. -/
example : ∃ (m : LibVm) (p : List Look), m.env = some .baron ∧ m.deny = none ∧ m.ending = true ∧
    m.stack = [.calls (p.map .look)] ∧ MemReachable m.world ∧ p ≠ [] ∧ ∀ l ∈ p, Exists 0 m.world l := by
  obtain ⟨c, hc⟩ := (initial_classes "java/lang/Object".toList).2
    ⟨"java/lang/Object".toList, by decide +kernel, .inl rfl⟩
  have hr : MemReachable World.initial := ⟨[], rfl⟩
  refine ⟨{ (LibVm.start (some .empty) World.initial []).finish [] with
      stack := [.calls ([Look.findClass "java/lang/Object".toList].map .look)] }, _, rfl, rfl, rfl, rfl, hr,
    (fun h => nomatch h), fun l hl => ?_⟩
  cases List.mem_singleton.1 hl
  refine ⟨World.initial, c, ?_⟩
  show (Look.findClass _).plain 0 true World.initial = _
  simp only [Look.plain, find_known hr hc]

theorem oneLib_runs (depth : Nat) (deny : Option Deny) (w : World) (unload : List LibCall) :
    RunsTo depth (LibVm.start deny w [oneLib unload]) (oneLibVm deny w unload) := ⟨2, rfl, rfl⟩

theorem oneLib_order {deny : Option Deny} {w : World} {unload : List LibCall} {order : List Lib}
    (hp : order.Perm ((oneLibVm deny w unload).libs.map (·.2))) : order = [⟨0, some 1, [], true, unload⟩] :=
  List.perm_singleton.1 hp

/-- C73 fails: a library is attached to a Baron VM and looks up a class that does not exist when it is
unloaded.  If the program removes the library the rules decide; if the VM is destroyed first the rules are
destroyed before the library is unloaded, and the lookup reads them. -/
theorem unload_unknown (depth : Nat) (d : Deny) {w : World} (hr : MemReachable w) {n : Str}
    (hn : ∀ c, ¬ w.IsClass n c) (hd : d.isClassDenied n = true) :
    (∃ m, WholeRun depth (some d) w [oneLib [.look (.findClass n)], .remove "a".toList] m ∧ m.found = [none]) ∧
    ∃ m, RunsTo depth (LibVm.start (some d) w [oneLib [.look (.findClass n)]]) m ∧
      ∀ order, order.Perm (m.libs.map (·.2)) → (m.finish order).run depth 2 = .ub .dangling := by
  have hl : ∀ deny, (Look.findClass n).run depth deny .baron w = match deny with
      | none => .ub .dangling
      | some d => if d.isClassDenied n then .ok (w, none) else (Look.findClass n).plain depth false w := by
    intro deny
    simp only [Look.run, Look.plain, find_unknown hr hn, Res.bind_ok, Look.denied]
    rfl
  refine ⟨⟨{ LibVm.start (some d) w [] with
      trace := [.opened 0 1, .onUnload 0 (unloadSymbol []), .closed 0 1], next := 1, stack := [], ending := true,
      deny := none, found := [none] },
    ⟨{ LibVm.start (some d) w [] with
      trace := [.opened 0 1, .onUnload 0 (unloadSymbol []), .closed 0 1], next := 1, stack := [],
      found := [none] }, [], ⟨6, ?_, rfl⟩, List.Perm.nil, ⟨1, rfl, rfl⟩⟩, rfl⟩,
    ⟨_, oneLib_runs .., fun order hp => ?_⟩⟩
  · have h1 : (LibVm.start (some d) w [oneLib [.look (.findClass n)], .remove "a".toList]).run depth 2 =
        .ok { LibVm.start (some d) w [] with
          trace := [.opened 0 1, .onUnload 0 (unloadSymbol [])], next := 1,
          stack := [.calls [.look (.findClass n)], .closing 0 1, .calls []] } := rfl
    rw [show 6 = 2 + 4 from rfl, librun_add, h1, Res.bind_ok]
    simp only [LibVm.run, LibVm.step, LibCall.exec, LibVm.start, Option.isSome_some, if_true, hl, hd, Res.bind_ok]
    rfl
  · rw [oneLib_order hp]
    simp only [LibVm.run, LibVm.step, LibVm.finish, LibVm.unload, if_true, Res.bind_ok, LibCall.exec, oneLibVm,
      LibVm.start, Option.isSome_some, hl]
    rfl

/-- Sample: such a class and a rule. -/
example : MemReachable World.initial ∧ (∀ c, ¬ World.initial.IsClass "Test".toList c) ∧
    (denyAll [.cls "Test".toList]).isClassDenied "Test".toList = true :=
  ⟨⟨[], rfl⟩, fun c hc => no_test_class ⟨c, hc⟩, by decide⟩

/-- C73 fails: a library that is unloaded by the destructor of the VM must not remove or attach a library. -/
theorem unload_table (depth : Nat) (deny : Option Deny) (w : World) {c : LibCall}
    (hc : (∃ r, c = .remove r) ∨ ∃ r f g l t hu u, c = .attach r f g false l t hu u) :
    ∃ m, RunsTo depth (LibVm.start deny w [oneLib [c]]) m ∧
      ∀ order, order.Perm (m.libs.map (·.2)) → (m.finish order).run depth 2 = .ub .dangling := by
  refine ⟨_, oneLib_runs .., fun order hp => ?_⟩
  rw [oneLib_order hp]
  rcases hc with ⟨r, rfl⟩ | ⟨r, f, g, l, t, hu, u, rfl⟩
  · rfl
  · simp only [LibVm.run, LibVm.step, LibVm.finish, LibVm.unload, if_true, Res.bind_ok, LibCall.exec, oneLibVm]
    cases libOpen r f g with
    | none => rfl
    | some x => rfl

/-- Without the destructor the same library may remove and attach libraries: here it attaches itself again and
is unloaded twice. -/
example : ∃ m, WholeRun 0 none World.initial
    [oneLib [.attach "a".toList (some 1) none true [] false true []], .remove "a".toList] m ∧
    m.trace = [.opened 0 1, .onUnload 0 "JNI_OnUnload".toList, .opened 1 1, .onLoad 1 "JNI_OnLoad".toList,
      .closed 0 1, .onUnload 1 "JNI_OnUnload".toList, .closed 1 1] :=
  ⟨_, ⟨_, [⟨1, some 1, [], true, []⟩], ⟨9, rfl, rfl⟩, List.Perm.refl _, ⟨5, rfl, rfl⟩⟩, rfl⟩

/-- C73 fails: a rule against a class does not bind a library that attaches the thread while the destructor of
the VM unloads it. -/
theorem unload_rule_lost (depth : Nat) (d : Deny) {w : World} (hr : MemReachable w) (n : Str) :
    ∃ m c, WholeRun depth (some d) w [oneLib [.detachThread, .attachThread, .look (.findClass n)]] m ∧
      m.found = [some c] ∧ m.world.IsClass n c := by
  obtain ⟨r, c, e, _, hc, _⟩ := find_create hr n
  have hl : ∀ deny, (Look.findClass n).run depth deny .making w = .ok ({ w with reg := r }, some c) := by
    intro deny
    simp only [Look.run, Look.plain, e]
  refine ⟨{ LibVm.start (some d) w [] with
      trace := [.opened 0 1, .onUnload 0 (unloadSymbol []), .closed 0 1], next := 1, stack := [], ending := true,
      deny := none, env := some .making, found := [some c], world := { w with reg := r } }, c,
    ⟨_, _, oneLib_runs .., List.Perm.refl _, ⟨7, ?_, rfl⟩⟩, rfl, hc⟩
  have h1 : ((oneLibVm (some d) w [.detachThread, .attachThread, .look (.findClass n)]).finish
      [⟨0, some 1, [], true, [.detachThread, .attachThread, .look (.findClass n)]⟩]).run depth 3 =
      .ok { LibVm.start (some d) w [] with
        trace := [.opened 0 1, .onUnload 0 (unloadSymbol [])], next := 1, ending := true, deny := none,
        env := some .making, stack := [.calls [.look (.findClass n)], .closing 0 1, .ending []] } := rfl
  show ((oneLibVm (some d) w [.detachThread, .attachThread, .look (.findClass n)]).finish
      [⟨0, some 1, [], true, [.detachThread, .attachThread, .look (.findClass n)]⟩]).run depth 7 = _
  rw [show 7 = 3 + 4 from rfl, librun_add, h1, Res.bind_ok]
  simp only [LibVm.run, LibVm.step, LibCall.exec, LibVm.start, hl, Res.bind_ok]
  rfl

/-! ### The model of C46 -/

mutual
/-- The operation as a call, the unload functions do nothing. -/
def LibOp.call : LibOp → LibCall
  | .attach rpath first second hasLoad inner loadThrows hasUnload =>
    .attach rpath first second hasLoad (libCalls inner) loadThrows hasUnload []
  | .remove rpath => .remove rpath
def libCalls : List LibOp → List LibCall
  | [] => []
  | op :: ops => op.call :: libCalls ops
end

def LibInst.lib (i : LibInst) : Lib := ⟨i.id, i.handle, i.path, i.hasUnload, []⟩

/-- The same libraries, and the same happened. -/
structure SameLibs (s : LibState) (m : LibVm) : Prop where
  libs : m.libs = s.libs.map fun x => (x.1, x.2.lib)
  trace : m.trace = s.trace
  next : m.next = s.next
  ending : m.ending = false

/-- Some steps lead to a state with this stack that matches. -/
def Reaches (depth : Nat) (m : LibVm) (s : LibState) (st : List LibFrame) : Prop :=
  ∃ n m', m.run depth n = .ok m' ∧ m'.stack = st ∧ SameLibs s m'

theorem Reaches.after {depth n : Nat} {m m1 : LibVm} {s : LibState} {st : List LibFrame}
    (h : m.run depth n = .ok m1) (hr : Reaches depth m1 s st) : Reaches depth m s st := by
  obtain ⟨k, m2, h1, h2⟩ := hr
  exact ⟨n + k, m2, by rw [librun_add, h, Res.bind_ok, h1], h2⟩

theorem Reaches.step {depth : Nat} {m m1 : LibVm} {s : LibState} {st : List LibFrame}
    (h : m.step depth = .ok m1) (hr : Reaches depth m1 s st) : Reaches depth m s st :=
  Reaches.after (n := 1) (by simp only [LibVm.run, h, Res.bind_ok]) hr

theorem unload_reaches (depth : Nat) {s : LibState} {m : LibVm} (h : SameLibs s m) (i : LibInst) :
    Reaches depth (m.unload i.lib) (s.unload i) m.stack := by
  unfold LibVm.unload LibState.unload LibInst.lib
  cases i.handle with
  | none => exact ⟨0, m, rfl, rfl, h⟩
  | some hd =>
    cases hu : i.hasUnload with
    | false => exact ⟨0, _, rfl, rfl, h.libs, by simp [h.trace], h.next, h.ending⟩
    | true =>
      refine ⟨2, _, rfl, rfl, h.libs, ?_, h.next, h.ending⟩
      simp [h.trace]

theorem insert_reaches (depth : Nat) {s : LibState} {m : LibVm} (h : SameLibs s m) (rpath : Str) (i : LibInst) :
    ∃ m1, m.insert rpath i.lib = .ok m1 ∧ Reaches depth m1 (s.insert rpath i) m.stack := by
  have ha : m.libs.any (·.1 == rpath) = s.libs.any (·.1 == rpath) := by rw [h.libs, List.any_map]; rfl
  unfold LibVm.insert LibState.insert
  rw [if_neg (by rw [h.ending]; exact Bool.false_ne_true), ha]
  cases s.libs.any (·.1 == rpath) with
  | true => exact ⟨_, rfl, unload_reaches depth h i⟩
  | false => exact ⟨_, rfl, 0, _, rfl, rfl, by rw [h.libs]; rfl, h.trace, h.next, h.ending⟩

theorem remove_reaches (depth : Nat) {s : LibState} {m : LibVm} (h : SameLibs s m) (rpath : Str) :
    ∃ m1, m.remove rpath = .ok m1 ∧ Reaches depth m1 (s.remove rpath) m.stack := by
  have hf : m.libs.find? (·.1 == rpath) = (s.libs.find? (·.1 == rpath)).map fun x => (x.1, x.2.lib) := by
    rw [h.libs, List.find?_map]; rfl
  unfold LibVm.remove LibState.remove
  rw [if_neg (by rw [h.ending]; exact Bool.false_ne_true), hf]
  cases s.libs.find? (·.1 == rpath) with
  | none => exact ⟨_, rfl, 0, _, rfl, rfl, h⟩
  | some x =>
    refine ⟨_, rfl, ?_⟩
    exact unload_reaches depth (s := { s with libs := s.libs.filter (fun y => y.1 != rpath) })
      (m := { m with libs := m.libs.filter (fun y => y.1 != rpath) })
      ⟨by show m.libs.filter _ = _; rw [h.libs, List.filter_map]; rfl, h.trace, h.next, h.ending⟩ x.2

mutual
theorem call_reaches (depth : Nat) (op : LibOp) : ∀ {s : LibState} {m : LibVm} {l : List LibCall}
    {st : List LibFrame}, SameLibs s m → m.stack = .calls (op.call :: l) :: st →
    Reaches depth m (s.step op) (.calls l :: st) := by
  intro s m l st h hs
  have hstep : m.step depth = op.call.exec depth { m with stack := .calls l :: st } := by
    unfold LibVm.step; rw [hs]
  match op with
  | .remove rpath =>
    obtain ⟨m1, h1, h2⟩ := remove_reaches depth (m := { m with stack := .calls l :: st })
      ⟨h.libs, h.trace, h.next, h.ending⟩ rpath
    unfold LibState.step
    exact .step (hstep.trans h1) h2
  | .attach rpath first second hasLoad inner loadThrows hasUnload =>
    unfold LibState.step
    simp only [LibOp.call, LibCall.exec] at hstep
    cases ho : libOpen rpath first second with
    | none =>
      rw [ho] at hstep
      obtain ⟨m1, h1, h2⟩ := insert_reaches depth (s := { s with next := s.next + 1 })
        (m := { m with stack := .calls l :: st, next := m.next + 1 })
        ⟨h.libs, h.trace, by rw [h.next], h.ending⟩ rpath ⟨s.next, none, [], hasUnload⟩
      refine .step (hstep.trans ?_) h2
      rw [h.next]
      rw [h.next] at h1
      exact h1
    | some x =>
      obtain ⟨hd, path⟩ := x
      rw [ho] at hstep
      simp only [h.next, h.trace] at hstep
      cases hasLoad with
      | false =>
        simp only [Bool.false_eq_true, if_false] at hstep ⊢
        obtain ⟨m1, h1, h2⟩ := insert_reaches depth
          (s := { s with next := s.next + 1, trace := s.trace ++ [.opened s.next hd] })
          (m := { m with stack := .calls l :: st, next := s.next + 1, trace := s.trace ++ [.opened s.next hd] })
          ⟨h.libs, rfl, rfl, h.ending⟩ rpath ⟨s.next, some hd, path, hasUnload⟩
        exact .step (hstep.trans h1) h2
      | true =>
        simp only [if_true] at hstep ⊢
        obtain ⟨k, m2, h3, h4, h5⟩ := calls_reaches depth inner
          (s := ⟨s.libs, s.trace ++ [.opened s.next hd] ++ [.onLoad s.next (loadSymbol path)], s.next + 1⟩)
          (m := ⟨m.libs, s.trace ++ [.opened s.next hd, .onLoad s.next (loadSymbol path)], s.next + 1,
            .calls (libCalls inner) :: .loading rpath ⟨s.next, some hd, path, hasUnload, []⟩ loadThrows ::
              .calls l :: st, m.ending, m.baron, m.deny, m.env, m.world, m.found⟩)
          ⟨h.libs, by simp, rfl, h.ending⟩ rfl
        refine .step hstep (.after h3 ?_)
        cases loadThrows with
        | true =>
          simp only [if_true]
          refine .step (m1 := { m2 with stack := .calls l :: st, trace := m2.trace ++ [.threw s.next] })
            (by unfold LibVm.step; rw [h4]; rfl) ?_
          exact ⟨0, _, rfl, rfl, h5.libs, by rw [← h5.trace], h5.next, h5.ending⟩
        | false =>
          simp only [Bool.false_eq_true, if_false]
          obtain ⟨m1, h1, h2⟩ := insert_reaches depth (m := { m2 with stack := .calls l :: st })
            ⟨h5.libs, h5.trace, h5.next, h5.ending⟩ rpath ⟨s.next, some hd, path, hasUnload⟩
          refine .step (Eq.trans ?_ h1) h2
          unfold LibVm.step; rw [h4]; rfl
theorem calls_reaches (depth : Nat) (ops : List LibOp) : ∀ {s : LibState} {m : LibVm} {st : List LibFrame},
    SameLibs s m → m.stack = .calls (libCalls ops) :: st → Reaches depth m (s.run ops) st := by
  intro s m st h hs
  match ops with
  | [] =>
    unfold LibState.run
    exact ⟨1, { m with stack := st }, by simp only [LibVm.run, LibVm.step, hs, libCalls, Res.bind_ok], rfl,
      h.libs, h.trace, h.next, h.ending⟩
  | op :: ops =>
    unfold LibState.run
    obtain ⟨n, m1, h1, h2, h3⟩ := call_reaches depth op h hs
    exact .after h1 (calls_reaches depth ops h3 h2)
end

/-- If the unload functions do nothing the machine does what the model of C46 does. -/
theorem unload_agrees (depth : Nat) (deny : Option Deny) (w : World) (ops : List LibOp) :
    ∃ m, RunsTo depth (LibVm.start deny w (libCalls ops)) m ∧
      m.libs = (LibState.initial.run ops).libs.map (fun x => (x.1, x.2.lib)) ∧
      m.trace = (LibState.initial.run ops).trace := by
  obtain ⟨n, m, h1, h2, h3⟩ := calls_reaches depth ops (s := .initial) (m := LibVm.start deny w (libCalls ops))
    (st := []) ⟨rfl, rfl, rfl, rfl⟩ rfl
  exact ⟨m, ⟨n, h1, h2⟩, h3.libs, h3.trace⟩

end Jnivm
