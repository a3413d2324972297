import Verif.Lemmas.LockFinds
/-!
Property C54: calls of the library never wait for each other for good (mutexes are locked in one
order), with the exceptions; property C55: which shared tables are protected by a mutex and which
are not.
-/
namespace Jnivm
open Spec

/-- Base classes have smaller rank than the class they are found in, whatever a field search meets:
class hierarchies without cycle, also if they change meanwhile. -/
def Call.Acyclic (rank : Nat → Nat) : Call → Prop
  | .getFieldID _ _ tour _ =>
    ∀ path c bs b, (tour path c).bases = some bs → some b ∈ bs → rank b < rank c
  | _ => True

/-- User code that the library runs under the mutex of the VM does not lock or unlock. -/
def Call.Quiet : Call → Prop
  | .attach _ user => ∀ a ∈ user, ∃ l, a = .read l ∨ a = .write l
  | .detach _ user => ∀ a ∈ user, ∃ l, a = .read l ∨ a = .write l
  | _ => True

/-- The call is not a `FindClass` that meets a class object without class. -/
def Call.NoFreshFind : Call → Prop
  | .findClass n => n.classless = false
  | _ => True

theorem fits_of_quiet {rank : Nat → Nat} {locked : Bool} {c : Call} (ha : c.Acyclic rank) (hq : c.Quiet)
    (hl : locked = true → c.NoFreshFind) : c.Fits rank (fun _ => none) locked true true := by
  cases c <;> first | exact ha | exact hl | exact quiet_keeps hq | exact rfl | exact trivial

/-- Any number of threads, any calls, any schedule: as long as the hierarchy is acyclic, no thread
locks a mutex it owns or unlocks one it does not own; if some thread is not finished, some thread can
go on; and the threads can all be brought to their end, where no mutex is locked. -/
theorem locks_complete {rank : Nat → Nat} {depth n : Nat} {calls : Nat → List Call}
    (hn : ∀ t, n ≤ t → calls t = [])
    (ha : ∀ t, ∀ c ∈ calls t, c.Acyclic rank ∧ c.Quiet) {s : LockState}
    (hs : (LockState.start false depth calls).Reach s) :
    (∀ t u, s.turn t ≠ .undefined u) ∧
    ((∃ t, s.turn t ≠ .finished) → ∃ t s', s.turn t = .moves s') ∧
    ∃ s', s.Reach s' ∧ (∀ t, s'.turn t = .finished) ∧ ∀ m, s'.owner m = none := by
  have h0 := start_inOrder (g := fun _ => none) (cpp := true) (direct := true) (depth := depth)
    (fun l m e => by cases e) (fun t c hc => fits_of_quiet (locked := false) (ha t c hc).1 (ha t c hc).2
      (fun e => by cases e))
  have htail : ∀ {r : LockState}, (LockState.start false depth calls).Reach r →
      ∀ t, n ≤ t → r.todo t = [] := by
    intro r hr
    induction hr with
    | refl => intro t ht; show List.flatMap _ (calls t) = []; rw [hn t ht]; rfl
    | step u _ e ih =>
      intro t ht
      obtain ⟨a, rest, e1, e2, _⟩ := LockState.turn_moves e
      rw [e2]
      show (if t = u then rest else _) = []
      split
      · next htu => rw [← htu, ih t ht] at e1; cases e1
      · exact ih t ht
  obtain ⟨held, h⟩ := h0.reach hs
  refine ⟨h.defined, fun ⟨t, ht⟩ => h.progress fun e => ht (LockState.turn_finished.2 e), ?_⟩
  obtain ⟨s', h1, h2, h3⟩ := h.complete (s.left n) rfl (htail hs)
  exact ⟨s', h1, fun t => LockState.turn_finished.2 (h2 t), h3⟩

/-- `locks_complete` holds for every bound on the nested calls that are listed, and beyond the rank
of the class the bound does not matter. -/
theorem acts_depth {rank : Nat → Nat} {locked init create : Bool} {tour : Tour} {ds : List Named}
    {c d d' : Nat}
    (ht : ∀ path c bs b, (tour path c).bases = some bs → some b ∈ bs → rank b < rank c)
    (hd : rank c < d) (hd' : rank c < d') :
    (Call.getFieldID c create tour ds).acts locked d = (Call.getFieldID c create tour ds).acts locked d' ∧
    (Call.getMethodID c init create tour ds).acts locked d =
      (Call.getMethodID c init create tour ds).acts locked d' := by
  simp only [Call.acts]
  rw [fieldSearch_depth ht d d' _ _ _ hd hd', methodSearch_depth ht d d' _ _ hd hd']
  exact ⟨rfl, rfl⟩

/-- A field search through a class that is its own base class, as happens if one class name is
bound to a C++ type and to a type derived from it, locks the mutex of the class twice. -/
theorem field_cycle_relocks {c depth : Nat} {create : Bool} {tour : Tour} {ds : List Named}
    {bs : List (Option Nat)} {rest : List Call} {calls : Nat → List Call} {t : Nat}
    (hc : calls t = .getFieldID c create tour ds :: rest)
    (h1 : (tour [] c).found = false) (h2 : (tour [] c).throws = false)
    (h3 : (tour [] c).bases = some (some c :: bs)) :
    ∃ s, (LockState.start false (depth + 2) calls).Reach s ∧ s.turn t = .undefined .relock := by
  have hin : ∃ tail, (fieldSearch tour [] (depth + 1) [0] c).1 = .lock (.cls c) :: tail := by
    unfold fieldSearch
    split
    · exact ⟨_, rfl⟩
    · split <;> exact ⟨_, rfl⟩
  obtain ⟨tail, hin⟩ := hin
  have hov : ∃ tail', (overBases (fun i b => fieldSearch tour [] (depth + 1) (i :: []) b) 0
      (some c :: bs)).1 = .lock (.cls c) :: tail' := by
    unfold overBases
    split
    · exact ⟨_, hin⟩
    · rw [hin]; exact ⟨_, rfl⟩
  obtain ⟨tail', hov⟩ := hov
  have hacts : ∃ more, (LockState.start false (depth + 2) calls).todo t =
      .lock (.cls c) :: .read (.fields c) :: .read (.bases c) ::
        access .types (tour [] c).inserts :: .lock (.cls c) :: more := by
    show ∃ more, (calls t).flatMap _ = _
    rw [hc]
    simp only [List.flatMap_cons, Call.acts]
    rw [fieldSearch]
    simp only [h1, h2, h3, Bool.false_eq_true, if_false, Option.getD_some, hov]
    simp only [readBases, h3, guarded, Option.isSome_some, if_true, List.cons_append, List.nil_append,
      List.append_assoc]
    exact ⟨_, rfl⟩
  obtain ⟨more, hacts⟩ := hacts
  let s0 := LockState.start false (depth + 2) calls
  let s1 := (s0.advance t (.read (.fields c) :: .read (.bases c) ::
        access .types (tour [] c).inserts :: .lock (.cls c) :: more)).setOwner (.cls c) (some t)
  let s2 := s1.advance t (.read (.bases c) ::
        access .types (tour [] c).inserts :: .lock (.cls c) :: more)
  let s3 := s2.advance t (access .types (tour [] c).inserts :: .lock (.cls c) :: more)
  let s4 := s3.advance t (.lock (.cls c) :: more)
  have t0 : s0.turn t = .moves s1 := by
    unfold LockState.turn
    rw [show s0.todo t = _ from hacts]
    rfl
  have e1 : s1.todo t = (.read (.fields c) :: .read (.bases c) ::
        access .types (tour [] c).inserts :: .lock (.cls c) :: more) := if_pos rfl
  have t1 : s1.turn t = .moves s2 := by unfold LockState.turn; rw [e1]
  have e2 : s2.todo t = (.read (.bases c) ::
        access .types (tour [] c).inserts :: .lock (.cls c) :: more) := if_pos rfl
  have t2 : s2.turn t = .moves s3 := by unfold LockState.turn; rw [e2]
  have e3 : s3.todo t = (access .types (tour [] c).inserts :: .lock (.cls c) :: more) := if_pos rfl
  have t3 : s3.turn t = .moves s4 := by
    unfold LockState.turn
    rw [e3]
    unfold access
    cases (tour [] c).inserts <;> rfl
  have e4 : s4.todo t = (.lock (.cls c) :: more) := if_pos rfl
  have o4 : s4.owner (.cls c) = some t := if_pos rfl
  refine ⟨s4, .step t (.step t (.step t (.step t .refl t0) t1) t2) t3, ?_⟩
  unfold LockState.turn
  rw [e4]
  simp only [o4, if_true]

/-- The deadlock the comment in `JNITypesObjectBase::GetClass` asks for ("ToDo find the deadlock"):
with the `lock_guard` put back, `FindClass` locks the mutex of the VM twice whenever the class object
it found has no class yet, in particular for every class it makes. -/
theorem getClass_lock_relocks {depth : Nat} {creates : Bool} {rest : List Call}
    {calls : Nat → List Call} {t : Nat} (hc : calls t = .findClass ⟨creates, true⟩ :: rest) :
    ∃ s, (LockState.start true depth calls).Reach s ∧ s.turn t = .undefined .relock := by
  have hacts : ∃ more, (LockState.start true depth calls).todo t =
      .lock .vm :: access .classes creates :: .lock .vm :: more := by
    show ∃ more, (calls t).flatMap _ = _
    rw [hc]
    exact ⟨_, rfl⟩
  obtain ⟨more, hacts⟩ := hacts
  let s0 := LockState.start true depth calls
  let s1 := (s0.advance t (access .classes creates :: .lock .vm :: more)).setOwner .vm (some t)
  let s2 := s1.advance t (.lock .vm :: more)
  have t0 : s0.turn t = .moves s1 := by
    unfold LockState.turn
    rw [show s0.todo t = _ from hacts]
    rfl
  have e1 : s1.todo t = (access .classes creates :: .lock .vm :: more) := if_pos rfl
  have t1 : s1.turn t = .moves s2 := by
    unfold LockState.turn; rw [e1]; unfold access; cases creates <;> rfl
  have e2 : s2.todo t = (.lock .vm :: more) := if_pos rfl
  have o2 : s2.owner .vm = some t := rfl
  refine ⟨s2, .step t (.step t .refl t0) t1, ?_⟩
  unfold LockState.turn
  rw [e2]
  simp only [o2, if_true]

/-- It is the only one: with the `lock_guard` put back, everything else still completes. -/
theorem getClass_lock_otherwise {rank : Nat → Nat} {depth : Nat} {calls : Nat → List Call}
    (ha : ∀ t, ∀ c ∈ calls t, c.Acyclic rank ∧ c.Quiet ∧ c.NoFreshFind) {s : LockState}
    (hs : (LockState.start true depth calls).Reach s) :
    (∀ t u, s.turn t ≠ .undefined u) ∧
    ((∃ t, s.turn t ≠ .finished) → ∃ t s', s.turn t = .moves s') := by
  have h0 := start_inOrder (g := fun _ => none) (cpp := true) (direct := true) (depth := depth)
    (fun l m e => by cases e) (fun t c hc => fits_of_quiet (locked := true) (ha t c hc).1
      (ha t c hc).2.1 (fun _ => (ha t c hc).2.2))
  obtain ⟨held, h⟩ := h0.reach hs
  exact ⟨h.defined, fun ⟨t, ht⟩ => h.progress fun e => ht (LockState.turn_finished.2 e)⟩

/-- `DetachCurrentThread` destroys the objects that only the thread's local frames kept alive while
the mutex of the VM is locked: a destructor that deletes a global reference locks it again. -/
theorem detach_destructor_relocks {depth : Nat} {found : Bool} {rest : List Call}
    {calls : Nat → List Call} {t : Nat}
    (hc : calls t = .detach true ((Call.deleteGlobalRef found).acts false depth) :: rest) :
    ∃ s, (LockState.start false depth calls).Reach s ∧ s.turn t = .undefined .relock := by
  have hacts : ∃ more, (LockState.start false depth calls).todo t =
      .lock .vm :: .read .envs :: .write .envs :: .lock .vm :: more := by
    show ∃ more, (calls t).flatMap _ = _
    rw [hc]
    exact ⟨_, rfl⟩
  obtain ⟨more, hacts⟩ := hacts
  let s0 := LockState.start false depth calls
  let s1 := (s0.advance t (.read .envs :: .write .envs :: .lock .vm :: more)).setOwner .vm (some t)
  let s2 := s1.advance t (.write .envs :: .lock .vm :: more)
  let s3 := s2.advance t (.lock .vm :: more)
  have t0 : s0.turn t = .moves s1 := by
    unfold LockState.turn
    rw [show s0.todo t = _ from hacts]
    rfl
  have e1 : s1.todo t = (.read .envs :: .write .envs :: .lock .vm :: more) := if_pos rfl
  have t1 : s1.turn t = .moves s2 := by unfold LockState.turn; rw [e1]
  have e2 : s2.todo t = (.write .envs :: .lock .vm :: more) := if_pos rfl
  have t2 : s2.turn t = .moves s3 := by unfold LockState.turn; rw [e2]
  have e3 : s3.todo t = (.lock .vm :: more) := if_pos rfl
  have o3 : s3.owner .vm = some t := rfl
  refine ⟨s3, .step t (.step t (.step t .refl t0) t1) t2, ?_⟩
  unfold LockState.turn
  rw [e3]
  simp only [o3, if_true]

/-! ### Which tables are protected -/

/-- Hooks of `CreateEnv` and destructors do not touch the tables. -/
def Call.Silent : Call → Prop
  | .attach _ user => user = []
  | .detach _ user => user = []
  | _ => True

/-- Not a call of `VM::GetEnv`. -/
def Call.NotCppGetEnv : Call → Prop
  | .cppGetEnv _ => False
  | _ => True

/-- Neither the installation of an accessor nor a class dump. -/
def Call.NotDirect : Call → Prop
  | .hookField _ _ _ => False
  | .dump _ => False
  | _ => True

theorem fits_of_silent {rank : Nat → Nat} {g : Loc → Option Mutex} {cpp direct : Bool} {c : Call}
    (ha : c.Acyclic rank) (hq : c.Silent) (h1 : cpp = true ∨ c.NotCppGetEnv)
    (h2 : direct = true ∨ c.NotDirect) : c.Fits rank g false cpp direct := by
  cases c with
  | getFieldID => exact ha
  | findClass => exact fun e => by cases e
  | attach b u => cases (show u = [] from hq); exact .nil
  | detach b u => cases (show u = [] from hq); exact .nil
  | cppGetEnv => exact h1.resolve_right fun h => h
  | hookField => exact h2.resolve_right fun h => h
  | dump => exact h2.resolve_right fun h => h
  | _ => exact trivial

theorem not_racing {rank : Nat → Nat} {depth : Nat} {calls : Nat → List Call} {cpp direct : Bool}
    (h : ∀ t, ∀ c ∈ calls t, c.Fits rank (guardOf cpp direct) false cpp direct) {s : LockState}
    (hs : (LockState.start false depth calls).Reach s) {l : Loc} {m : Mutex}
    (hl : guardOf cpp direct l = some m) :
    ¬ Racing s.next l ∧ ∀ t a, s.next t = some a → a.touches l → s.owner m = some t := by
  obtain ⟨held, hi⟩ := (start_inOrder (depth := depth) (fun _ _ e => e) h).reach hs
  have key : ∀ t a, s.next t = some a → a.touches l → s.owner m = some t :=
    fun t a ha hta => hi.guard ha hta hl
  refine ⟨fun ⟨t, u, a, htu, ht, hu, ha⟩ => ?_, key⟩
  have e1 := key t _ ht rfl
  have e2 := key u a hu ha
  rw [e1] at e2
  cases e2
  exact htu rfl

/-- The table of global references is only touched under the mutex of the VM, the native methods of a
class only under the mutex of the class: no schedule of any calls races for them. -/
theorem globals_natives_guarded {rank : Nat → Nat} {depth : Nat} {calls : Nat → List Call}
    (ha : ∀ t, ∀ c ∈ calls t, c.Acyclic rank ∧ c.Silent) {s : LockState}
    (hs : (LockState.start false depth calls).Reach s) :
    (¬ Racing s.next .globals ∧ ∀ c, ¬ Racing s.next (.natives c)) ∧
    ∀ t a, s.next t = some a → (a.touches .globals → s.owner .vm = some t) ∧
      ∀ c, a.touches (.natives c) → s.owner (.cls c) = some t := by
  have h : ∀ t, ∀ c ∈ calls t, c.Fits rank (guardOf true true) false true true := fun t c hc =>
    fits_of_silent (ha t c hc).1 (ha t c hc).2 (.inl rfl) (.inl rfl)
  refine ⟨⟨(not_racing h hs (m := .vm) rfl).1, fun c => (not_racing h hs (m := .cls c) rfl).1⟩,
    fun t a hta => ⟨fun hl => (not_racing h hs (m := .vm) rfl).2 t a hta hl,
      fun c hl => (not_racing h hs (m := .cls c) rfl).2 t a hta hl⟩⟩

/-- The table of environments is only touched under the mutex of the VM if nobody uses `VM::GetEnv`
from C++. -/
theorem envs_guarded_partial {rank : Nat → Nat} {depth : Nat} {calls : Nat → List Call}
    (ha : ∀ t, ∀ c ∈ calls t, c.Acyclic rank ∧ c.Silent ∧ c.NotCppGetEnv) {s : LockState}
    (hs : (LockState.start false depth calls).Reach s) :
    ¬ Racing s.next .envs ∧ ∀ t a, s.next t = some a → a.touches .envs → s.owner .vm = some t :=
  not_racing (cpp := false) (direct := true) (fun t c hc =>
    fits_of_silent (ha t c hc).1 (ha t c hc).2.1 (.inr (ha t c hc).2.2) (.inl rfl)) hs rfl

/-- The fields of a class are only touched under the mutex of the class if nobody installs accessors
or dumps classes meanwhile. -/
theorem fields_guarded_partial {rank : Nat → Nat} {depth : Nat} {calls : Nat → List Call}
    (ha : ∀ t, ∀ c ∈ calls t, c.Acyclic rank ∧ c.Silent ∧ c.NotDirect) {s : LockState}
    (hs : (LockState.start false depth calls).Reach s) (k : Nat) :
    ¬ Racing s.next (.fields k) ∧
      ∀ t a, s.next t = some a → a.touches (.fields k) → s.owner (.cls k) = some t :=
  not_racing (cpp := true) (direct := false) (fun t c hc =>
    fits_of_silent (ha t c hc).1 (ha t c hc).2.1 (.inl rfl) (.inr (ha t c hc).2.2)) hs rfl

/-! ### Searches that find the member write nothing -/

/-- Looking up a member that the class or one of its base classes has changes the members of no class,
whether or not the library may create members. -/
theorem found_member_unwritten {tour : Tour} {depth c : Nat} {locked init create : Bool}
    {ds : List Named} (h : tour.Finds depth [] c) :
    (∀ a ∈ (Call.getMethodID c init create tour ds).acts locked depth, Unwritten a) ∧
    ∀ a ∈ (Call.getFieldID c create tour ds).acts locked depth, Unwritten a := by
  simp only [Call.acts]
  rw [if_pos (methodSearch_finds h)]
  refine ⟨fun a ha => ?_, fieldSearch_unwritten depth [] c (.inl (fieldSearch_finds h _))⟩
  rw [List.append_nil] at ha
  rcases List.mem_append.1 ha with ha | ha
  · split at ha
    · simp [guarded] at ha
      rcases ha with rfl | rfl <;> intro x <;> simp
    · cases ha
  · exact methodSearch_unwritten depth [] c a ha

/-- A member found in the second base class of the first base class. -/
example : Tour.Finds (fun path c => if path = [1, 0] then ⟨true, none, false, false⟩
    else ⟨false, if c = 0 then some [some 1] else some [none, some 2], false, false⟩) 3 [] 0 :=
  .base (bs := [some 1]) (i := 0) rfl rfl (.base (bs := [none, some 2]) (i := 1) rfl rfl (.here rfl))

/-! ### Which are not -/

/-- Two threads, each with one call. -/
def two (a b : Call) : Nat → List Call
  | 0 => [a]
  | 1 => [b]
  | _ => []

/-- A search for a member of a class without base classes that has no such member. -/
def absent : Tour := fun _ _ => ⟨false, none, false, false⟩

/-- `GetMethodID` comes to the creation of the method without a mutex. -/
theorem create_reached {depth c : Nat} {init : Bool} {ds : List Named} {calls : Nat → List Call} {t : Nat}
    (hc : calls t = [.getMethodID c init true absent ds]) :
    ∃ s, (LockState.start false (depth + 1) calls).Reach s ∧
      ((∀ u, u ≠ t → s.todo u = (LockState.start false (depth + 1) calls).todo u) ∧
        s.owner = fun _ => none) ∧
      ∃ r, s.todo t = [.write (.methods c)] ++ (declareActs false ds ++ r) := by
  have h0 : (LockState.start false (depth + 1) calls).todo t =
      (if init then guarded (.cls c) [] else []) ++ (guarded (.cls c) [.read (.methods c)] ++
        ([.read (.bases c)] ++ ([.write (.methods c)] ++ (declareActs false ds ++ [])))) := by
    show (calls t).flatMap _ = _
    rw [hc]
    simp [Call.acts, methodSearch, absent, overBases, readBases, createActs]
  obtain ⟨s1, r1, h1, o1, w1⟩ : ∃ s', (LockState.start false (depth + 1) calls).Reach s' ∧
      s'.todo t = (guarded (.cls c) [.read (.methods c)] ++
        ([.read (.bases c)] ++ ([.write (.methods c)] ++ (declareActs false ds ++ [])))) ∧
      (∀ u, u ≠ t → s'.todo u = (LockState.start false (depth + 1) calls).todo u) ∧
      s'.owner = fun _ => none := by
    cases init with
    | false => exact ⟨_, .refl, h0, fun _ _ => rfl, rfl⟩
    | true => exact run_guarded (fun a ha => by cases ha) h0 rfl
  obtain ⟨s2, r2, h2, o2, w2⟩ := run_guarded
    (fun a ha => ⟨_, .inl (List.mem_singleton.1 ha)⟩) h1 (by rw [w1])
  obtain ⟨s3, r3, h3, o3, w3⟩ := run_accesses (as := [.read (.bases c)])
    (fun a ha => ⟨.bases c, .inl (List.mem_singleton.1 ha)⟩) h2
  exact ⟨s3, (r1.trans r2).trans r3,
    ⟨fun u hu => ((o3 u hu).trans (o2 u hu)).trans (o1 u hu), by rw [w3, w2, w1]⟩, _, h3⟩

/-- The registry of classes: `FindClass` that makes a class, under the lock, against calls that look
up classes without it. -/
theorem classes_race {depth c : Nat} {fresh init : Bool} {n : Named} {ds : List Named} {b : Call}
    (hb : b = .newGlobalRef n ∨ b = .newArray n ∨ b = .dump [] ∨
      b = .getMethodID c init true absent (n :: ds)) :
    ∃ s, (LockState.start false (depth + 1) (two (.findClass ⟨true, fresh⟩) b)).Reach s ∧
      Racing s.next .classes := by
  have h : ∀ n : Named, (access Loc.classes n.creates).touches .classes := fun n => by
    unfold access; cases n.creates <;> rfl
  rcases hb with rfl | rfl | rfl | rfl
  · exact ⟨_, LockState.steps_reach (ts := [0]) rfl, 0, 1, _, by decide, rfl, rfl, h n⟩
  · exact ⟨_, LockState.steps_reach (ts := [0]) rfl, 0, 1, _, by decide, rfl, rfl, h n⟩
  · exact ⟨_, LockState.steps_reach (ts := [0]) rfl, 0, 1, _, by decide, rfl, rfl, rfl⟩
  · obtain ⟨s, hs, h0, r, h1⟩ := create_reached (depth := depth) (init := init) (c := c)
      (ds := n :: ds) (calls := two (.findClass ⟨true, fresh⟩) (.getMethodID c init true absent (n :: ds)))
      (t := 1) rfl
    obtain ⟨s', r', h1', o', w'⟩ := run_accesses (as := [.write (.methods c)])
      (fun a ha => ⟨.methods c, .inr (List.mem_singleton.1 ha)⟩) h1
    obtain ⟨s'', r'', h1'', o'', w''⟩ := run_lock (t := 0) (m := .vm)
      ((o' 0 (by decide)).trans (h0.1 0 (by decide))) (by rw [w', h0.2])
    refine ⟨s'', (hs.trans r').trans r'', 0, 1, access .classes n.creates, by decide, ?_, ?_, h n⟩
    · unfold LockState.next; rw [h1'']; rfl
    · unfold LockState.next; rw [o'' 1 (by decide), h1']; rfl

/-- The table of types: binding a type against handing out an object without class and against
following base classes. -/
theorem types_race {depth c k : Nat} {n : Named} {v : Visit} (hv : v.bases.isSome) {b : Call}
    (hb : b = .toJni true ∨ b = .subtype [(k, v)]) :
    ∃ s, (LockState.start false depth (two (.bindType c n) b)).Reach s ∧ Racing s.next .types := by
  have two_steps : (LockState.start false depth (two (.bindType c n) b)).steps [0, 0] = some
      (((LockState.start false depth (two (.bindType c n) b)).advance 0
        [access .classes n.creates, .write .types, .write (.bases c), .unlock .vm]).setOwner .vm
        (some 0) |>.advance 0 [.write .types, .write (.bases c), .unlock .vm]) := by
    cases n with
    | mk cr cl => cases cr <;> rfl
  rcases hb with rfl | rfl
  · exact ⟨_, LockState.steps_reach two_steps, 0, 1, .read .types, by decide, rfl, rfl, rfl⟩
  · obtain ⟨f, bs, ins, th⟩ := v
    cases bs with
    | none => cases hv
    | some bs =>
      cases n with
      | mk cr cl =>
      cases cr <;> cases ins
      · exact ⟨_, LockState.steps_reach (ts := [0, 0, 1]) rfl, 0, 1, _, by decide, rfl, rfl, rfl⟩
      · exact ⟨_, LockState.steps_reach (ts := [0, 0, 1]) rfl, 0, 1, _, by decide, rfl, rfl, rfl⟩
      · exact ⟨_, LockState.steps_reach (ts := [0, 0, 1]) rfl, 0, 1, _, by decide, rfl, rfl, rfl⟩
      · exact ⟨_, LockState.steps_reach (ts := [0, 0, 1]) rfl, 0, 1, _, by decide, rfl, rfl, rfl⟩

/-- The base classes of a class: binding a type against following base classes. -/
theorem bases_race {depth c : Nat} {n : Named} {v : Visit} :
    ∃ s, (LockState.start false depth (two (.bindType c n) (.subtype [(c, v)]))).Reach s ∧
      Racing s.next (.bases c) := by
  cases n with
  | mk cr cl =>
    cases cr
    · exact ⟨_, LockState.steps_reach (ts := [0, 0, 0]) rfl, 0, 1, _, by decide, rfl, rfl, rfl⟩
    · exact ⟨_, LockState.steps_reach (ts := [0, 0, 0]) rfl, 0, 1, _, by decide, rfl, rfl, rfl⟩

/-- The methods of a class: the installation of a hook and the creation by `GetMethodID` against
each other, against a search under the lock and against `UnregisterNatives` under the lock. -/
theorem class_methods_race {depth c : Nat} {ds ds' : List Named} {tour : Tour} {create init : Bool}
    {a b : Call}
    (ha : a = .hookMethod c [] false ∨ a = .getMethodID c init true absent ds)
    (hb : b = .hookMethod c [] false ∨ b = .unregisterNatives c ∨
      b = .getMethodID c false create tour ds') :
    ∃ s, (LockState.start false (depth + 1) (two a b)).Reach s ∧ Racing s.next (.methods c) := by
  obtain ⟨s, hs, ⟨r, h0⟩, h1, w⟩ : ∃ s, (LockState.start false (depth + 1) (two a b)).Reach s ∧
      (∃ r, s.todo 0 = .write (.methods c) :: r) ∧ s.todo 1 = b.acts false (depth + 1) ∧
      s.owner = fun _ => none := by
    have hone : (LockState.start false (depth + 1) (two a b)).todo 1 = b.acts false (depth + 1) :=
      List.append_nil _
    rcases ha with rfl | rfl
    · exact ⟨_, .refl, ⟨[], rfl⟩, hone, rfl⟩
    · obtain ⟨s, hs, hu, r, h0⟩ := create_reached (depth := depth) (init := init) (c := c) (ds := ds)
        (calls := two (.getMethodID c init true absent ds) b) (t := 0) rfl
      exact ⟨s, hs, ⟨_, h0⟩, (hu.1 1 (by decide)).trans hone, hu.2⟩
  obtain ⟨s', hs', o', x, hx, ht⟩ : ∃ s', s.Reach s' ∧ s'.todo 0 = s.todo 0 ∧
      ∃ x, s'.next 1 = some x ∧ x.touches (.methods c) := by
    rcases hb with rfl | rfl | rfl
    · exact ⟨s, .refl, rfl, .write (.methods c), by unfold LockState.next; rw [h1]; rfl, rfl⟩
    · obtain ⟨s1, r1, e1, o1, w1⟩ := run_lock (t := 1) h1 (by rw [w])
      obtain ⟨s2, r2, e2, o2, w2⟩ := run_accesses (t := 1) (as := [.write (.natives c)])
        (fun a ha => ⟨.natives c, .inr (List.mem_singleton.1 ha)⟩) e1
      exact ⟨s2, r1.trans r2, (o2 0 (by decide)).trans (o1 0 (by decide)), .write (.methods c),
        by unfold LockState.next; rw [e2]; rfl, rfl⟩
    · have hl : ∃ more, Call.acts false (depth + 1) (.getMethodID c false create tour ds') =
          .lock (.cls c) :: .read (.methods c) :: more := by
        have hm : ∃ more, (methodSearch tour (depth + 1) [] c).1 =
            .lock (.cls c) :: .read (.methods c) :: more := by
          unfold methodSearch
          split
          · exact ⟨_, rfl⟩
          · split <;> exact ⟨_, rfl⟩
        obtain ⟨more, hm⟩ := hm
        simp only [Call.acts, hm]
        exact ⟨_, rfl⟩
      obtain ⟨more, hl⟩ := hl
      obtain ⟨s1, r1, e1, o1, w1⟩ := run_lock (t := 1) (h1.trans hl) (by rw [w])
      exact ⟨s1, r1, o1 0 (by decide), .read (.methods c), by unfold LockState.next; rw [e1]; rfl, rfl⟩
  exact ⟨s', hs.trans hs', 0, 1, x, by decide, by unfold LockState.next; rw [o', h0]; rfl, hx, ht⟩

/-- The fields of a class: the creation by `GetFieldID`, under the lock, against the installation of
an accessor. -/
theorem class_fields_race {depth c : Nat} {ds : List Named} {known : Bool} :
    ∃ s, (LockState.start false (depth + 1)
        (two (.getFieldID c true absent ds) (.hookField c [] known))).Reach s ∧
      Racing s.next (.fields c) := by
  have h0 : (LockState.start false (depth + 1)
        (two (.getFieldID c true absent ds) (.hookField c [] known))).todo 0 =
      .lock (.cls c) :: ([.read (.fields c), .read (.bases c)] ++ (.write (.fields c) ::
        (declareActs false ds ++ [.unlock (.cls c)]))) := by
    show List.flatMap _ [Call.getFieldID c true absent ds] = _
    simp [Call.acts, fieldSearch, absent, overBases, readBases, createActs, guarded]
  obtain ⟨s1, r1, e1, o1, w1⟩ := run_lock h0 rfl
  obtain ⟨s2, r2, e2, o2, w2⟩ := run_accesses (as := [.read (.fields c), .read (.bases c)])
    (fun a ha => by
      rcases List.mem_cons.1 ha with rfl | ha
      · exact ⟨_, .inl rfl⟩
      · exact ⟨_, .inl (List.mem_singleton.1 ha)⟩) e1
  refine ⟨s2, r1.trans r2, 0, 1, access (.fields c) (!known), by decide, ?_, ?_, ?_⟩
  · unfold LockState.next; rw [e2]; rfl
  · unfold LockState.next; rw [o2 1 (by decide), o1 1 (by decide)]; rfl
  · unfold access; cases known <;> rfl

/-- The table of environments: a thread that attaches against `VM::GetEnv`. -/
theorem envs_race {depth : Nat} {known : Bool} {user : List Act} :
    ∃ s, (LockState.start false depth (two (.attach false user) (.cppGetEnv known))).Reach s ∧
      Racing s.next .envs := by
  cases known
  · exact ⟨_, LockState.steps_reach (ts := [0]) rfl, 0, 1, _, by decide, rfl, rfl, rfl⟩
  · exact ⟨_, LockState.steps_reach (ts := [0]) rfl, 0, 1, _, by decide, rfl, rfl, rfl⟩

/-! ### Examples -/

/-- Class 2 extends class 1, which extends class 0. -/
def chain : Tour := fun _ c => ⟨false, if c = 0 then none else some [some (c - 1)], false, false⟩

/-- Three threads that satisfy `locks_complete`: one makes a field of the derived class, one
registers natives, one finds a new class and detaches. -/
example : ∀ t, ∀ c ∈ (fun t => match t with
      | 0 => [Call.getFieldID 2 true chain [⟨true, true⟩]]
      | 1 => [.registerNatives 1 3, .getFieldID 1 true chain []]
      | 2 => [.findClass ⟨true, true⟩, .detach true [.write (.fields 7)]]
      | _ => [] : Nat → List Call) t, c.Acyclic id ∧ c.Quiet := by
  have hch : ∀ (path : List Nat) (c : Nat) (bs : List (Option Nat)) (b : Nat),
      (chain path c).bases = some bs → some b ∈ bs → id b < id c := by
    intro path c bs b h hb
    unfold chain at h
    by_cases hc : c = 0
    · simp [hc] at h
    · simp only [hc, if_false, Option.some.injEq] at h
      rw [← h] at hb
      have := Option.some.inj (List.mem_singleton.1 hb)
      show b < c
      omega
  intro t c hc
  match t, hc with
  | 0, hc => cases List.mem_singleton.1 hc; exact ⟨hch, trivial⟩
  | 1, hc =>
    rcases List.mem_cons.1 hc with rfl | hc
    · exact ⟨trivial, trivial⟩
    · cases List.mem_singleton.1 hc; exact ⟨hch, trivial⟩
  | 2, hc =>
    rcases List.mem_cons.1 hc with rfl | hc
    · exact ⟨trivial, trivial⟩
    · cases List.mem_singleton.1 hc
      exact ⟨trivial, fun a ha => ⟨.fields 7, .inr (List.mem_singleton.1 ha)⟩⟩
  | _ + 3, hc => cases hc

/-- The field search locks three classes at once and releases them in reverse order. -/
example : (Call.getFieldID 2 true chain [⟨true, true⟩]).acts false 3 =
    [.lock (.cls 2), .read (.fields 2), .read (.bases 2), .read .types,
     .lock (.cls 1), .read (.fields 1), .read (.bases 1), .read .types,
     .lock (.cls 0), .read (.fields 0), .read (.bases 0), .unlock (.cls 0), .unlock (.cls 1),
     .write (.fields 2), .write .classes, .read .types, .unlock (.cls 2)] := by decide

/-- The method search locks one class at a time and creates the method without a lock. -/
example : (Call.getMethodID 1 true true chain [⟨false, false⟩]).acts false 2 =
    [.lock (.cls 1), .unlock (.cls 1), .lock (.cls 1), .read (.methods 1), .unlock (.cls 1),
     .read (.bases 1), .read .types,
     .lock (.cls 0), .read (.methods 0), .unlock (.cls 0), .read (.bases 0),
     .write (.methods 1), .read .classes] := by decide

/-- A class that is its own base class, as in `field_cycle_relocks`. -/
example : (fun _ _ => ⟨false, some [some 4], false, false⟩ : Tour) [] 4 =
    ⟨false, some (some 4 :: []), false, false⟩ := rfl

/-- The calls of `class_methods_race`: thread 1 waits while thread 0 is in the critical section, but
not any more when thread 0 appends. -/
example : (((LockState.start false 1 (two (.getMethodID 5 false true absent [])
      (.unregisterNatives 5))).steps [0, 0, 0, 0, 1, 1]).map fun s => (s.next 0, s.next 1)) =
    some (some (.write (.methods 5)), some (.write (.methods 5))) := by decide

end Jnivm
