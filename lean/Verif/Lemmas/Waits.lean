import Verif.Spec.Waits
import Verif.Props.Locks
/-!
Lemmas on threads that use the library and monitors.
-/
namespace Jnivm
open Spec

/-! ### The part of the current call -/

/-- The actions of the library that come before the next monitor. -/
def libPart : List SyncAct → List Act
  | .lib a :: l => a :: libPart l
  | _ => []

/-- What comes after them. -/
def dropLib : List SyncAct → List SyncAct
  | .lib _ :: l => dropLib l
  | l => l

theorem libPart_append (as : List Act) (l : List SyncAct) : libPart (as.map .lib ++ l) = as ++ libPart l := by
  induction as with
  | nil => rfl
  | cons a as ih => simp only [List.map_cons, List.cons_append, libPart, ih]

theorem lib_drop (l : List SyncAct) : (libPart l).map .lib ++ dropLib l = l := by
  induction l with
  | nil => rfl
  | cons a l ih => cases a <;> simp [libPart, dropLib, ih]

theorem libPart_dropLib (l : List SyncAct) : libPart (dropLib l) = [] := by
  induction l with
  | nil => rfl
  | cons a l ih => cases a <;> simp [libPart, dropLib, ih]

theorem libPart_nil {l : List SyncAct} (h : libPart l = []) :
    l = [] ∨ (∃ o r, l = .enter o :: r) ∨ ∃ o r, l = .exit o :: r := by
  cases l with
  | nil => exact .inl rfl
  | cons a r =>
    cases a with
    | lib a => cases h
    | enter o => exact .inr (.inl ⟨o, r, rfl⟩)
    | exit o => exact .inr (.inr ⟨o, r, rfl⟩)

/-- The actions between later monitors are in order. -/
def Later (rk : Mutex → Nat) (g : Loc → Option Mutex) : List SyncAct → Prop
  | [] => True
  | .lib _ :: l => Later rk g l
  | .enter _ :: l => Orderly rk g [] (libPart l) ∧ Later rk g l
  | .exit _ :: l => Orderly rk g [] (libPart l) ∧ Later rk g l

variable {rk : Mutex → Nat} {g : Loc → Option Mutex}

theorem later_append {as : List Act} {l : List SyncAct} : Later rk g (as.map .lib ++ l) ↔ Later rk g l := by
  induction as with
  | nil => exact Iff.rfl
  | cons a as ih => exact ih

/-- The library's half of the state. -/
def SyncState.locks (s : SyncState) : LockState := ⟨s.owner, fun t => libPart (s.todo t)⟩

theorem locks_advance (s : SyncState) (t : Nat) (rest : List SyncAct) :
    (s.advance t rest).locks = s.locks.advance t (libPart rest) := by
  simp only [SyncState.locks, SyncState.advance, LockState.advance]
  congr 1
  funext u
  exact apply_ite ..

theorem locks_lib {s : SyncState} {t : Nat} {a : Act} {rest : List SyncAct} (h : s.todo t = .lib a :: rest) :
    s.locks.turn t = match s.turn t with
      | .finished => .finished
      | .waits => .waits
      | .moves s' => .moves s'.locks
      | .undefined u => .undefined u := by
  have hl : s.locks.todo t = a :: libPart rest := by simp only [SyncState.locks, h, libPart]
  unfold LockState.turn SyncState.turn
  rw [h, hl]
  cases a with
  | read l => simp only [locks_advance]
  | write l => simp only [locks_advance]
  | lock m =>
    dsimp only
    show (match s.owner m with | none => _ | some u => _) = _
    cases s.owner m with
    | none =>
      dsimp only
      congr 1
      exact congrArg (fun x : LockState => x.setOwner m (some t)) (locks_advance s t rest).symm
    | some u =>
      dsimp only
      split
      · rfl
      · rfl
  | unlock m =>
    dsimp only
    show (if s.owner m = some t then _ else _) = _
    split
    · dsimp only
      congr 1
      exact congrArg (fun x : LockState => x.setOwner m none) (locks_advance s t rest).symm
    · rfl

/-- A step takes one action off the list of the thread. -/
theorem sync_moves {s s' : SyncState} {t : Nat} (h : s.turn t = .moves s') :
    ∃ a rest, s.todo t = a :: rest ∧ s'.todo = (s.advance t rest).todo ∧ (∀ b, a = .lib b → s'.mons = s.mons) ∧
      ((∀ b, a ≠ .lib b) → s'.owner = s.owner) := by
  unfold SyncState.turn at h
  split at h
  · cases h
  · next l rest e => cases h; exact ⟨_, rest, e, rfl, fun _ _ => rfl, fun h => absurd rfl (h _)⟩
  · next l rest e => cases h; exact ⟨_, rest, e, rfl, fun _ _ => rfl, fun h => absurd rfl (h _)⟩
  · next m rest e =>
    split at h
    · cases h; exact ⟨_, rest, e, rfl, fun _ _ => rfl, fun h => absurd rfl (h _)⟩
    · split at h <;> cases h
  · next m rest e =>
    split at h
    · cases h; exact ⟨_, rest, e, rfl, fun _ _ => rfl, fun h => absurd rfl (h _)⟩
    · cases h
  · next o rest e =>
    split at h
    · cases h; exact ⟨_, rest, e, rfl, (fun b hb => nomatch hb), fun _ => rfl⟩
    · split at h
      · cases h; exact ⟨_, rest, e, rfl, (fun b hb => nomatch hb), fun _ => rfl⟩
      · cases h
  · next o rest e =>
    split at h
    · cases h
    · split at h
      · cases h; exact ⟨_, rest, e, rfl, (fun b hb => nomatch hb), fun _ => rfl⟩
      · cases h

theorem sync_finished {s : SyncState} {t : Nat} : s.turn t = .finished ↔ s.todo t = [] := by
  unfold SyncState.turn
  constructor
  · intro e
    split at e
    · assumption
    · cases e
    · cases e
    · split at e
      · cases e
      · split at e <;> cases e
    · split at e <;> cases e
    · split at e
      · cases e
      · split at e <;> cases e
    · split at e
      · cases e
      · split at e <;> cases e
  · intro e; rw [e]

/-! ### The mutexes stay in order -/

/-- All library calls are in order, those that run and those to come. -/
structure SyncInv (rk : Mutex → Nat) (g : Loc → Option Mutex) (held : Nat → List Mutex) (s : SyncState) : Prop where
  locks : InOrder rk g held s.locks
  later : ∀ t, Later rk g (s.todo t)

theorem SyncInv.idle {held : Nat → List Mutex} {s : SyncState} (h : SyncInv rk g held s) {t : Nat}
    (ht : libPart (s.todo t) = []) : held t = [] := by
  have := h.locks.orderly t
  rw [show s.locks.todo t = [] from ht] at this
  exact this

theorem SyncInv.step {held : Nat → List Mutex} {s s' : SyncState} (h : SyncInv rk g held s) {t : Nat}
    (ht : s.turn t = .moves s') : ∃ held', SyncInv rk g held' s' := by
  obtain ⟨a, rest, ha, htodo, _, hown⟩ := sync_moves ht
  have hlater : ∀ u, Later rk g (s'.todo u) := by
    intro u
    rw [htodo]
    show Later rk g (if u = t then rest else s.todo u)
    split
    · have := h.later t
      rw [ha] at this
      cases a with
      | lib a => exact this
      | enter o => exact this.2
      | exit o => exact this.2
    · exact h.later u
  have mon : (∀ b, a ≠ .lib b) → Orderly rk g [] (libPart rest) → ∃ held', SyncInv rk g held' s' := by
    intro hb ho
    have hi := h.idle (t := t) (by rw [ha]; cases a <;> first | rfl | exact absurd rfl (hb _))
    have e : s'.locks = s.locks.advance t (libPart rest) := by
      rw [← locks_advance]
      simp only [SyncState.locks, htodo, hown hb]
      rfl
    exact ⟨held, e ▸ h.locks.access (by rw [hi]; exact ho), hlater⟩
  have hl := h.later t
  rw [ha] at hl
  cases a with
  | lib b =>
    have := locks_lib ha
    rw [ht] at this
    obtain ⟨held', h'⟩ := h.locks.turn this
    exact ⟨held', h', hlater⟩
  | enter o => exact mon nofun hl.1
  | exit o => exact mon nofun hl.1

theorem SyncInv.reach {held : Nat → List Mutex} {s s' : SyncState} (h : SyncInv rk g held s)
    (hr : s.Reach s') : ∃ held', SyncInv rk g held' s' := by
  induction hr with
  | refl => exact ⟨held, h⟩
  | step t _ ht ih => obtain ⟨_, ih⟩ := ih; exact ih.step ht

/-- A call that has begun, or can begin: some thread can go on. -/
theorem SyncInv.progress {held : Nat → List Mutex} {s : SyncState} (h : SyncInv rk g held s) {t : Nat}
    (ht : libPart (s.todo t) ≠ []) : ∃ u s', s.turn u = .moves s' := by
  obtain ⟨u, l, hu⟩ := h.locks.progress (t := t) ht
  obtain ⟨a, rest, ha, _⟩ := LockState.turn_moves hu
  have : ∃ r, s.todo u = .lib a :: r := by
    have ha : libPart (s.todo u) = a :: rest := ha
    cases hs : s.todo u with
    | nil => rw [hs] at ha; cases ha
    | cons b r =>
      rw [hs] at ha
      cases b with
      | lib b => cases ha; exact ⟨r, rfl⟩
      | _ => cases ha
  obtain ⟨r, hr⟩ := this
  have := locks_lib hr
  rw [hu] at this
  cases e : s.turn u with
  | moves s' => exact ⟨u, s', e⟩
  | _ => rw [e] at this; cases this

theorem SyncInv.lib_defined {held : Nat → List Mutex} {s : SyncState} (h : SyncInv rk g held s) {t : Nat} {a : Act}
    {rest : List SyncAct} (ha : s.todo t = .lib a :: rest) (u : UB) : s.turn t ≠ .undefined u := by
  intro e
  have := locks_lib ha
  rw [e] at this
  exact h.locks.defined t u this

/-! ### Programs -/

/-- The call is one of the library in which user code uses no monitor and no mutex. -/
def SyncCall.Fits (rank : Nat → Nat) : SyncCall → Prop
  | .call c => c.Acyclic rank ∧ c.Quiet
  | .attach user | .detach user => ∀ a ∈ user, ∃ l, a = .lib (.read l) ∨ a = .lib (.write l)
  | _ => True

theorem quiet_map {user : List SyncAct} (h : ∀ a ∈ user, ∃ l, a = .lib (.read l) ∨ a = .lib (.write l)) :
    ∃ us : List Act, user = us.map .lib ∧ ∀ a ∈ us, ∃ l, a = .read l ∨ a = .write l := by
  induction user with
  | nil => exact ⟨[], rfl, nofun⟩
  | cons a user ih =>
    obtain ⟨us, e, hq⟩ := ih fun b hb => h b (List.mem_cons_of_mem _ hb)
    obtain ⟨l, ha⟩ := h a (List.mem_cons_self ..)
    rcases ha with rfl | rfl
    · exact ⟨.read l :: us, by rw [e]; rfl, fun b hb => (List.mem_cons.1 hb).elim (fun e => ⟨l, .inl e⟩) (hq b)⟩
    · exact ⟨.write l :: us, by rw [e]; rfl, fun b hb => (List.mem_cons.1 hb).elim (fun e => ⟨l, .inr e⟩) (hq b)⟩

/-- Such a call is a monitor or a call of Model/Locks.lean. -/
theorem SyncCall.Fits.cases {rank : Nat → Nat} {x : SyncCall} (h : x.Fits rank) (depth : Nat) :
    (∃ o, x = .enter o) ∨ (∃ o, x = .exit o) ∨
    ∃ c : Call, x.acts depth = (c.acts false depth).map .lib ∧ c.Acyclic rank ∧ c.Quiet ∧
      ∀ o, x ≠ .enter o ∧ x ≠ .exit o := by
  cases x with
  | call c => exact .inr (.inr ⟨c, rfl, h.1, h.2, fun _ => ⟨nofun, nofun⟩⟩)
  | enter o => exact .inl ⟨o, rfl⟩
  | exit o => exact .inr (.inl ⟨o, rfl⟩)
  | attach user =>
    obtain ⟨us, rfl, hq⟩ := quiet_map h
    refine .inr (.inr ⟨.attach false us, ?_, trivial, hq, fun _ => ⟨nofun, nofun⟩⟩)
    simp [SyncCall.acts, Call.acts, guarded, access]
  | detach user =>
    obtain ⟨us, rfl, hq⟩ := quiet_map h
    refine .inr (.inr ⟨.detach true us, ?_, trivial, hq, fun _ => ⟨nofun, nofun⟩⟩)
    simp [SyncCall.acts, Call.acts, guarded]

theorem start_later {rank : Nat → Nat} {depth : Nat} {l : List SyncCall} (h : ∀ x ∈ l, x.Fits rank) :
    Orderly (lockRank rank) (fun _ => none) [] (libPart (l.flatMap (SyncCall.acts depth))) ∧
    Later (lockRank rank) (fun _ => none) (l.flatMap (SyncCall.acts depth)) := by
  induction l with
  | nil => exact ⟨rfl, trivial⟩
  | cons x l ih =>
    have ih := ih fun y hy => h y (List.mem_cons_of_mem _ hy)
    rw [List.flatMap_cons]
    rcases (h x (List.mem_cons_self ..)).cases depth with ⟨o, rfl⟩ | ⟨o, rfl⟩ | ⟨c, hc, h1, h2, _⟩
    · exact ⟨rfl, ih⟩
    · exact ⟨rfl, ih⟩
    · rw [hc, libPart_append, later_append]
      refine ⟨?_, ih.2⟩
      exact Call.keeps (cpp := true) (direct := true) (g := fun _ => none) (fun _ _ e => nomatch e) (c := c)
        (fits_of_quiet (locked := false) h1 h2 (fun e => nomatch e)) _ ih.1

theorem start_sync {rank : Nat → Nat} {depth : Nat} {calls : Nat → List SyncCall}
    (h : ∀ t, ∀ x ∈ calls t, x.Fits rank) :
    SyncInv (lockRank rank) (fun _ => none) (fun _ => []) (SyncState.start depth calls) where
  locks := ⟨fun t => (start_later (h t)).1, fun _ _ => ⟨nofun, nofun⟩, fun _ => .nil⟩
  later t := (start_later (h t)).2

/-! ### The monitors alone -/

def SyncAct.isMon : SyncAct → Bool
  | .lib _ => false
  | _ => true

/-- The state as the monitors see it. -/
def SyncState.monsOnly (s : SyncState) : SyncState := ⟨fun _ => none, s.mons, fun t => (s.todo t).filter SyncAct.isMon⟩

theorem filter_lib (as : List Act) : (as.map SyncAct.lib).filter SyncAct.isMon = [] := by
  induction as with
  | nil => rfl
  | cons a as ih => simp [SyncAct.isMon]

theorem monsOnly_start {rank : Nat → Nat} {depth : Nat} {calls : Nat → List SyncCall}
    (h : ∀ t, ∀ x ∈ calls t, x.Fits rank) :
    (SyncState.start depth calls).monsOnly = SyncState.start depth (monitorsOnly calls) := by
  simp only [SyncState.start, SyncState.monsOnly, monitorsOnly]
  congr 1
  funext t
  have h := h t
  generalize calls t = l at h
  induction l with
  | nil => rfl
  | cons x l ih =>
    have ih := ih fun y hy => h y (List.mem_cons_of_mem _ hy)
    rw [List.flatMap_cons, List.filter_append, ih]
    rcases (h x (List.mem_cons_self ..)).cases depth with ⟨o, rfl⟩ | ⟨o, rfl⟩ | ⟨c, hc, h1, h2, h3⟩
    · rfl
    · rfl
    · rw [hc, filter_lib]
      cases x with
      | enter o => exact absurd rfl (h3 o).1
      | exit o => exact absurd rfl (h3 o).2
      | _ => rfl

theorem monsOnly_advance (s : SyncState) (t : Nat) (rest : List SyncAct) :
    (s.advance t rest).monsOnly = s.monsOnly.advance t (rest.filter SyncAct.isMon) := by
  simp only [SyncState.monsOnly, SyncState.advance]
  congr 1
  funext u
  exact apply_ite ..

/-- A monitor is used in the same way without the library. -/
theorem monsOnly_turn {s : SyncState} {t : Nat} {a : SyncAct} {rest : List SyncAct} (h : s.todo t = a :: rest)
    (ha : a.isMon = true) :
    s.monsOnly.turn t = match s.turn t with
      | .finished => .finished
      | .waits => .waits
      | .moves s' => .moves s'.monsOnly
      | .undefined u => .undefined u := by
  have hl : s.monsOnly.todo t = a :: rest.filter SyncAct.isMon := by
    simp only [SyncState.monsOnly, h, List.filter_cons, ha, if_true]
  unfold SyncState.turn
  rw [h, hl]
  have hset : ∀ o x, ((s.advance t rest).setMon o x).monsOnly =
      (s.monsOnly.advance t (rest.filter SyncAct.isMon)).setMon o x := fun o x =>
    congrArg (fun y : SyncState => y.setMon o x) (monsOnly_advance s t rest)
  cases a with
  | lib a => cases ha
  | enter o =>
    dsimp only
    show (match s.mons o with | none => _ | some (u, n) => _) = _
    cases s.mons o with
    | none => dsimp only; rw [hset]
    | some x =>
      dsimp only
      split
      · dsimp only; rw [hset]
      · rfl
  | exit o =>
    dsimp only
    show (match s.mons o with | none => _ | some (u, n) => _) = _
    cases s.mons o with
    | none => rfl
    | some x =>
      dsimp only
      split
      · dsimp only; rw [hset]
      · rfl

theorem monsOnly_step {s s' : SyncState} {t : Nat} (h : s.turn t = .moves s') :
    s'.monsOnly = s.monsOnly ∨ s.monsOnly.turn t = .moves s'.monsOnly := by
  obtain ⟨a, rest, ha, htodo, hm, _⟩ := sync_moves h
  cases hx : a.isMon with
  | true => exact .inr (by rw [monsOnly_turn ha hx, h])
  | false =>
    left
    cases a with
    | lib b =>
      have : s'.monsOnly = (s.advance t rest).monsOnly := by
        simp only [SyncState.monsOnly, htodo, hm b rfl]
        rfl
      rw [this, monsOnly_advance]
      simp only [SyncState.monsOnly, SyncState.advance]
      congr 1
      funext u
      split
      · next e => rw [e, ha]; simp [SyncAct.isMon]
      · rfl
    | _ => cases hx

theorem monsOnly_reach {s s' : SyncState} (h : s.Reach s') : s.monsOnly.Reach s'.monsOnly := by
  induction h with
  | refl => exact .refl
  | step t _ ht ih =>
    rcases monsOnly_step ht with e | e
    · rw [e]; exact ih
    · exact .step t ih e

/-- In a state that calls of the library lead to, threads that cannot go on wait for monitors. -/
theorem SyncInv.stuck {held : Nat → List Mutex} {s : SyncState} (h : SyncInv rk g held s)
    (hs : ∀ t, s.turn t = .finished ∨ s.turn t = .waits) (t : Nat) : s.todo t = [] ∨ ∃ o, WaitsFor s t o := by
  have hl : libPart (s.todo t) = [] := by
    refine Decidable.byContradiction fun hne => ?_
    obtain ⟨u, s', hu⟩ := h.progress hne
    rcases hs u with e | e <;> rw [e] at hu <;> cases hu
  rcases libPart_nil hl with e | ⟨o, r, e⟩ | ⟨o, r, e⟩
  · exact .inl e
  · right
    refine ⟨o, ⟨r, e⟩, ?_⟩
    have ht := hs t
    unfold SyncState.turn at ht
    rw [e] at ht
    dsimp only at ht
    cases hm : s.mons o with
    | none => rw [hm] at ht; simp at ht
    | some x =>
      rw [hm] at ht
      refine ⟨x.1, x.2, fun hx => ?_, rfl⟩
      simp [hx] at ht
  · have ht := hs t
    unfold SyncState.turn at ht
    rw [e] at ht
    dsimp only at ht
    cases hm : s.mons o with
    | none => rw [hm] at ht; simp at ht
    | some x =>
      rw [hm] at ht
      dsimp only at ht
      split at ht <;> simp at ht

theorem WaitsFor.waits {s : SyncState} {t o : Nat} (h : WaitsFor s t o) : s.turn t = .waits := by
  obtain ⟨⟨r, e⟩, u, n, hu, hm⟩ := h
  unfold SyncState.turn
  rw [e]
  simp only [hm, if_neg hu]

/-! ### A thread alone -/

theorem SyncState.Reach.trans {a b c : SyncState} (h : a.Reach b) (k : b.Reach c) : a.Reach c := by
  induction k with
  | refl => exact h
  | step t _ e ih => exact .step t ih e

/-- Steps of the library alone are steps of the threads. -/
theorem lift_locks {s : SyncState} {L : LockState} (h : s.locks.Reach L) :
    ∃ s', s.Reach s' ∧ s'.locks = L ∧ s'.mons = s.mons ∧ s'.monsOnly = s.monsOnly := by
  induction h with
  | refl => exact ⟨s, .refl, rfl, rfl, rfl⟩
  | step t _ ht ih =>
    obtain ⟨r, h1, h2, h3, h4⟩ := ih
    subst h2
    obtain ⟨a, rest, ha, _⟩ := LockState.turn_moves ht
    have : ∃ q, r.todo t = .lib a :: q := by
      have ha : libPart (r.todo t) = a :: rest := ha
      cases hs : r.todo t with
      | nil => rw [hs] at ha; cases ha
      | cons b q =>
        rw [hs] at ha
        cases b with
        | lib b => cases ha; exact ⟨q, rfl⟩
        | _ => cases ha
    obtain ⟨q, hq⟩ := this
    have e := locks_lib hq
    rw [ht] at e
    cases hr : r.turn t with
    | moves r' =>
      rw [hr] at e
      cases e
      obtain ⟨a', rest', ha', htodo, hm, _⟩ := sync_moves hr
      rw [hq] at ha'
      cases ha'
      refine ⟨r', .step t h1 hr, rfl, (hm a rfl).trans h3, ?_⟩
      rcases monsOnly_step hr with e | e
      · exact e.trans h4
      · rw [← h4]
        have : r'.monsOnly = (r.advance t q).monsOnly := by
          simp only [SyncState.monsOnly, htodo, hm a rfl]
          rfl
        rw [this, monsOnly_advance]
        simp only [SyncState.monsOnly, SyncState.advance]
        congr 1
        funext u
        split
        · next e => rw [e, hq]; simp [SyncAct.isMon]
        · rfl
    | _ => rw [hr] at e; cases e

/-- The calls of the library that have begun can all end, and this changes no monitor. -/
theorem SyncInv.settle {held : Nat → List Mutex} {s : SyncState} (h : SyncInv rk g held s) {n : Nat}
    (hn : ∀ t, n ≤ t → s.todo t = []) :
    ∃ s', s.Reach s' ∧ s'.mons = s.mons ∧ s'.monsOnly = s.monsOnly ∧ (∀ t, libPart (s'.todo t) = []) ∧
      ∀ m, s'.owner m = none := by
  obtain ⟨L, h1, h2, h3⟩ := h.locks.complete (n := n) (s.locks.left n) rfl
    (fun t ht => by show libPart (s.todo t) = []; rw [hn t ht]; rfl)
  obtain ⟨s', e1, rfl, e3, e4⟩ := lift_locks h1
  exact ⟨s', e1, e3, e4, h2, h3⟩

/-- A thread that has nothing to do gets nothing to do. -/
theorem sync_tail {s s' : SyncState} (h : s.Reach s') {n : Nat} (hn : ∀ t, n ≤ t → s.todo t = []) :
    ∀ t, n ≤ t → s'.todo t = [] := by
  induction h with
  | refl => exact hn
  | step u _ e ih =>
    intro t ht
    obtain ⟨a, rest, e1, e2, _⟩ := sync_moves e
    rw [e2]
    show (if t = u then rest else _) = []
    split
    · next htu => rw [← htu, ih t ht] at e1; cases e1
    · exact ih t ht

/-- What monitors alone can do, they can do with the library. -/
theorem realise {held : Nat → List Mutex} {s : SyncState} (h : SyncInv rk g held s) {n : Nat}
    (hn : ∀ t, n ≤ t → s.todo t = []) {q : SyncState} (hq : s.monsOnly.Reach q) :
    ∃ s', s.Reach s' ∧ s'.monsOnly = q ∧ (∀ t, libPart (s'.todo t) = []) ∧ ∀ m, s'.owner m = none := by
  induction hq with
  | refl =>
    obtain ⟨s', h1, _, h2, h3⟩ := h.settle hn
    exact ⟨s', h1, h2, h3⟩
  | step t _ ht ih =>
    obtain ⟨r, h1, h2, h3, h4⟩ := ih
    subst h2
    obtain ⟨_, hr⟩ := h.reach h1
    obtain ⟨a, rest, ha⟩ : ∃ a rest, r.todo t = a :: rest := by
      cases e : r.todo t with
      | nil =>
        have : r.monsOnly.turn t = .finished := sync_finished.2 (by simp [SyncState.monsOnly, e])
        rw [this] at ht; cases ht
      | cons a rest => exact ⟨a, rest, rfl⟩
    have hx : a.isMon = true := by
      have := h3 t
      rw [ha] at this
      cases a <;> first | rfl | cases this
    have e := monsOnly_turn ha hx
    rw [ht] at e
    cases hr' : r.turn t with
    | moves r' =>
      rw [hr'] at e
      cases e
      obtain ⟨_, hi⟩ := hr.step hr'
      have hreach := SyncState.Reach.step t h1 hr'
      obtain ⟨s', k1, _, k2, k3⟩ := hi.settle (sync_tail hreach hn)
      exact ⟨s', hreach.trans k1, k2, k3⟩
    | _ => rw [hr'] at e; cases e

/-- Between calls of the library, a thread can do what it can do without the library. -/
theorem same_turn {s : SyncState} (h : ∀ t, libPart (s.todo t) = []) (t : Nat) :
    s.monsOnly.turn t = match s.turn t with
      | .finished => .finished
      | .waits => .waits
      | .moves s' => .moves s'.monsOnly
      | .undefined u => .undefined u := by
  rcases libPart_nil (h t) with e | ⟨o, r, e⟩ | ⟨o, r, e⟩
  · rw [sync_finished.2 e]
    exact sync_finished.2 (by simp [SyncState.monsOnly, e])
  · exact monsOnly_turn e rfl
  · exact monsOnly_turn e rfl

/-! ### Monitors in order -/

/-- `MonitorOrder` of actions. -/
def MonOrd (rank : Nat → Nat) : List Nat → List SyncAct → Prop
  | H, [] => H = []
  | H, .enter o :: l => (o ∈ H ∨ ∀ x ∈ H, rank o < rank x) ∧ MonOrd rank (o :: H) l
  | H, .exit o :: l => o ∈ H ∧ MonOrd rank (H.erase o) l
  | H, .lib _ :: l => MonOrd rank H l

theorem monOrd_lib {rank : Nat → Nat} {as : List Act} {H : List Nat} {l : List SyncAct} (h : MonOrd rank H l) :
    MonOrd rank H (as.map .lib ++ l) := by
  induction as with
  | nil => exact h
  | cons a as ih => exact ih

theorem monOrd_start {rank r : Nat → Nat} {depth : Nat} {l : List SyncCall} : ∀ {H : List Nat},
    (∀ x ∈ l, x.Fits r) → MonitorOrder rank H l → MonOrd rank H (l.flatMap (SyncCall.acts depth)) := by
  induction l with
  | nil => intro H _ h; exact h
  | cons x l ih =>
    intro H hf h
    have ih := fun {H} => ih (H := H) fun y hy => hf y (List.mem_cons_of_mem _ hy)
    rw [List.flatMap_cons]
    rcases (hf x (List.mem_cons_self ..)).cases depth with ⟨o, rfl⟩ | ⟨o, rfl⟩ | ⟨c, hc, h1, h2, h3⟩
    · exact ⟨h.1, ih h.2⟩
    · exact ⟨h.1, ih h.2⟩
    · rw [hc]
      refine monOrd_lib (ih ?_)
      cases x with
      | enter o => exact absurd rfl (h3 o).1
      | exit o => exact absurd rfl (h3 o).2
      | _ => exact h

/-- What each thread has entered, with its calls to come in order. -/
structure MonInv (rank : Nat → Nat) (inside : Nat → List Nat) (s : SyncState) : Prop where
  ord : ∀ t, MonOrd rank (inside t) (s.todo t)
  own : ∀ o t n, s.mons o = some (t, n) ↔ (inside t).count o = n ∧ 0 < n

theorem MonInv.mem {rank : Nat → Nat} {inside : Nat → List Nat} {s : SyncState} (h : MonInv rank inside s)
    {o t : Nat} : o ∈ inside t ↔ ∃ n, s.mons o = some (t, n) := by
  constructor
  · intro hm
    exact ⟨_, (h.own o t _).2 ⟨rfl, List.count_pos_iff.2 hm⟩⟩
  · rintro ⟨n, hn⟩
    have := (h.own o t n).1 hn
    exact List.count_pos_iff.1 (by omega)

theorem MonInv.update {rank : Nat → Nat} {inside : Nat → List Nat} {s s' : SyncState} (h : MonInv rank inside s)
    {t o : Nat} {rest : List SyncAct} {H : List Nat} {m : Option (Nat × Nat)}
    (hs : s' = (s.advance t rest).setMon o m) (ho : MonOrd rank H rest)
    (hcnt : ∀ k, k ≠ o → H.count k = (inside t).count k)
    (hoth : ∀ u, u ≠ t → o ∉ inside u)
    (hm : ∀ u n, m = some (u, n) ↔ u = t ∧ H.count o = n ∧ 0 < n) :
    MonInv rank (fun u => if u = t then H else inside u) s' := by
  subst hs
  constructor
  · intro u
    show MonOrd rank (if u = t then H else inside u) (if u = t then rest else s.todo u)
    split
    · exact ho
    · exact h.ord u
  · intro k u n
    show (if k = o then m else s.mons k) = _ ↔ (if u = t then H else inside u).count k = n ∧ 0 < n
    by_cases hk : k = o
    · subst hk
      rw [if_pos rfl, hm]
      by_cases hu : u = t
      · simp [hu]
      · rw [if_neg hu]
        have := List.count_eq_zero.2 (hoth u hu)
        constructor
        · intro h; exact absurd h.1 hu
        · intro h; omega
    · rw [if_neg hk, h.own]
      by_cases hu : u = t
      · rw [if_pos hu, hcnt k hk, hu]
      · rw [if_neg hu]

theorem MonInv.others {rank : Nat → Nat} {inside : Nat → List Nat} {s : SyncState} (h : MonInv rank inside s)
    {o t : Nat} (hm : s.mons o = none ∨ ∃ n, s.mons o = some (t, n)) (u : Nat) (hu : u ≠ t) : o ∉ inside u := by
  intro hin
  obtain ⟨n, hn⟩ := h.mem.1 hin
  rcases hm with e | ⟨k, e⟩ <;> rw [e] at hn <;> cases hn
  exact hu rfl

theorem MonInv.step {rank : Nat → Nat} {inside : Nat → List Nat} {s s' : SyncState} (h : MonInv rank inside s)
    {t : Nat} (ht : s.turn t = .moves s') : ∃ inside', MonInv rank inside' s' := by
  obtain ⟨a, rest, ha, htodo, hmon, _⟩ := sync_moves ht
  have hord := h.ord t
  rw [ha] at hord
  cases a with
  | lib b =>
    refine ⟨inside, fun u => ?_, ?_⟩
    · rw [htodo]
      show MonOrd rank (inside u) (if u = t then rest else s.todo u)
      split
      · next e => rw [e]; exact hord
      · exact h.ord u
    · rw [hmon b rfl]; exact h.own
  | enter o =>
    unfold SyncState.turn at ht
    rw [ha] at ht
    dsimp only at ht
    cases hm : s.mons o with
    | none =>
      rw [hm] at ht
      cases ht
      have h0 : (inside t).count o = 0 := List.count_eq_zero.2 fun hin => by
        obtain ⟨n, hn⟩ := h.mem.1 hin
        rw [hm] at hn; cases hn
      refine ⟨_, h.update rfl hord.2 (fun k hk => ?_) (h.others (.inl hm)) fun u n => ?_⟩
      · rw [List.count_cons_of_ne (Ne.symm hk)]
      · rw [List.count_cons_self, h0]
        simp only [Option.some.injEq, Prod.mk.injEq]
        omega
    | some x =>
      obtain ⟨v, n⟩ := x
      rw [hm] at ht
      dsimp only at ht
      split at ht
      · next hv =>
        subst hv
        cases ht
        have h0 := (h.own o v n).1 hm
        refine ⟨_, h.update rfl hord.2 (fun k hk => ?_) (h.others (.inr ⟨n, hm⟩)) fun u k => ?_⟩
        · rw [List.count_cons_of_ne (Ne.symm hk)]
        · rw [List.count_cons_self, h0.1]
          simp only [Option.some.injEq, Prod.mk.injEq]
          omega
      · cases ht
  | exit o =>
    unfold SyncState.turn at ht
    rw [ha] at ht
    dsimp only at ht
    cases hm : s.mons o with
    | none => rw [hm] at ht; cases ht
    | some x =>
      obtain ⟨v, n⟩ := x
      rw [hm] at ht
      dsimp only at ht
      split at ht
      · next hv =>
        subst hv
        cases ht
        have h0 := (h.own o v n).1 hm
        refine ⟨_, h.update rfl hord.2 (fun k hk => ?_) (h.others (.inr ⟨n, hm⟩)) fun u k => ?_⟩
        · exact List.count_erase_of_ne hk
        · rw [List.count_erase_self, h0.1]
          split
          · next e => simp only [reduceCtorEq, false_iff]; omega
          · next e =>
            simp only [Option.some.injEq, Prod.mk.injEq]
            omega
      · cases ht

theorem MonInv.reach {rank : Nat → Nat} {inside : Nat → List Nat} {s s' : SyncState} (h : MonInv rank inside s)
    (hr : s.Reach s') : ∃ inside', MonInv rank inside' s' := by
  induction hr with
  | refl => exact ⟨inside, h⟩
  | step t _ ht ih => obtain ⟨_, ih⟩ := ih; exact ih.step ht

theorem start_mon {rank r : Nat → Nat} {depth : Nat} {calls : Nat → List SyncCall}
    (hf : ∀ t, ∀ x ∈ calls t, x.Fits r) (h : ∀ t, MonitorOrder rank [] (calls t)) :
    MonInv rank (fun _ => []) (SyncState.start depth calls) where
  ord t := monOrd_start (hf t) (h t)
  own o t n := by
    show (none : Option (Nat × Nat)) = some (t, n) ↔ _
    simp only [List.count_nil, reduceCtorEq, false_iff]
    omega

theorem MonInv.exit_moves {rank : Nat → Nat} {inside : Nat → List Nat} {s : SyncState} (h : MonInv rank inside s)
    {t o : Nat} {rest : List SyncAct} (e : s.todo t = .exit o :: rest) : ∃ s', s.turn t = .moves s' := by
  have hord := h.ord t
  rw [e] at hord
  obtain ⟨n, hn⟩ := h.mem.1 hord.1
  unfold SyncState.turn
  rw [e]
  simp only [hn, if_true]
  exact ⟨_, rfl⟩

/-- Of the threads that are in monitors, some can go on. -/
theorem MonInv.owner_moves {rank : Nat → Nat} {inside : Nat → List Nat} {s : SyncState} (h : MonInv rank inside s)
    (hl : ∀ t, libPart (s.todo t) = []) : ∀ (k o t : Nat), rank o < k → o ∈ inside t → ∃ u s', s.turn u = .moves s' := by
  intro k
  induction k with
  | zero => intro o t hk; omega
  | succ k ih =>
    intro o t hk ho
    have hord := h.ord t
    rcases libPart_nil (hl t) with e | ⟨p, r, e⟩ | ⟨p, r, e⟩
    · rw [e] at hord
      rw [show inside t = [] from hord] at ho
      cases ho
    · rw [e] at hord
      cases hm : s.mons p with
      | none => exact ⟨t, _, by unfold SyncState.turn; rw [e]; simp only [hm]; rfl⟩
      | some x =>
        obtain ⟨u, n⟩ := x
        by_cases hu : u = t
        · exact ⟨t, _, by unfold SyncState.turn; rw [e]; simp only [hm, if_pos hu]; rfl⟩
        · have hp : p ∈ inside u := h.mem.2 ⟨n, hm⟩
          refine ih p u ?_ hp
          rcases hord.1 with hin | hlt
          · obtain ⟨n', hn'⟩ := h.mem.1 hin
            rw [hm] at hn'
            cases hn'
            exact absurd rfl hu
          · have := hlt o ho
            omega
    · exact ⟨t, h.exit_moves e⟩

theorem sync_progress {held : Nat → List Mutex} {rank : Nat → Nat} {inside : Nat → List Nat} {s : SyncState}
    (hs : SyncInv rk g held s) (h : MonInv rank inside s) {t : Nat} (ht : s.todo t ≠ []) :
    ∃ u s', s.turn u = .moves s' := by
  by_cases hl : ∃ u, libPart (s.todo u) ≠ []
  · obtain ⟨u, hu⟩ := hl
    exact hs.progress hu
  · have hl : ∀ u, libPart (s.todo u) = [] := fun u => Decidable.byContradiction fun e => hl ⟨u, e⟩
    rcases libPart_nil (hl t) with e | ⟨p, r, e⟩ | ⟨p, r, e⟩
    · exact absurd e ht
    · cases hm : s.mons p with
      | none => exact ⟨t, _, by unfold SyncState.turn; rw [e]; simp only [hm]; rfl⟩
      | some x => exact h.owner_moves hl _ p x.1 (Nat.lt_succ_self _) (h.mem.2 ⟨x.2, hm⟩)
    · exact ⟨t, h.exit_moves e⟩

/-- The number of actions left of the first `n` threads. -/
def SyncState.left (s : SyncState) : Nat → Nat
  | 0 => 0
  | n + 1 => (s.todo n).length + s.left n

theorem sync_left_ge {s s' : SyncState} {t n : Nat} {rest : List SyncAct} (h : n ≤ t)
    (e : s'.todo = (s.advance t rest).todo) : s'.left n = s.left n := by
  induction n with
  | zero => rfl
  | succ n ih =>
    unfold SyncState.left
    rw [ih (by omega), e]
    show ((if n = t then rest else s.todo n).length) + _ = _
    rw [if_neg (by omega)]

theorem sync_left {s s' : SyncState} {t n : Nat} {a : SyncAct} {rest : List SyncAct} (h : t < n)
    (ha : s.todo t = a :: rest) (e : s'.todo = (s.advance t rest).todo) : s'.left n + 1 = s.left n := by
  induction n with
  | zero => omega
  | succ n ih =>
    unfold SyncState.left
    by_cases hn : n = t
    · subst hn
      rw [sync_left_ge (Nat.le_refl _) e, e, ha]
      show (if n = n then rest else s.todo n).length + _ + 1 = _
      rw [if_pos rfl, List.length_cons]
      omega
    · have : s'.todo n = s.todo n := by rw [e]; exact if_neg hn
      rw [this, ← ih (by omega)]
      omega

theorem sync_complete {n : Nat} : ∀ (k : Nat) {held : Nat → List Mutex} {rank : Nat → Nat} {inside : Nat → List Nat}
    {s : SyncState}, SyncInv rk g held s → MonInv rank inside s → s.left n = k → (∀ t, n ≤ t → s.todo t = []) →
    ∃ s', s.Reach s' ∧ (∀ t, s'.todo t = []) ∧ (∀ m, s'.owner m = none) ∧ ∀ o, s'.mons o = none := by
  intro k
  induction k with
  | zero =>
    intro held rank inside s hs h hk hn
    have hz : ∀ j, s.left j = 0 → ∀ t, t < j → s.todo t = [] := by
      intro j
      induction j with
      | zero => intro _ t ht; omega
      | succ j ih =>
        intro hj t ht
        unfold SyncState.left at hj
        by_cases e : t = j
        · rw [e]; exact List.length_eq_zero_iff.1 (by omega)
        · exact ih (by omega) t (by omega)
    have hd : ∀ t, s.todo t = [] := fun t => by
      by_cases ht : t < n
      · exact hz n hk t ht
      · exact hn t (by omega)
    refine ⟨s, .refl, hd, fun m => ?_, fun o => ?_⟩
    · cases e : s.owner m with
      | none => rfl
      | some t => exact absurd (show libPart (s.todo t) = [] by rw [hd t]; rfl) (hs.locks.busy e)
    · cases e : s.mons o with
      | none => rfl
      | some x =>
        have := h.mem.2 ⟨x.2, e⟩
        have ho := h.ord x.1
        rw [hd x.1] at ho
        rw [show inside x.1 = [] from ho] at this
        cases this
  | succ k ih =>
    intro held rank inside s hs h hk hn
    have hp : ∀ j, s.left j ≠ 0 → ∃ t, s.todo t ≠ [] := by
      intro j
      induction j with
      | zero => intro h; exact absurd rfl h
      | succ j ih =>
        intro h
        by_cases e : s.todo j = []
        · apply ih; unfold SyncState.left at h; rw [e] at h; simpa using h
        · exact ⟨j, e⟩
    obtain ⟨t, ht⟩ := hp n (by omega)
    obtain ⟨u, s', hu⟩ := sync_progress hs h ht
    obtain ⟨a, rest, e, e', _⟩ := sync_moves hu
    have hun : u < n := Nat.lt_of_not_le fun hle => by rw [hn u hle] at e; cases e
    obtain ⟨_, hs'⟩ := hs.step hu
    obtain ⟨_, h'⟩ := h.step hu
    have hl := sync_left hun e e'
    have hr := SyncState.Reach.step u .refl hu
    obtain ⟨r, h1, h2⟩ := ih hs' h' (by omega) (sync_tail hr hn)
    exact ⟨r, hr.trans h1, h2⟩

end Jnivm
