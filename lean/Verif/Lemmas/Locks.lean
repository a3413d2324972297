import Verif.Model.Locks
/-! Orderly use of mutexes: locks are taken in the order of a rank, released in reverse order, and
accesses happen under their guard.  Orderly threads never block each other for good. -/
namespace Jnivm
open Spec

/-- With the mutexes `held` (innermost first) the actions lock by decreasing rank, unlock in
reverse order, end without mutexes and touch guarded locations under their guard only. -/
def Orderly (rk : Mutex → Nat) (g : Loc → Option Mutex) : List Mutex → List Act → Prop
  | H, [] => H = []
  | H, .lock m :: as => (∀ x ∈ H, rk m < rk x) ∧ Orderly rk g (m :: H) as
  | H, .unlock m :: as => ∃ K, H = m :: K ∧ Orderly rk g K as
  | H, .read l :: as => (∀ m, g l = some m → m ∈ H) ∧ Orderly rk g H as
  | H, .write l :: as => (∀ m, g l = some m → m ∈ H) ∧ Orderly rk g H as

/-- The actions may come before anything and leave the mutexes as they were. -/
def KeepsLocks (rk : Mutex → Nat) (g : Loc → Option Mutex) (H : List Mutex) (as : List Act) : Prop :=
  ∀ rest, Orderly rk g H rest → Orderly rk g H (as ++ rest)

variable {rk : Mutex → Nat} {g : Loc → Option Mutex}

theorem KeepsLocks.nil {H : List Mutex} : KeepsLocks rk g H [] := fun _ h => h

theorem KeepsLocks.append {H : List Mutex} {a b : List Act} (ha : KeepsLocks rk g H a) (hb : KeepsLocks rk g H b) :
    KeepsLocks rk g H (a ++ b) := fun rest h => by
  rw [List.append_assoc]; exact ha _ (hb _ h)

theorem KeepsLocks.read {H : List Mutex} {l : Loc} {as : List Act} (h : ∀ m, g l = some m → m ∈ H)
    (ha : KeepsLocks rk g H as) : KeepsLocks rk g H (.read l :: as) := fun _ hr => ⟨h, ha _ hr⟩

theorem KeepsLocks.write {H : List Mutex} {l : Loc} {as : List Act} (h : ∀ m, g l = some m → m ∈ H)
    (ha : KeepsLocks rk g H as) : KeepsLocks rk g H (.write l :: as) := fun _ hr => ⟨h, ha _ hr⟩

theorem KeepsLocks.access {H : List Mutex} {l : Loc} {as : List Act} {b : Bool}
    (h : ∀ m, g l = some m → m ∈ H) (ha : KeepsLocks rk g H as) : KeepsLocks rk g H (access l b :: as) := by
  unfold Jnivm.access; split
  · exact .write h ha
  · exact .read h ha

theorem KeepsLocks.guarded {H : List Mutex} {m : Mutex} {as : List Act} (h : ∀ x ∈ H, rk m < rk x)
    (ha : KeepsLocks rk g (m :: H) as) : KeepsLocks rk g H (guarded m as) := fun rest hr => by
  refine ⟨h, ?_⟩
  show Orderly rk g (m :: H) ((as ++ [Action.unlock m]) ++ rest)
  rw [List.append_assoc]
  exact ha _ ⟨H, rfl, hr⟩

theorem KeepsLocks.flatMap {α : Type} {H : List Mutex} {f : α → List Act} {xs : List α}
    (h : ∀ x ∈ xs, KeepsLocks rk g H (f x)) : KeepsLocks rk g H (xs.flatMap f) := by
  induction xs with
  | nil => exact .nil
  | cons x xs ih =>
    rw [List.flatMap_cons]
    exact (h x (List.mem_cons_self)).append (ih fun y hy => h y (List.mem_cons_of_mem _ hy))

theorem KeepsLocks.flatten_replicate {H : List Mutex} {as : List Act} (h : KeepsLocks rk g H as) (k : Nat) :
    KeepsLocks rk g H (List.replicate k as).flatten := by
  induction k with
  | zero => exact .nil
  | succ k ih => rw [List.replicate_succ, List.flatten_cons]; exact h.append ih

/-! ### Threads -/

/-- Every thread goes on orderly with the mutexes it owns. -/
structure InOrder (rk : Mutex → Nat) (g : Loc → Option Mutex) (held : Nat → List Mutex) (s : LockState) :
    Prop where
  orderly : ∀ t, Orderly rk g (held t) (s.todo t)
  owned : ∀ m t, s.owner m = some t ↔ m ∈ held t
  sorted : ∀ t, (held t).Pairwise fun a b => rk a < rk b

theorem not_mem_of_rank {H : List Mutex} {m : Mutex} (h : ∀ x ∈ H, rk m < rk x) : m ∉ H :=
  fun hm => Nat.lt_irrefl _ (h m hm)

theorem InOrder.access {held : Nat → List Mutex} {s : LockState} (h : InOrder rk g held s) {t : Nat}
    {rest : List Act} (hr : Orderly rk g (held t) rest) : InOrder rk g held (s.advance t rest) where
  orderly u := by
    show Orderly rk g (held u) (if u = t then rest else s.todo u)
    split
    · next e => rw [e]; exact hr
    · exact h.orderly u
  owned := h.owned
  sorted := h.sorted

/-- A move of an orderly thread leaves the threads in order. -/
theorem InOrder.turn {held : Nat → List Mutex} {s s' : LockState} (h : InOrder rk g held s) {t : Nat}
    (ht : s.turn t = .moves s') : ∃ held', InOrder rk g held' s' := by
  have ho := h.orderly t
  unfold LockState.turn at ht
  split at ht
  · cases ht
  · next l rest e => cases ht; rw [e] at ho; exact ⟨held, h.access ho.2⟩
  · next l rest e => cases ht; rw [e] at ho; exact ⟨held, h.access ho.2⟩
  · next m rest e =>
    rw [e] at ho
    split at ht
    · next hn =>
      cases ht
      refine ⟨fun u => if u = t then m :: held t else held u, ?_, ?_, ?_⟩
      · intro u
        show Orderly rk g _ (if u = t then rest else s.todo u)
        by_cases hu : u = t
        · simp only [hu, if_pos]; exact ho.2
        · simp only [hu, if_neg, not_false_eq_true]; exact h.orderly u
      · intro k u
        show (if k = m then some t else s.owner k) = some u ↔ _
        by_cases hk : k = m <;> by_cases hu : u = t
        · simp [hk, hu]
        · have : m ∉ held u := fun hm => by rw [(h.owned m u).2 hm] at hn; cases hn
          simp [hk, hu, this, Ne.symm hu]
        · simp [hk, hu, h.owned k t]
        · simp [hk, hu, h.owned k u]
      · intro u
        by_cases hu : u = t
        · simp only [hu, if_pos]; exact List.pairwise_cons.2 ⟨ho.1, h.sorted t⟩
        · simp only [hu, if_neg, not_false_eq_true]; exact h.sorted u
    · split at ht <;> cases ht
  · next m rest e =>
    rw [e] at ho
    obtain ⟨K, hK, ho⟩ := ho
    split at ht
    · next hm =>
      cases ht
      have hs := h.sorted t
      rw [hK] at hs
      have hmK : m ∉ K := not_mem_of_rank (List.pairwise_cons.1 hs).1
      refine ⟨fun u => if u = t then K else held u, ?_, ?_, ?_⟩
      · intro u
        show Orderly rk g _ (if u = t then rest else s.todo u)
        by_cases hu : u = t
        · simp only [hu, if_pos]; exact ho
        · simp only [hu, if_neg, not_false_eq_true]; exact h.orderly u
      · intro k u
        show (if k = m then none else s.owner k) = some u ↔ _
        by_cases hk : k = m <;> by_cases hu : u = t
        · simp [hk, hu, hmK]
        · have : m ∉ held u := fun hx => by
            rw [(h.owned m u).2 hx] at hm; cases hm; exact hu rfl
          simp [hk, hu, this]
        · simp [hk, hu, h.owned k t, hK]
        · simp [hk, hu, h.owned k u]
      · intro u
        by_cases hu : u = t
        · simp only [hu, if_pos]; exact (List.pairwise_cons.1 hs).2
        · simp only [hu, if_neg, not_false_eq_true]; exact h.sorted u
    · cases ht

theorem InOrder.reach {held : Nat → List Mutex} {s s' : LockState} (h : InOrder rk g held s)
    (hr : s.Reach s') : ∃ held', InOrder rk g held' s' := by
  induction hr with
  | refl => exact ⟨held, h⟩
  | step t _ ht ih => obtain ⟨_, ih⟩ := ih; exact ih.turn ht

/-- No thread locks what it owns or unlocks what it does not own. -/
theorem InOrder.defined {held : Nat → List Mutex} {s : LockState} (h : InOrder rk g held s) (t : Nat)
    (u : UB) : s.turn t ≠ .undefined u := by
  have ho := h.orderly t
  intro ht
  unfold LockState.turn at ht
  split at ht
  · cases ht
  · cases ht
  · cases ht
  · next m rest e =>
    rw [e] at ho
    split at ht
    · cases ht
    · next v hv =>
      split at ht
      · next hvt => rw [hvt] at hv; exact not_mem_of_rank ho.1 ((h.owned m t).1 hv)
      · cases ht
  · next m rest e =>
    rw [e] at ho
    obtain ⟨K, hK, _⟩ := ho
    rw [if_pos ((h.owned m t).2 (by rw [hK]; exact List.mem_cons_self))] at ht
    cases ht

/-- A thread that owns a mutex has something to do. -/
theorem InOrder.busy {held : Nat → List Mutex} {s : LockState} (h : InOrder rk g held s) {m : Mutex}
    {t : Nat} (hm : s.owner m = some t) : s.todo t ≠ [] := fun e => by
  have ho := h.orderly t
  rw [e] at ho
  have : m ∈ held t := (h.owned m t).1 hm
  rw [show held t = [] from ho] at this
  cases this

/-- A thread that waits does so for a mutex of another thread, which holds no mutex of smaller
rank. -/
theorem LockState.turn_waits {s : LockState} {t : Nat} (h : s.turn t = .waits) :
    ∃ m rest u, s.todo t = .lock m :: rest ∧ s.owner m = some u := by
  unfold LockState.turn at h
  split at h
  · cases h
  · cases h
  · cases h
  · next m rest e =>
    split at h
    · cases h
    · next u hu => exact ⟨m, rest, u, e, hu⟩
  · split at h <;> cases h

/-- Whoever owns a mutex can move, or waits (perhaps indirectly) for someone who can. -/
theorem InOrder.owner_moves {held : Nat → List Mutex} {s : LockState} (h : InOrder rk g held s) :
    ∀ (n : Nat) (m : Mutex) (t : Nat), rk m ≤ n → s.owner m = some t →
      ∃ u s', s.turn u = .moves s' := by
  intro n
  induction n with
  | zero =>
    intro m t hn hm
    cases e : s.turn t with
    | finished =>
      exfalso; apply h.busy hm
      unfold LockState.turn at e
      split at e
      · assumption
      · cases e
      · cases e
      · split at e
        · cases e
        · split at e <;> cases e
      · split at e <;> cases e
    | moves s' => exact ⟨t, s', e⟩
    | undefined u => exact absurd e (h.defined t u)
    | waits =>
      obtain ⟨k, rest, u, hk, _⟩ := LockState.turn_waits e
      have ho := h.orderly t
      rw [hk] at ho
      have := ho.1 m ((h.owned m t).1 hm)
      omega
  | succ n ih =>
    intro m t hn hm
    cases e : s.turn t with
    | finished =>
      exfalso; apply h.busy hm
      unfold LockState.turn at e
      split at e
      · assumption
      · cases e
      · cases e
      · split at e
        · cases e
        · split at e <;> cases e
      · split at e <;> cases e
    | moves s' => exact ⟨t, s', e⟩
    | undefined u => exact absurd e (h.defined t u)
    | waits =>
      obtain ⟨k, rest, u, hk, hu⟩ := LockState.turn_waits e
      have ho := h.orderly t
      rw [hk] at ho
      have := ho.1 m ((h.owned m t).1 hm)
      exact ih k u (by omega) hu

theorem LockState.turn_finished {s : LockState} {t : Nat} : s.turn t = .finished ↔ s.todo t = [] := by
  unfold LockState.turn
  constructor
  · intro e
    split at e
    · assumption
    · cases e
    · cases e
    · split at e
      · cases e
      · split at e <;> cases e
    · split at e <;> cases e
  · intro e; rw [e]

/-- As long as someone has something to do, someone can move. -/
theorem InOrder.progress {held : Nat → List Mutex} {s : LockState} (h : InOrder rk g held s) {t : Nat}
    (ht : s.todo t ≠ []) : ∃ u s', s.turn u = .moves s' := by
  cases e : s.turn t with
  | finished => exact absurd (LockState.turn_finished.1 e) ht
  | moves s' => exact ⟨t, s', e⟩
  | undefined u => exact absurd e (h.defined t u)
  | waits =>
    obtain ⟨m, rest, u, hm, hu⟩ := LockState.turn_waits e
    exact h.owner_moves (rk m) m u (Nat.le_refl _) hu

/-- The access that comes next happens under its guard. -/
theorem InOrder.guard {held : Nat → List Mutex} {s : LockState} (h : InOrder rk g held s) {t : Nat}
    {a : Act} {l : Loc} {m : Mutex} (ha : s.next t = some a) (hl : a.touches l) (hg : g l = some m) :
    s.owner m = some t := by
  have ho := h.orderly t
  unfold LockState.next at ha
  cases e : s.todo t with
  | nil => rw [e] at ha; cases ha
  | cons b rest =>
    rw [e] at ha ho
    cases ha
    cases a with
    | lock k => cases hl
    | unlock k => cases hl
    | read k => cases hl; exact (h.owned m t).2 (ho.1 m hg)
    | write k => cases hl; exact (h.owned m t).2 (ho.1 m hg)

/-! ### All threads finish -/

/-- Actions left of the first `n` threads. -/
def LockState.left (s : LockState) : Nat → Nat
  | 0 => 0
  | n + 1 => (s.todo n).length + s.left n

theorem LockState.left_advance_ge {s : LockState} {t n : Nat} {rest : List Act} (h : n ≤ t) :
    (s.advance t rest).left n = s.left n := by
  induction n with
  | zero => rfl
  | succ n ih =>
    unfold LockState.left
    rw [ih (by omega)]
    show ((if n = t then rest else s.todo n).length) + _ = _
    rw [if_neg (by omega)]

theorem LockState.left_advance {s : LockState} {t n : Nat} {a : Act} {rest : List Act} (h : t < n)
    (e : s.todo t = a :: rest) : (s.advance t rest).left n + 1 = s.left n := by
  induction n with
  | zero => omega
  | succ n ih =>
    unfold LockState.left
    show ((if n = t then rest else s.todo n).length) + _ + 1 = _
    by_cases hn : n = t
    · subst hn
      rw [if_pos rfl, LockState.left_advance_ge (Nat.le_refl _), e, List.length_cons]; omega
    · rw [if_neg hn, ← ih (by omega)]; omega

theorem LockState.left_setOwner {s : LockState} {m : Mutex} {o : Option Nat} {n : Nat} :
    (s.setOwner m o).left n = s.left n := by
  induction n with
  | zero => rfl
  | succ n ih => unfold LockState.left; rw [ih]; rfl

/-- A move takes one action off the list of the thread. -/
theorem LockState.turn_moves {s s' : LockState} {t : Nat} (h : s.turn t = .moves s') :
    ∃ a rest, s.todo t = a :: rest ∧ s'.todo = (s.advance t rest).todo ∧
      ∀ n, s'.left n = (s.advance t rest).left n := by
  unfold LockState.turn at h
  split at h
  · cases h
  · next l rest e => cases h; exact ⟨_, rest, e, rfl, fun _ => rfl⟩
  · next l rest e => cases h; exact ⟨_, rest, e, rfl, fun _ => rfl⟩
  · next m rest e =>
    split at h
    · cases h; exact ⟨_, rest, e, rfl, fun _ => left_setOwner⟩
    · split at h <;> cases h
  · next m rest e =>
    split at h
    · cases h; exact ⟨_, rest, e, rfl, fun _ => left_setOwner⟩
    · cases h

theorem LockState.left_zero {s : LockState} {n : Nat} (h : s.left n = 0) : ∀ t < n, s.todo t = [] := by
  induction n with
  | zero => intro t ht; omega
  | succ n ih =>
    unfold LockState.left at h
    intro t ht
    by_cases hn : t = n
    · subst hn; exact List.length_eq_zero_iff.1 (by omega)
    · exact ih (by omega) t (by omega)

theorem LockState.left_pos {s : LockState} {n : Nat} (h : s.left n ≠ 0) : ∃ t, s.todo t ≠ [] := by
  induction n with
  | zero => exact absurd rfl h
  | succ n ih =>
    by_cases hn : s.todo n = []
    · apply ih; unfold LockState.left at h; rw [hn] at h; simpa using h
    · exact ⟨n, hn⟩

theorem LockState.Reach.trans {a b c : LockState} (h : a.Reach b) (k : b.Reach c) : a.Reach c := by
  induction k with
  | refl => exact h
  | step t _ e ih => exact .step t ih e

/-- Orderly threads can all finish, and then all mutexes are free. -/
theorem InOrder.complete : ∀ (k : Nat) {held : Nat → List Mutex} {s : LockState} {n : Nat},
    InOrder rk g held s → s.left n = k → (∀ t, n ≤ t → s.todo t = []) →
    ∃ s', s.Reach s' ∧ (∀ t, s'.todo t = []) ∧ ∀ m, s'.owner m = none := by
  intro k
  induction k with
  | zero =>
    intro held s n h hk hn
    have hd : ∀ t, s.todo t = [] := fun t => by
      by_cases ht : t < n
      · exact LockState.left_zero hk t ht
      · exact hn t (by omega)
    refine ⟨s, .refl, hd, fun m => ?_⟩
    cases e : s.owner m with
    | none => rfl
    | some t => exact absurd (hd t) (h.busy e)
  | succ k ih =>
    intro held s n h hk hn
    obtain ⟨t, ht⟩ := LockState.left_pos (s := s) (n := n) (by omega)
    obtain ⟨u, s', hu⟩ := h.progress ht
    obtain ⟨a, rest, e, e', el⟩ := LockState.turn_moves hu
    have hun : u < n := Nat.lt_of_not_le fun hle => by rw [hn u hle] at e; cases e
    obtain ⟨held', h'⟩ := h.turn hu
    have hl := LockState.left_advance hun e
    obtain ⟨r, hr, h1, h2⟩ := ih (n := n) h' (by rw [el]; omega) (fun v hv => by
      rw [e']
      show (if v = u then rest else s.todo v) = []
      rw [if_neg (by omega)]; exact hn v hv)
    exact ⟨r, (LockState.Reach.step u .refl hu).trans hr, h1, h2⟩

end Jnivm
