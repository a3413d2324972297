import Verif.Lemmas.Locks
/-! Each call uses the mutexes in order. -/
namespace Jnivm
open Spec

/-- Class mutexes rank by the class, the mutex of the VM comes last. -/
def lockRank (rank : Nat → Nat) : Mutex → Nat
  | .vm => 0
  | .cls c => rank c + 1

/-- The mutex that guards a table; with `cpp` calls of `VM::GetEnv` are allowed for, with `direct`
hooks and dumps. -/
def guardOf (cpp direct : Bool) : Loc → Option Mutex
  | .globals => some .vm
  | .natives c => some (.cls c)
  | .envs => if cpp then none else some .vm
  | .fields c => if direct then none else some (.cls c)
  | _ => none

/-- Every base class a search meets has smaller rank. -/
def Tour.Descends (rank : Nat → Nat) (tour : Tour) : Prop :=
  ∀ path c bs b, (tour path c).bases = some bs → some b ∈ bs → rank b < rank c

/-- What a call needs to be orderly. -/
def Call.Fits (rank : Nat → Nat) (g : Loc → Option Mutex) (locked cpp direct : Bool) : Call → Prop
  | .getFieldID _ _ tour _ => tour.Descends rank
  | .findClass n => locked = true → n.classless = false
  | .attach _ user => KeepsLocks (lockRank rank) g [.vm] user
  | .detach _ user => KeepsLocks (lockRank rank) g [.vm] user
  | .cppGetEnv _ => cpp = true
  | .hookField _ _ _ => direct = true
  | .dump _ => direct = true
  | _ => True

section
variable {rank : Nat → Nat} {g : Loc → Option Mutex}

theorem handOut_keeps {H : List Mutex} {locked b : Bool} (ht : g .types = none)
    (hv : locked = true → b = true → ∀ x ∈ H, 0 < lockRank rank x) :
    KeepsLocks (lockRank rank) g H (handOut locked b) := by
  unfold handOut
  split
  · next hb =>
    unfold typeClass
    split
    · next hl => exact .guarded (hv hl hb) (.read (fun m h => by rw [ht] at h; cases h) .nil)
    · exact .read (fun m h => by rw [ht] at h; cases h) .nil
  · exact .nil

theorem internalFind_keeps {H : List Mutex} {n : Named} (hc : g .classes = none) :
    KeepsLocks (lockRank rank) g H (internalFind n) :=
  .access (fun m h => by rw [hc] at h; cases h) .nil

theorem createActs_keeps {H : List Mutex} {locked create : Bool} {l : Loc} {ds : List Named}
    (ht : g .types = none) (hc : g .classes = none) (hl : ∀ m, g l = some m → m ∈ H)
    (hv : ∀ x ∈ H, 0 < lockRank rank x) :
    KeepsLocks (lockRank rank) g H (createActs locked l create ds) := by
  unfold createActs
  split
  · exact .write hl (.flatMap fun n _ => (internalFind_keeps hc).append
      (handOut_keeps ht fun _ _ => hv))
  · exact .nil

theorem readBases_keeps {H : List Mutex} {c : Nat} {v : Visit} (ht : g .types = none)
    (hb : ∀ c, g (.bases c) = none) : KeepsLocks (lockRank rank) g H (readBases c v) := by
  unfold readBases
  refine .read (fun m h => by rw [hb] at h; cases h) ?_
  split
  · exact .access (fun m h => by rw [ht] at h; cases h) .nil
  · exact .nil

theorem overBases_keeps {H : List Mutex} {f : Nat → Nat → List Act × Bool} {bs : List (Option Nat)}
    (h : ∀ i b, some b ∈ bs → KeepsLocks (lockRank rank) g H (f i b).1) (i : Nat) :
    KeepsLocks (lockRank rank) g H (overBases f i bs).1 := by
  induction bs generalizing i with
  | nil => exact .nil
  | cons b bs ih =>
    have ih := ih (fun i c hc => h i c (List.mem_cons_of_mem _ hc))
    cases b with
    | none => exact ih (i + 1)
    | some b =>
      unfold overBases
      split
      · exact h i b List.mem_cons_self
      · exact (h i b List.mem_cons_self).append (ih (i + 1))

theorem methodSearch_keeps {tour : Tour} (ht : g .types = none) (hb : ∀ c, g (.bases c) = none)
    (hm : ∀ c, g (.methods c) = none) (d : Nat) (path : List Nat) (c : Nat) :
    KeepsLocks (lockRank rank) g [] (methodSearch tour d path c).1 := by
  induction d generalizing path c with
  | zero => exact .nil
  | succ d ih =>
    have hg : KeepsLocks (lockRank rank) g [] (guarded (.cls c) [.read (.methods c)]) :=
      .guarded (fun x hx => by cases hx) (.read (fun m h => by rw [hm] at h; cases h) .nil)
    unfold methodSearch
    split
    · exact hg
    · split
      · exact hg.append (readBases_keeps ht hb)
      · exact (hg.append (readBases_keeps ht hb)).append (overBases_keeps (fun i b _ => ih _ _) 0)

theorem fieldSearch_keeps {tour : Tour} (hd : tour.Descends rank) (ht : g .types = none)
    (hb : ∀ c, g (.bases c) = none) (hf : ∀ c m, g (.fields c) = some m → m = .cls c)
    (d : Nat) (create : List Act) (path : List Nat) (c : Nat) (H : List Mutex)
    (hH : ∀ x ∈ H, lockRank rank (.cls c) < lockRank rank x)
    (hcr : KeepsLocks (lockRank rank) g (.cls c :: H) create) :
    KeepsLocks (lockRank rank) g H (fieldSearch tour create d path c).1 := by
  induction d generalizing path c H create with
  | zero => exact .nil
  | succ d ih =>
    have hr : ∀ m, g (.fields c) = some m → m ∈ Mutex.cls c :: H := fun m h => by
      rw [hf c m h]; exact List.mem_cons_self
    unfold fieldSearch
    split
    · exact .guarded hH (.read hr .nil)
    · split
      · exact .guarded hH (.read hr (readBases_keeps ht hb))
      · refine .guarded hH (.read hr ((readBases_keeps ht hb).append (.append ?_ ?_)))
        · refine overBases_keeps (fun i b hbm => ih _ _ _ _ (fun x hx => ?_) .nil) 0
          have hlt : rank b < rank c := by
            cases e : (tour path c).bases with
            | none => rw [e] at hbm; cases hbm
            | some bs => rw [e] at hbm; exact hd path c bs b e hbm
          rcases List.mem_cons.1 hx with rfl | hx
          · exact Nat.succ_lt_succ hlt
          · exact Nat.lt_trans (Nat.succ_lt_succ hlt) (hH x hx)
        · split
          · exact .nil
          · exact hcr

end

theorem guardOf_cls {cpp direct : Bool} : ∀ c m, guardOf cpp direct (.fields c) = some m → m = .cls c :=
  fun c m h => by cases direct <;> cases h; rfl

/-- Every call is orderly.  `g` is one of the tables of guards or empty. -/
theorem Call.keeps {rank : Nat → Nat} {locked cpp direct : Bool} {depth : Nat} {g : Loc → Option Mutex}
    (hg : ∀ l m, g l = some m → guardOf cpp direct l = some m) (c : Call)
    (h : c.Fits rank g locked cpp direct) : KeepsLocks (lockRank rank) g [] (c.acts locked depth) := by
  have none_of : ∀ l, guardOf cpp direct l = none → g l = none := fun l hl => by
    cases e : g l with
    | none => rfl
    | some m => rw [hg l m e] at hl; cases hl
  have ht := none_of .types rfl
  have hc := none_of .classes rfl
  have hb := fun c => none_of (.bases c) rfl
  have hm := fun c => none_of (.methods c) rfl
  have free : ∀ l {H : List Mutex}, g l = none → ∀ m, g l = some m → m ∈ H := fun l H hl m e => by
    rw [hl] at e; cases e
  have hsig : ∀ sig : List SigPart, KeepsLocks (lockRank rank) g [] (sig.flatMap SigPart.acts) := fun sig =>
    .flatMap fun p _ => by
      have hv : KeepsLocks (lockRank rank) g [] (guarded .vm [.read .types]) :=
        .guarded (fun x hx => by cases hx) (.read (free _ ht) .nil)
      cases p with
      | cls => exact hv
      | arr n => exact hv.append (internalFind_keeps hc)
  have hnil : ∀ x ∈ ([] : List Mutex), ∀ k, k < lockRank rank x := fun x hx => by cases hx
  have inVm : ∀ l, (∀ m, guardOf cpp direct l = some m → m = .vm) →
      ∀ m, g l = some m → m ∈ [Mutex.vm] := fun l hl m e => by
    rw [hl m (hg l m e)]; exact List.mem_cons_self
  have hglob := inVm .globals fun m e => by cases e; rfl
  have henv := inVm .envs fun m e => by cases cpp <;> cases e; rfl
  have inCls : ∀ c l, (∀ m, guardOf cpp direct l = some m → m = .cls c) →
      ∀ m, g l = some m → m ∈ [Mutex.cls c] := fun c l hl m e => by
    rw [hl m (hg l m e)]; exact List.mem_cons_self
  have hf : ∀ c m, g (.fields c) = some m → m = .cls c := fun c m e =>
    guardOf_cls c m (hg _ _ e)
  cases c with
  | findClass n =>
    refine .guarded (fun x hx => hnil x hx _) ((internalFind_keeps hc).append
      (handOut_keeps ht fun hl hn => ?_))
    rw [h hl] at hn; cases hn
  | bindType c n =>
    exact .guarded (fun x hx => hnil x hx _) ((internalFind_keeps hc).append
      (.write (free _ ht) (.write (free _ (hb c)) .nil)))
  | hookMethod c sig known => exact (hsig sig).append (.access (free _ (hm c)) .nil)
  | hookField c sig known =>
    have : direct = true := h
    subst this
    exact (hsig sig).append (.access (free _ (none_of _ rfl)) .nil)
  | getMethodID c init create tour declares =>
    refine .append (.append ?_ (methodSearch_keeps ht hb hm _ _ _)) ?_
    · split
      · exact .guarded (fun x hx => hnil x hx _) .nil
      · exact .nil
    · split
      · exact .nil
      · exact createActs_keeps ht hc (free _ (hm c)) fun x hx => hnil x hx _
  | getFieldID c create tour declares =>
    refine fieldSearch_keeps h ht hb hf _ _ _ _ _ (fun x hx => hnil x hx _) ?_
    refine createActs_keeps ht hc (fun m e => ?_) fun x hx => ?_
    · rw [hf c m e]; exact List.mem_cons_self
    · cases List.mem_singleton.1 hx; exact Nat.succ_pos _
  | subtype visits => exact .flatMap fun v _ => readBases_keeps ht hb
  | registerNatives c k =>
    refine .guarded (fun x hx => hnil x hx _) (.flatten_replicate (.write ?_ (.write (free _ (hm c)) .nil)) k)
    exact inCls c _ fun m e => by cases e; rfl
  | unregisterNatives c =>
    refine .guarded (fun x hx => hnil x hx _) (.write ?_ (.write (free _ (hm c)) .nil))
    exact inCls c _ fun m e => by cases e; rfl
  | newGlobalRef n =>
    exact (internalFind_keeps hc).append (.guarded (fun x hx => hnil x hx _) (.write hglob .nil))
  | deleteGlobalRef found =>
    refine .guarded (fun x hx => hnil x hx _) (.read hglob ?_)
    split
    · exact .write hglob .nil
    · exact .nil
  | newArray n => exact internalFind_keeps hc
  | toJni b => exact handOut_keeps ht fun _ _ x hx => hnil x hx _
  | getJavaVM => exact .guarded (fun x hx => hnil x hx _) .nil
  | attach known user =>
    refine .guarded (fun x hx => hnil x hx _) (.access henv ?_)
    split
    · exact .nil
    · exact h
  | detach known user =>
    refine .guarded (fun x hx => hnil x hx _) (.read henv ?_)
    split
    · exact .write henv h
    · exact .nil
  | cppGetEnv known =>
    have : cpp = true := h
    subst this
    exact .access (free _ (none_of _ rfl)) .nil
  | dump cs =>
    have : direct = true := h
    subst this
    exact .read (free _ hc) (.flatMap fun c _ =>
      .read (free _ (none_of _ rfl)) (.read (free _ (hm c)) .nil))

/-- Threads that make fitting calls start in order. -/
theorem start_inOrder {rank : Nat → Nat} {locked cpp direct : Bool} {depth : Nat}
    {g : Loc → Option Mutex} (hg : ∀ l m, g l = some m → guardOf cpp direct l = some m)
    {calls : Nat → List Call}
    (h : ∀ t, ∀ c ∈ calls t, c.Fits rank g locked cpp direct) :
    InOrder (lockRank rank) g (fun _ => []) (LockState.start locked depth calls) where
  orderly t := by
    have := KeepsLocks.flatMap (rk := lockRank rank) (g := g) (H := []) (f := Call.acts locked depth)
      (xs := calls t) (fun c hc => c.keeps hg (h t c hc)) [] rfl
    rwa [List.append_nil] at this
  owned m t := by
    constructor
    · intro e; cases e
    · intro e; cases e
  sorted t := List.Pairwise.nil

theorem quiet_keeps {rk : Mutex → Nat} {H : List Mutex} {user : List Act}
    (h : ∀ a ∈ user, ∃ l, a = .read l ∨ a = .write l) : KeepsLocks rk (fun _ => none) H user := by
  induction user with
  | nil => exact .nil
  | cons a user ih =>
    have ih := ih fun b hb => h b (List.mem_cons_of_mem _ hb)
    obtain ⟨l, rfl | rfl⟩ := h a List.mem_cons_self
    · exact .read (fun m e => by cases e) ih
    · exact .write (fun m e => by cases e) ih

/-! ### The bound on nested calls -/

theorem overBases_congr {f f' : Nat → Nat → List Act × Bool} {bs : List (Option Nat)}
    (h : ∀ i b, some b ∈ bs → f i b = f' i b) (i : Nat) : overBases f i bs = overBases f' i bs := by
  induction bs generalizing i with
  | nil => rfl
  | cons b bs ih =>
    have ih := ih (fun i c hc => h i c (List.mem_cons_of_mem _ hc))
    cases b with
    | none => exact ih (i + 1)
    | some b =>
      unfold overBases
      rw [h i b List.mem_cons_self, ih (i + 1)]

theorem methodSearch_depth {rank : Nat → Nat} {tour : Tour} (hd : tour.Descends rank) :
    ∀ (d d' : Nat) (path : List Nat) (c : Nat), rank c < d → rank c < d' →
      methodSearch tour d path c = methodSearch tour d' path c
  | 0, _, _, _, h, _ => absurd h (Nat.not_lt_zero _)
  | _ + 1, 0, _, _, _, h => absurd h (Nat.not_lt_zero _)
  | d + 1, d' + 1, path, c, h, h' => by
    have key := overBases_congr (f := fun i b => methodSearch tour d (i :: path) b)
      (f' := fun i b => methodSearch tour d' (i :: path) b) (bs := (tour path c).bases.getD [])
      (fun i b hb => by
        have hlt : rank b < rank c := by
          cases e : (tour path c).bases with
          | none => rw [e] at hb; cases hb
          | some bs => rw [e] at hb; exact hd path c bs b e hb
        exact methodSearch_depth hd d d' (i :: path) b (by omega) (by omega)) 0
    unfold methodSearch
    rw [key]

theorem fieldSearch_depth {rank : Nat → Nat} {tour : Tour} (hd : tour.Descends rank) :
    ∀ (d d' : Nat) (create : List Act) (path : List Nat) (c : Nat), rank c < d → rank c < d' →
      fieldSearch tour create d path c = fieldSearch tour create d' path c
  | 0, _, _, _, _, h, _ => absurd h (Nat.not_lt_zero _)
  | _ + 1, 0, _, _, _, _, h => absurd h (Nat.not_lt_zero _)
  | d + 1, d' + 1, create, path, c, h, h' => by
    have key := overBases_congr (f := fun i b => fieldSearch tour [] d (i :: path) b)
      (f' := fun i b => fieldSearch tour [] d' (i :: path) b) (bs := (tour path c).bases.getD [])
      (fun i b hb => by
        have hlt : rank b < rank c := by
          cases e : (tour path c).bases with
          | none => rw [e] at hb; cases hb
          | some bs => rw [e] at hb; exact hd path c bs b e hb
        exact fieldSearch_depth hd d d' [] (i :: path) b (by omega) (by omega)) 0
    unfold fieldSearch
    rw [key]

/-! ### Schedules -/

/-- Give the processor to the threads in turn. -/
def LockState.steps (s : LockState) : List Nat → Option LockState
  | [] => some s
  | t :: ts =>
    match s.turn t with
    | .moves s' => steps s' ts
    | _ => none

theorem LockState.steps_reach {ts : List Nat} {s s' : LockState} (h : s.steps ts = some s') : s.Reach s' := by
  induction ts generalizing s with
  | nil => cases h; exact .refl
  | cons t ts ih =>
    unfold LockState.steps at h
    split at h
    · next r e => exact (LockState.Reach.step t .refl e).trans (ih h)
    · cases h

/-- A thread makes its accesses undisturbed. -/
theorem run_accesses {t : Nat} {rest : List Act} : ∀ {as : List Act} {s : LockState},
    (∀ a ∈ as, ∃ l, a = .read l ∨ a = .write l) → s.todo t = as ++ rest →
    ∃ s', s.Reach s' ∧ s'.todo t = rest ∧ (∀ u, u ≠ t → s'.todo u = s.todo u) ∧ s'.owner = s.owner
  | [], s, _, h => ⟨s, .refl, h, fun _ _ => rfl, rfl⟩
  | a :: as, s, ha, h => by
    have hm : s.turn t = .moves (s.advance t (as ++ rest)) := by
      unfold LockState.turn
      rw [h]
      obtain ⟨l, rfl | rfl⟩ := ha a List.mem_cons_self <;> rfl
    obtain ⟨s', h1, h2, h3, h4⟩ := run_accesses (s := s.advance t (as ++ rest)) (as := as)
      (fun b hb => ha b (List.mem_cons_of_mem _ hb)) (if_pos rfl)
    exact ⟨s', (LockState.Reach.step t .refl hm).trans h1, h2,
      fun u hu => (h3 u hu).trans (if_neg hu), h4⟩

/-- A thread locks a free mutex. -/
theorem run_lock {t : Nat} {m : Mutex} {rest : List Act} {s : LockState} (h : s.todo t = .lock m :: rest)
    (hm : s.owner m = none) :
    ∃ s', s.Reach s' ∧ s'.todo t = rest ∧ (∀ u, u ≠ t → s'.todo u = s.todo u) ∧
      s'.owner = fun k => if k = m then some t else s.owner k := by
  have ht : s.turn t = .moves ((s.advance t rest).setOwner m (some t)) := by
    unfold LockState.turn
    rw [h]
    simp only [hm]
  exact ⟨_, .step t .refl ht, if_pos rfl, fun u hu => if_neg hu, rfl⟩

/-- A thread passes a critical section undisturbed. -/
theorem run_guarded {t : Nat} {m : Mutex} {as rest : List Act} {s : LockState}
    (ha : ∀ a ∈ as, ∃ l, a = .read l ∨ a = .write l) (h : s.todo t = guarded m as ++ rest)
    (hm : s.owner m = none) :
    ∃ s', s.Reach s' ∧ s'.todo t = rest ∧ (∀ u, u ≠ t → s'.todo u = s.todo u) ∧ s'.owner = s.owner := by
  obtain ⟨s1, r1, h1, o1, w1⟩ := run_lock (rest := as ++ (.unlock m :: rest))
    (h.trans (by simp [guarded])) hm
  obtain ⟨s2, r2, h2, o2, w2⟩ := run_accesses ha h1
  have hw : s2.owner m = some t := by rw [w2, w1]; exact if_pos rfl
  have ht : s2.turn t = .moves ((s2.advance t rest).setOwner m none) := by
    unfold LockState.turn
    rw [h2]
    simp only [hw, if_true]
  refine ⟨_, (r1.trans r2).trans (.step t .refl ht), if_pos rfl, fun u hu => ?_, ?_⟩
  · exact ((if_neg hu : (if u = t then rest else s2.todo u) = _).trans (o2 u hu)).trans (o1 u hu)
  · funext k
    show (if k = m then none else s2.owner k) = s.owner k
    rw [w2, w1]
    by_cases hk : k = m
    · rw [if_pos hk, hk, hm]
    · rw [if_neg hk]; exact if_neg hk

end Jnivm
