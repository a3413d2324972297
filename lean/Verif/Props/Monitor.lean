import Verif.Spec.Monitor
import Verif.Lemmas.Refs
/-! C37: monitors are re-entrant locks. -/
namespace Jnivm
open Spec

/-- What a mutex holds in terms of the history. -/
def MonExact (ev : List MonEvent) (i : Nat) : Option (Nat × Nat) → Prop
  | none => ∀ t, depth t i ev = 0
  | some (t, n) => 0 < n ∧ depth t i ev = n ∧ ∀ u, u ≠ t → depth u i ev = 0

theorem monExact_congr {ev ev' : List MonEvent} {i : Nat} {m : Option (Nat × Nat)}
    (e : ∀ u, depth u i ev' = depth u i ev) (h : MonExact ev i m) : MonExact ev' i m := by
  cases m with
  | none => exact fun t => (e t).trans (h t)
  | some x => exact ⟨h.1, (e x.1).trans h.2.1, fun u hu => (e u).trans (h.2.2 u hu)⟩

theorem target_eq {s : MonState} {t i : Nat} {r : Option Nat} (hr : s.heap.denote r = .ok (some i))
    (he : s.heap.envs t ≠ none) : s.target t r = .ok i := by
  unfold MonState.target
  rw [if_neg (by simpa using he), hr, Res.bind_ok]

theorem target_inv {s : MonState} {t i j : Nat} {r : Option Nat} (hr : s.heap.denote r = .ok (some i))
    (h : s.target t r = .ok j) : j = i := by
  unfold MonState.target at h
  split at h
  · cases h
  · rw [hr, Res.bind_ok] at h; cases h; rfl

theorem depth_other {t i : Nat} {e : MonEvent} (h : ¬ (e.thread = t ∧ e.obj = i)) (ev : List MonEvent) :
    depth t i (e :: ev) = depth t i ev := by
  show _ + ite _ _ _ = _
  rw [if_neg h, Int.add_zero]

theorem depth_enter (t i : Nat) (ev : List MonEvent) : depth t i (⟨t, true, i⟩ :: ev) = depth t i ev + 1 := by
  show _ + ite _ _ _ = _
  rw [if_pos ⟨rfl, rfl⟩]; rfl

theorem depth_exit (t i : Nat) (ev : List MonEvent) : depth t i (⟨t, false, i⟩ :: ev) = depth t i ev - 1 := by
  show _ + ite _ _ _ = _
  rw [if_pos ⟨rfl, rfl⟩]; rfl

theorem enter_cases {s s' : MonState} {t i : Nat} {r : Option Nat} (hr : s.heap.denote r = .ok (some i))
    (h : s.enter t r = .ok (some s')) :
    s.mons i = none ∧ s' = s.setMon i (some (t, 1)) ∨
    ∃ n, s.mons i = some (t, n) ∧ s' = s.setMon i (some (t, n + 1)) := by
  obtain ⟨j, hj, h⟩ := Res.bind_eq_ok.1 h
  cases target_inv hr hj
  cases hm : s.mons i with
  | none => rw [hm] at h; cases h; exact .inl ⟨rfl, rfl⟩
  | some x =>
    obtain ⟨u, n⟩ := x
    rw [hm] at h
    simp only at h
    split at h
    · rename_i hu; subst hu; cases h; exact .inr ⟨n, rfl, rfl⟩
    · cases h

theorem exit_cases {s s' : MonState} {t i : Nat} {r : Option Nat} (hr : s.heap.denote r = .ok (some i))
    (h : s.exit t r = .ok s') :
    ∃ n, s.mons i = some (t, n) ∧ s' = s.setMon i (if n = 1 then none else some (t, n - 1)) := by
  obtain ⟨j, hj, h⟩ := Res.bind_eq_ok.1 h
  cases target_inv hr hj
  cases hm : s.mons i with
  | none => rw [hm] at h; cases h
  | some x =>
    obtain ⟨u, n⟩ := x
    rw [hm] at h
    simp only at h
    split at h
    · rename_i hu; subst hu; cases h; exact ⟨n, rfl, rfl⟩
    · cases h

/-- After every schedule the mutex of an object is locked by the one thread that entered its monitor more
often than it left it, as often as the difference, and by nobody if there is no such thread. -/
theorem monitor_exact {ev : List MonEvent} {s : MonState} (h : MonHistory ev s) (i : Nat) :
    MonExact ev i (s.mons i) := by
  revert i
  induction h with
  | start _ => exact fun i t => rfl
  | call t op _ hs ih =>
    rename_i s s' _
    obtain ⟨x, _, h⟩ := Res.bind_eq_ok.1 hs
    simp only at h
    split at h
    · cases h
    · cases h; exact ih
  | enter t r i _ hr hs ih =>
    rename_i ev s s' _
    rcases enter_cases hr hs with ⟨hm, rfl⟩ | ⟨n, hm, rfl⟩
    · intro j
      show MonExact _ j (if j = i then _ else _)
      by_cases hj : j = i
      · subst hj
        have h0 := ih j
        rw [hm] at h0
        rw [if_pos rfl]
        refine ⟨Nat.one_pos, by rw [depth_enter, h0]; rfl, fun u hu => ?_⟩
        rw [depth_other (fun hc => hu hc.1.symm)]; exact h0 u
      · have h0 := ih j
        rw [if_neg hj]
        exact monExact_congr (fun u => depth_other (fun hc => hj hc.2.symm) ev) h0
    · intro j
      show MonExact _ j (if j = i then _ else _)
      by_cases hj : j = i
      · subst hj
        have h0 := ih j
        rw [hm] at h0
        rw [if_pos rfl]
        refine ⟨Nat.succ_pos n, by rw [depth_enter, h0.2.1]; rfl, fun u hu => ?_⟩
        rw [depth_other (fun hc => hu hc.1.symm)]; exact h0.2.2 u hu
      · have h0 := ih j
        rw [if_neg hj]
        exact monExact_congr (fun u => depth_other (fun hc => hj hc.2.symm) ev) h0
  | exit t r i _ hr hs ih =>
    rename_i ev s s' _
    obtain ⟨n, hm, rfl⟩ := exit_cases hr hs
    intro j
    show MonExact _ j (if j = i then _ else _)
    by_cases hj : j = i
    · subst hj
      have h0 := ih j
      rw [hm] at h0
      obtain ⟨hn, hd, ho⟩ := h0
      rw [if_pos rfl]
      have e : ∀ u, u ≠ t → depth u j (⟨t, false, j⟩ :: ev) = 0 := fun u hu => by
        rw [depth_other (fun hc => hu hc.1.symm)]; exact ho u hu
      by_cases h1 : n = 1
      · rw [if_pos h1]
        intro u
        by_cases hu : u = t
        · subst hu; rw [depth_exit, hd, h1]; rfl
        · exact e u hu
      · rw [if_neg h1]
        refine ⟨by omega, ?_, e⟩
        rw [depth_exit, hd]
        omega
    · have h0 := ih j
      rw [if_neg hj]
      exact monExact_congr (fun u => depth_other (fun hc => hj hc.2.symm) ev) h0

/-- At most one thread is inside. -/
theorem monitor_exclusive {ev : List MonEvent} {s : MonState} (h : MonHistory ev s) {t u i : Nat}
    (ht : depth t i ev ≠ 0) (hu : depth u i ev ≠ 0) : t = u := by
  have := monitor_exact h i
  cases hm : s.mons i with
  | none => rw [hm] at this; exact absurd (this t) ht
  | some x =>
    rw [hm] at this
    have h1 : ∀ v, depth v i ev ≠ 0 → v = x.1 := fun v hv =>
      Decidable.byContradiction fun hne => hv (this.2.2 v hne)
    rw [h1 t ht, h1 u hu]

/-- No thread left more often than it entered. -/
theorem monitor_depth {ev : List MonEvent} {s : MonState} (h : MonHistory ev s) (t i : Nat) :
    0 ≤ depth t i ev := by
  have := monitor_exact h i
  cases hm : s.mons i with
  | none => rw [hm] at this; rw [this t]; exact Int.le_refl 0
  | some x =>
    rw [hm] at this
    by_cases ht : t = x.1
    · rw [ht, this.2.1]; exact Int.natCast_nonneg _
    · rw [this.2.2 t ht]; exact Int.le_refl 0

/-- `MonitorEnter` proceeds exactly if no other thread is inside, that is, each left as often as it entered;
the thread inside may enter again.  Otherwise it waits. -/
theorem monitor_enter {ev : List MonEvent} {s : MonState} (h : MonHistory ev s) {t i : Nat} {r : Option Nat}
    (hr : s.heap.denote r = .ok (some i)) (he : s.heap.envs t ≠ none) :
    ((∀ u, u ≠ t → depth u i ev = 0) → ∃ s', s.enter t r = .ok (some s') ∧ s'.heap = s.heap ∧
      MonHistory (⟨t, true, i⟩ :: ev) s') ∧
    ((∃ u, u ≠ t ∧ depth u i ev ≠ 0) → s.enter t r = .ok none) := by
  have hx := monitor_exact h i
  have ht := target_eq hr he
  constructor
  · intro h0
    cases hm : s.mons i with
    | none =>
      have : s.enter t r = .ok (some (s.setMon i (some (t, 1)))) := by
        unfold MonState.enter; rw [ht, Res.bind_ok, hm]
      exact ⟨_, this, rfl, .enter t r i h hr this⟩
    | some x =>
      obtain ⟨u, n⟩ := x
      rw [hm] at hx
      have hu : u = t := Decidable.byContradiction fun hne => by
        have := h0 u hne
        rw [hx.2.1] at this
        have := hx.1
        omega
      have : s.enter t r = .ok (some (s.setMon i (some (t, n + 1)))) := by
        unfold MonState.enter; rw [ht, Res.bind_ok, hm]; exact if_pos hu
      exact ⟨_, this, rfl, .enter t r i h hr this⟩
  · rintro ⟨u, hu, hd⟩
    cases hm : s.mons i with
    | none => rw [hm] at hx; exact absurd (hx u) hd
    | some x =>
      obtain ⟨v, n⟩ := x
      rw [hm] at hx
      have hv : v ≠ t := fun hvt => hd (hx.2.2 u (hvt ▸ hu))
      unfold MonState.enter
      rw [ht, Res.bind_ok, hm]
      exact if_neg hv

/-- `MonitorExit` works exactly for a thread inside; for others it is undefined. -/
theorem monitor_exit {ev : List MonEvent} {s : MonState} (h : MonHistory ev s) {t i : Nat} {r : Option Nat}
    (hr : s.heap.denote r = .ok (some i)) (he : s.heap.envs t ≠ none) :
    (depth t i ev ≠ 0 → ∃ s', s.exit t r = .ok s' ∧ s'.heap = s.heap ∧ MonHistory (⟨t, false, i⟩ :: ev) s') ∧
    (depth t i ev = 0 → s.exit t r = .ub .notOwner) := by
  have hx := monitor_exact h i
  have ht := target_eq hr he
  cases hm : s.mons i with
  | none =>
    rw [hm] at hx
    refine ⟨fun hd => absurd (hx t) hd, fun _ => ?_⟩
    unfold MonState.exit; rw [ht, Res.bind_ok, hm]
  | some x =>
    obtain ⟨u, n⟩ := x
    rw [hm] at hx
    constructor
    · intro hd
      have hu : u = t := Decidable.byContradiction fun hne => hd (hx.2.2 t fun h => hne h.symm)
      have : s.exit t r = .ok (s.setMon i (if n = 1 then none else some (t, n - 1))) := by
        unfold MonState.exit; rw [ht, Res.bind_ok, hm]; exact if_pos hu
      exact ⟨_, this, rfl, .exit t r i h hr this⟩
    · intro hd
      have hu : u ≠ t := fun hut => by
        rw [hut] at hx
        have h1 := hx.2.1
        have h2 := hx.1
        omega
      unfold MonState.exit
      rw [ht, Res.bind_ok, hm]
      exact if_neg hu

/-- References to the same object use the same monitor, whatever their kinds. -/
theorem monitor_same {s : MonState} {a b : Option Nat} (h : s.heap.isSameObject a b = .ok true) (t : Nat) :
    s.enter t a = s.enter t b ∧ s.exit t a = s.exit t b := by
  have : s.target t a = s.target t b := by
    unfold Heap.isSameObject at h
    split at h
    · rename_i hab; rw [hab]
    · obtain ⟨x, hx, h⟩ := Res.bind_eq_ok.1 h
      obtain ⟨y, hy, h⟩ := Res.bind_eq_ok.1 h
      have hxy : x = y := by simpa using h
      unfold MonState.target
      rw [show s.heap.denote a = s.heap.denote b from by rw [hx, hy, hxy]]
  unfold MonState.enter MonState.exit
  rw [this]
  exact ⟨rfl, rfl⟩

/-- References to different objects use different monitors: an operation through one leaves the other. -/
theorem monitor_other {s s' : MonState} {t i j : Nat} {r : Option Nat} (hr : s.heap.denote r = .ok (some i))
    (hj : j ≠ i) (h : s.enter t r = .ok (some s') ∨ s.exit t r = .ok s') : s'.mons j = s.mons j := by
  rcases h with h | h
  · rcases enter_cases hr h with ⟨_, rfl⟩ | ⟨n, _, rfl⟩ <;> exact if_neg hj
  · obtain ⟨n, _, rfl⟩ := exit_cases hr h
    exact if_neg hj

/-- A null reference, or a weak one whose object is gone, is dereferenced. -/
theorem monitor_null {s : MonState} {t : Nat} {r : Option Nat} (hr : s.heap.denote r = .ok none)
    (he : s.heap.envs t ≠ none) : s.enter t r = .ub .nullDeref ∧ s.exit t r = .ub .nullDeref := by
  have : s.target t r = .ub .nullDeref := by
    unfold MonState.target
    rw [if_neg (by simpa using he), hr, Res.bind_ok]
  unfold MonState.enter MonState.exit
  rw [this]
  exact ⟨rfl, rfl⟩

/-! ### Cases -/

/-- Object 9 with a local reference of thread 0, a global one and a weak one; thread 1 is attached.  Thread 0
enters twice, thread 1 has to wait, thread 0 leaves twice through other references, thread 1 enters. -/
example : ∃ h s, HeapReachable h ∧ h.denote (some 9) = .ok (some 9) ∧ h.denote (some 10) = .ok (some 9) ∧
    h.denote (some 11) = .ok (some 9) ∧ h.isSameObject (some 10) (some 11) = .ok true ∧
    h.envs 0 ≠ none ∧ h.envs 1 ≠ none ∧
    MonHistory [⟨0, true, 9⟩, ⟨0, true, 9⟩] s ∧ s.enter 1 (some 10) = .ok none ∧
    ∃ s', MonHistory [⟨1, true, 9⟩, ⟨0, false, 9⟩, ⟨0, false, 9⟩, ⟨0, true, 9⟩, ⟨0, true, 9⟩] s' ∧
      depth 1 9 [⟨1, true, 9⟩, ⟨0, false, 9⟩, ⟨0, false, 9⟩, ⟨0, true, 9⟩, ⟨0, true, 9⟩] = 1 := by
  obtain ⟨h, -, hr, hp⟩ := reachable_of (ops := [(0, .newObject none), (0, .newGlobalRef (some 9)),
      (0, .newWeakGlobalRef (some 9)), (1, .attach)])
    (p := fun h => h.denote (some 9) == .ok (some 9) && h.denote (some 10) == .ok (some 9) &&
      h.denote (some 11) == .ok (some 9) && h.isSameObject (some 10) (some 11) == .ok true &&
      (h.envs 0).isSome && (h.envs 1).isSome) (by decide +kernel)
  simp only [Bool.and_eq_true, beq_iff_eq, Option.isSome_iff_ne_none] at hp
  obtain ⟨⟨⟨⟨⟨h9, h10⟩, h11⟩, hs⟩, he0⟩, he1⟩ := hp
  obtain ⟨s1, -, e1, m1⟩ := (monitor_enter (.start hr) (t := 0) h9 he0).1 (fun _ _ => rfl)
  obtain ⟨s2, -, e2, m2⟩ := (monitor_enter m1 (t := 0) (r := some 10) (by rw [e1]; exact h10)
    (by rw [e1]; exact he0)).1 (fun u hu => by simp [depth, hu.symm])
  have w := (monitor_enter m2 (t := 1) (r := some 10) (i := 9) (by rw [e2, e1]; exact h10)
    (by rw [e2, e1]; exact he1)).2 ⟨0, by decide, by decide⟩
  obtain ⟨s3, -, e3, m3⟩ := (monitor_exit m2 (t := 0) (r := some 11) (i := 9) (by rw [e2, e1]; exact h11)
    (by rw [e2, e1]; exact he0)).1 (by decide)
  obtain ⟨s4, -, e4, m4⟩ := (monitor_exit m3 (t := 0) (r := some 11) (i := 9) (by rw [e3, e2, e1]; exact h11)
    (by rw [e3, e2, e1]; exact he0)).1 (by decide)
  obtain ⟨s5, -, e5, m5⟩ := (monitor_enter m4 (t := 1) (r := some 11) (i := 9)
    (by rw [e4, e3, e2, e1]; exact h11) (by rw [e4, e3, e2, e1]; exact he1)).1
    (fun u hu => by
      by_cases h0 : u = 0
      · subst h0; rfl
      · simp [depth, Ne.symm h0])
  exact ⟨h, s2, hr, h9, h10, h11, hs, he0, he1, m2, w, s5, m5, by decide⟩

/-- A monitor does not keep its object: dropping the last reference while inside destroys a locked mutex. -/
theorem monitor_object_released : ∃ s, MonHistory [⟨0, true, 9⟩] s ∧
    s.call 0 (.deleteLocalRef (some 9)) = .ub .dangling := by
  obtain ⟨h, -, hr, hp⟩ := reachable_of (ops := [(0, .newObject none)])
    (p := fun h => h.denote (some 9) == .ok (some 9) && (h.envs 0).isSome &&
      ((HeapOp.deleteLocalRef (some 9)).run h 0).holds fun x : Heap × Out =>
        (x.1.objs 9).isNone && decide (9 < x.1.next))
    (by decide +kernel)
  simp only [Bool.and_eq_true, beq_iff_eq, Option.isSome_iff_ne_none] at hp
  obtain ⟨⟨h9, he0⟩, hd⟩ := hp
  obtain ⟨x, hx, hn⟩ := Res.holds_iff.1 hd
  simp only [Bool.and_eq_true, decide_eq_true_eq] at hn
  have hen : MonState.enter ⟨h, fun _ => none⟩ 0 (some 9) =
      .ok (some (MonState.setMon ⟨h, fun _ => none⟩ 9 (some (0, 1)))) := by
    unfold MonState.enter
    rw [target_eq (s := ⟨h, fun _ => none⟩) h9 he0, Res.bind_ok]
  refine ⟨_, .enter 0 (some 9) 9 (.start hr) h9 hen, ?_⟩
  unfold MonState.call
  have hx' : (HeapOp.deleteLocalRef (some 9)).run
      (MonState.setMon ⟨h, fun _ => none⟩ 9 (some (0, 1))).heap 0 = .ok x := hx
  rw [hx', Res.bind_ok]
  refine if_pos (List.any_eq_true.2 ⟨9, List.mem_range.2 hn.2, ?_⟩)
  simp [MonState.setMon, hn.1]

/-- Detaching does not leave the monitors of a thread: another thread waits forever. -/
theorem monitor_after_detach : ∃ s, MonHistory [⟨1, true, 0⟩] s ∧ s.heap.envs 1 = none ∧
    s.enter 0 (some 0) = .ok none := by
  obtain ⟨h, -, hr, hp⟩ := reachable_of (ops := [(1, .attach)])
    (p := fun h => h.denote (some 0) == .ok (some 0) && (h.envs 1).isSome &&
      (HeapOp.detach.run h 1).holds fun x : Heap × Out => (x.1.envs 1).isNone && (x.1.envs 0).isSome &&
        x.1.denote (some 0) == .ok (some 0) && (x.1.objs 0).isSome)
    (by decide +kernel)
  simp only [Bool.and_eq_true, beq_iff_eq, Option.isSome_iff_ne_none] at hp
  obtain ⟨⟨h9, he0⟩, hd⟩ := hp
  obtain ⟨x, hx, hn⟩ := Res.holds_iff.1 hd
  simp only [Bool.and_eq_true, beq_iff_eq, Option.isSome_iff_ne_none, Option.isNone_iff_eq_none] at hn
  obtain ⟨⟨⟨hx1, hx0⟩, hxd⟩, hxo⟩ := hn
  have hen : MonState.enter ⟨h, fun _ => none⟩ 1 (some 0) =
      .ok (some (MonState.setMon ⟨h, fun _ => none⟩ 0 (some (1, 1)))) := by
    unfold MonState.enter
    rw [target_eq (s := ⟨h, fun _ => none⟩) h9 he0, Res.bind_ok]
  have hm := MonHistory.enter 1 (some 0) 0 (.start hr) h9 hen
  have hc : (MonState.setMon ⟨h, fun _ => none⟩ 0 (some (1, 1))).call 1 .detach =
      .ok ⟨x.1, fun j => if j = 0 then some (1, 1) else none⟩ := by
    unfold MonState.call
    have hx' : HeapOp.detach.run (MonState.setMon ⟨h, fun _ => none⟩ 0 (some (1, 1))).heap 1 = .ok x := hx
    rw [hx', Res.bind_ok]
    refine if_neg fun hany => ?_
    obtain ⟨j, -, hj⟩ := List.any_eq_true.1 hany
    simp only [MonState.setMon, Bool.and_eq_true, Option.isNone_iff_eq_none] at hj
    by_cases h0 : j = 0
    · exact hxo (h0 ▸ hj.2)
    · rw [if_neg h0] at hj; cases hj.1
  have hm2 := MonHistory.call 1 .detach hm hc
  exact ⟨_, hm2, hx1, (monitor_enter hm2 (t := 0) (r := some 0) hxd hx0).2 ⟨1, by decide, by decide⟩⟩

end Jnivm
