import Verif.Lemmas.LocalFrame
/-!
C65: `LocalFrame` gives a thread back the frames and the attachment it had, also if a C++ exception leaves
the scope.
-/
namespace Jnivm
open Spec

/-! ## What the scope leaves behind -/

/-- After a scope, however deeply nested and however it was left, the thread is attached if and only if it was
before, it has as many frames as before, and every frame holds what it held, except for references that were
deleted inside.  If none was deleted, the frames are the same. -/
theorem frame_restores {h h' : Heap} (hr : HeapReachable h) {t : Nat} {vm : Bool} {body : List FrameStmt}
    {x : Option Exn} (hs : AllCalls (Structured t) body) (hx : (FrameStmt.frame vm body).run t h = .ok (h', x)) :
    Restored t h h' ∧ (AllCalls (NoDelete t) body → RestoredAll t h h') := by
  rw [FrameStmt.run] at hx
  split at hx
  · rename_i h1 made hent
    obtain ⟨⟨h2, y⟩, hx1, hx2⟩ := Res.bind_eq_ok.1 hx
    obtain ⟨h3, hx3, hx4⟩ := Res.bind_eq_ok.1 hx2
    injection hx4 with hx4; injection hx4 with hx4 _; subst hx4
    obtain ⟨hr1, hc⟩ := enterFrame_cases hr hent
    obtain ⟨hr2, hev, hall⟩ := frames_evolve hr1 body hs hx1
    rcases hc with ⟨e, e1, he, rfl, he1, hid1, hf1⟩ | ⟨he, rfl, e1, he1, hf1⟩
    · obtain ⟨e2, l, m, he2, hid2, ht, hf2⟩ := hev e1 he1
      obtain ⟨h4, hx4, hr4, _, hl⟩ := leave_ok hr2 he2 false
      rw [hx3] at hx4; injection hx4 with hx4; subst hx4
      obtain ⟨e3, he3, hid3, hf3⟩ := hl rfl
      have hne := frames_nonempty hr he
      unfold Restored RestoredAll
      rw [he]
      refine ⟨⟨e3, he3, hid3.trans (hid2.trans hid1), ?_⟩, fun hn => ?_⟩
      · rw [hf1] at ht
        rw [hf3, hf2, dropFront_addFront]
        exact thin_drop ht hne
      · obtain ⟨e2', l', he2', _, hf2'⟩ := hall hn e1 he1
        rw [he2] at he2'; injection he2' with he2'; subst he2'
        exact ⟨e3, he3, hid3.trans (hid2.trans hid1),
          by rw [hf3, hf2', dropFront_addFront, hf1, Heap.dropFront_one hne]⟩
    · obtain ⟨e2, l, m, he2, _⟩ := hev e1 he1
      obtain ⟨h4, hx4, hr4, hl, _⟩ := leave_ok hr2 he2 true
      rw [hx3] at hx4; injection hx4 with hx4; subst hx4
      unfold Restored RestoredAll
      rw [he]
      exact ⟨hl rfl, fun _ => hl rfl⟩
  · injection hx with hx; injection hx with hx1 _; subst hx1
    unfold Restored RestoredAll
    cases he : h.envs t with
    | none => exact ⟨rfl, fun _ => rfl⟩
    | some e => exact ⟨⟨e, rfl, rfl, .refl _⟩, fun _ => ⟨e, rfl, rfl, rfl⟩⟩
  · exact nomatch hx
  · exact nomatch hx

/-- Nested scopes: the inner one makes a reference, deletes one of the outer scope and throws while another
thread attaches itself and pushes a frame; the exception is caught, and a call that throws leaves the outer
scope. -/
def frameProgram (deletes : Bool) : List FrameStmt :=
  [.call 0 (.newObject none),
    .attempt [.frame true [.call 0 (.newLocalRef (some 9)), .call 1 .attach, .call 1 .pushLocalFrame,
      if deletes then .call 0 (.deleteLocalRef (some 9)) else .call 0 (.newObject none), .raise .runtimeError,
      .call 0 (.newObject none)]],
    .call 0 (.setObjectArrayElement (some 9) 0 none), .call 0 (.newObject none)]

/-- On an attached thread. -/
example : ∃ h h', HeapReachable h ∧ (h.envs 0).isSome ∧ AllCalls (Structured 0) (frameProgram false) ∧
    AllCalls (NoDelete 0) (frameProgram false) ∧
    (FrameStmt.frame true (frameProgram false)).run 0 h = .ok (h', some .badCast) := by
  obtain ⟨h, _, hr, hp⟩ := reachable_of (ops := [(0, .newObject none)])
    (p := fun h => (h.envs 0).isSome &&
      ((FrameStmt.frame true (frameProgram false)).run 0 h).holds fun y => y.2 == some .badCast)
    (by decide +kernel)
  simp only [Bool.and_eq_true, beq_iff_eq, Res.holds_iff] at hp
  obtain ⟨he, ⟨h', x⟩, hx, rfl⟩ := hp
  exact ⟨h, h', hr, he, by simp [frameProgram, AllCalls, CallsIn, Structured],
    by simp [frameProgram, AllCalls, CallsIn, NoDelete], hx⟩

/-- On a thread that is not attached. -/
example : ∃ h h', HeapReachable h ∧ h.envs 2 = none ∧
    AllCalls (Structured 2) [.call 2 (.newObject none), .frame false [.call 2 (.newObject none), .raise .badCast]] ∧
    (FrameStmt.frame true [.call 2 (.newObject none),
      .frame false [.call 2 (.newObject none), .raise .badCast]]).run 2 h = .ok (h', some .badCast) := by
  obtain ⟨h, _, hr, hp⟩ := reachable_of (ops := [(0, .newObject none)])
    (p := fun h => (h.envs 2).isNone && ((FrameStmt.frame true [.call 2 (.newObject none),
      .frame false [.call 2 (.newObject none), .raise .badCast]]).run 2 h).holds fun y => y.2 == some .badCast)
    (by decide +kernel)
  simp only [Bool.and_eq_true, beq_iff_eq, Res.holds_iff, Option.isNone_iff_eq_none] at hp
  obtain ⟨he, ⟨h', x⟩, hx, rfl⟩ := hp
  exact ⟨h, h', hr, he, by simp [AllCalls, CallsIn, Structured], hx⟩

/-- No local reference of the thread is left that was not there before. -/
theorem frame_locals {h h' : Heap} (hr : HeapReachable h) {t : Nat} {vm : Bool} {body : List FrameStmt}
    {x : Option Exn} (hs : AllCalls (Structured t) body) (hx : (FrameStmt.frame vm body).run t h = .ok (h', x))
    {i : Nat} (hi : HasLocal h' t i) : HasLocal h t i := by
  have hre := (frame_restores hr hs hx).1
  obtain ⟨e', he', hi⟩ := hi
  unfold Restored at hre
  cases he : h.envs t with
  | none => rw [he] at hre; rw [hre] at he'; exact nomatch he'
  | some e =>
    rw [he] at hre
    obtain ⟨e2, he2, _, ht⟩ := hre
    rw [he'] at he2; injection he2 with he2; subst he2
    exact ⟨e, he, ht.mem hi⟩

example : ∃ h h', HeapReachable h ∧ AllCalls (Structured 0) (frameProgram true) ∧
    (FrameStmt.frame true (frameProgram true)).run 0 h = .ok (h', some .badCast) ∧ HasLocal h' 0 10 := by
  obtain ⟨h, _, hr, hp⟩ := reachable_of (ops := [(0, .newObject none), (0, .newObject none)])
    (p := fun h => ((FrameStmt.frame true (frameProgram true)).run 0 h).holds fun y =>
      y.2 == some .badCast && (y.1.envs 0).any fun e => e.frames == [[9, 10]])
    (by decide +kernel)
  simp only [Bool.and_eq_true, beq_iff_eq, Res.holds_iff] at hp
  obtain ⟨⟨h', x⟩, hx, rfl, he⟩ := hp
  obtain ⟨e, he, hf⟩ := Option.any_eq_true _ _ |>.1 he
  simp only [beq_iff_eq] at hf
  exact ⟨h, h', hr, by simp [frameProgram, AllCalls, CallsIn, Structured], hx, e, he, by simp [hf]⟩

/-! ## The scope always ends -/

/-- The constructor returns on every attached thread, and on every thread if it was given the VM; whatever
happens inside, the destructors return, and the exception that left the body leaves the scope. -/
theorem frame_ends {h : Heap} (hr : HeapReachable h) {t : Nat} {vm : Bool} {body : List FrameStmt}
    (hs : AllCalls (Structured t) body) (hv : h.envs t ≠ none ∨ vm = true) :
    ∃ h1 made, h.enterFrame t vm = .ok (h1, made) ∧ HeapReachable h1 ∧ (h1.envs t).isSome ∧
      ∀ h2 x, runFrames t h1 body = .ok (h2, x) →
        ∃ h3, (FrameStmt.frame vm body).run t h = .ok (h3, x) ∧ HeapReachable h3 := by
  have key : ∃ h1 made e1, h.enterFrame t vm = .ok (h1, made) ∧ HeapReachable h1 ∧ h1.envs t = some e1 := by
    cases he : h.envs t with
    | some e =>
      obtain ⟨h1, e1, hx, hr1, he1, _⟩ := enter_attached hr he vm
      exact ⟨h1, _, e1, hx, hr1, he1⟩
    | none =>
      rcases hv with hv | rfl
      · exact absurd he hv
      · obtain ⟨h1, e1, hx, hr1, he1, _⟩ := enter_detached hr he
        exact ⟨h1, _, e1, hx, hr1, he1⟩
  obtain ⟨h1, made, e1, hx, hr1, he1⟩ := key
  refine ⟨h1, made, hx, hr1, by simp [he1], fun h2 x hx2 => ?_⟩
  obtain ⟨hr2, hev, _⟩ := frames_evolve hr1 body hs hx2
  obtain ⟨e2, _, _, he2, _⟩ := hev e1 he1
  obtain ⟨h3, hx3, hr3, _⟩ := leave_ok hr2 he2 made
  exact ⟨h3, by rw [FrameStmt.run, hx]; simp only [hx2, Res.bind_ok, hx3], hr3⟩

/-- The body of `frame_ends` on a thread that is not attached. -/
example : ∃ h h1 h2, HeapReachable h ∧ h.envs 2 = none ∧ h.enterFrame 2 true = .ok (h1, true) ∧
    AllCalls (Structured 2) [.call 2 (.newObject none), .raise .badCast] ∧
    runFrames 2 h1 [.call 2 (.newObject none), .raise .badCast] = .ok (h2, some .badCast) := by
  obtain ⟨h, _, hr, hp⟩ := reachable_of (ops := [(0, .newObject none)])
    (p := fun h => (h.envs 2).isNone && (h.enterFrame 2 true).holds fun y => y.2 == true &&
      (runFrames 2 y.1 [.call 2 (.newObject none), .raise .badCast]).holds fun z => z.2 == some .badCast)
    (by decide +kernel)
  simp only [Bool.and_eq_true, beq_iff_eq, Res.holds_iff, Option.isNone_iff_eq_none] at hp
  obtain ⟨he, ⟨h1, m⟩, hx, rfl, ⟨h2, x⟩, hx2, rfl⟩ := hp
  exact ⟨h, h1, h2, hr, he, hx, by simp [AllCalls, CallsIn, Structured], hx2⟩

/-- No destructor throws, in any program: the process is never terminated for an exception while frames are
left. -/
theorem frame_no_terminate (t : Nat) (h : Heap) (l : List FrameStmt) (e : Exn) :
    runFrames t h l ≠ .throws e := frames_no_throw t h l e

/-- The exceptions in a program are those of the thread's own calls and of `throw`: a call of another thread that
throws changes nothing for the program, a call of its own that throws leaves the statement and changes nothing. -/
theorem frame_exceptions (t : Nat) (h : Heap) (u : Nat) (op : HeapOp) (e : Exn) (hx : op.run h u = .throws e) :
    (FrameStmt.call u op).run t h = .ok (h, if u = t then some e else none) ∧
    (u = t → ∀ rest, runFrames t h (.call u op :: rest) = .ok (h, some e)) ∧
    (u ≠ t → ∀ rest, runFrames t h (.call u op :: rest) = runFrames t h rest) := by
  have key : (FrameStmt.call u op).run t h = .ok (h, if u = t then some e else none) := by
    rw [FrameStmt.run, Heap.callStmt, hx]
  refine ⟨key, fun hu rest => ?_, fun hu rest => ?_⟩
  · rw [runFrames, key, if_pos hu]; rfl
  · rw [runFrames, key, if_neg hu]; rfl

example : ∃ h, HeapReachable h ∧ (HeapOp.setObjectArrayElement (some 9) 0 none).run h 0 = .throws .badCast := by
  obtain ⟨h, _, hr, hp⟩ := reachable_of (ops := [(0, .newObject none)])
    (p := fun h => match (HeapOp.setObjectArrayElement (some 9) 0 none).run h 0 with
      | .throws e => e == .badCast | _ => false)
    (by decide +kernel)
  refine ⟨h, hr, ?_⟩
  split at hp
  · rename_i e he; rw [he]; simp only [beq_iff_eq] at hp; rw [hp]
  · exact nomatch hp

/-- `LocalFrame` without the VM throws on a thread that is not attached, and nothing of the body is run. -/
theorem frame_no_env {h : Heap} {t : Nat} (he : h.envs t = none) (body : List FrameStmt) :
    (FrameStmt.frame false body).run t h = .ok (h, some .runtimeError) := by
  rw [FrameStmt.run, Heap.enterFrame, he]; rfl

example : Heap.initial.envs 1 = none := rfl

/-- Other threads keep their frames and attachments unless they make calls themselves. -/
theorem frame_others {h h' : Heap} (hr : HeapReachable h) {t u : Nat} (hu : u ≠ t) {l : List FrameStmt}
    {x : Option Exn} (hc : AllCalls (fun v _ => v ≠ u) l) (hx : runFrames t h l = .ok (h', x)) :
    h'.envs u = h.envs u := (frames_others hu hr l hc hx).2

example : ∃ h h', HeapReachable h ∧ AllCalls (fun v _ => v ≠ 2) (frameProgram true) ∧
    runFrames 0 h (frameProgram true) = .ok (h', some .badCast) ∧ (h.envs 2).isSome := by
  obtain ⟨h, _, hr, hp⟩ := reachable_of (ops := [(0, .newObject none), (2, .attach)])
    (p := fun h => (runFrames 0 h (frameProgram true)).holds (fun y => y.2 == some .badCast) && (h.envs 2).isSome)
    (by decide +kernel)
  simp only [Bool.and_eq_true, beq_iff_eq, Res.holds_iff] at hp
  obtain ⟨⟨⟨h', x⟩, hx, rfl⟩, he⟩ := hp
  exact ⟨h, h', hr, by simp [frameProgram, AllCalls, CallsIn], hx, he⟩

/-! ## What goes wrong -/

/-- A frame that is popped by hand inside a scope: the destructor pops one of the frames outside, and the
objects that were referenced there are gone. -/
theorem frame_pop_inside : ¬ ∀ (h h' : Heap) (t : Nat) (vm : Bool) (body : List FrameStmt) (x : Option Exn),
    HeapReachable h → (FrameStmt.frame vm body).run t h = .ok (h', x) → Restored t h h' := by
  intro hall
  obtain ⟨h, _, hr, hp⟩ := reachable_of (ops := [(0, .newObject none), (0, .pushLocalFrame), (0, .newObject none)])
    (p := fun h => (h.envs 0).any (fun e => e.frames == [[10], [9]]) &&
      ((FrameStmt.frame true [.call 0 (.popLocalFrame none)]).run 0 h).holds fun y =>
        (y.1.objs 10).isNone && (y.1.envs 0).any fun e => e.frames == [[9]])
    (by decide +kernel)
  simp only [Bool.and_eq_true, Res.holds_iff] at hp
  obtain ⟨he, ⟨h', x⟩, hx, _, he'⟩ := hp
  obtain ⟨e, he, hf⟩ := Option.any_eq_true _ _ |>.1 he
  obtain ⟨e', he', hf'⟩ := Option.any_eq_true _ _ |>.1 he'
  simp only [beq_iff_eq] at hf hf'
  have hre := hall h h' 0 true _ x hr hx
  unfold Restored at hre
  rw [he] at hre
  obtain ⟨e2, he2, _, ht⟩ := hre
  rw [he'] at he2; injection he2 with he2; subst he2
  rw [hf, hf'] at ht
  cases ht with | cons _ ht => cases ht

/-- A `LocalFrame` that is copied, which its implicit copy constructor allows, pops twice: the thread loses the
innermost of the frames it had before. -/
theorem frame_copied {h : Heap} (hr : HeapReachable h) {t : Nat} {e : Env} {f g : List Nat}
    {fs : List (List Nat)} (he : h.envs t = some e) (hf : e.frames = f :: g :: fs) (vm : Bool) :
    ∃ h1 h2 h3 e3, h.enterFrame t vm = .ok (h1, false) ∧ h1.leaveFrame t false = .ok h2 ∧
      h2.leaveFrame t false = .ok h3 ∧ h3.envs t = some e3 ∧ e3.frames = g :: fs := by
  obtain ⟨h1, e1, hx1, hr1, he1, _, hf1⟩ := enter_attached hr he vm
  obtain ⟨h2, hx2, hr2, _, hl2⟩ := leave_ok hr1 he1 false
  obtain ⟨e2, he2, _, hf2⟩ := hl2 rfl
  obtain ⟨h3, hx3, hr3, _, hl3⟩ := leave_ok hr2 he2 false
  obtain ⟨e3, he3, _, hf3⟩ := hl3 rfl
  exact ⟨h1, h2, h3, e3, hx1, hx2, hx3, he3, by rw [hf3, hf2, hf1, hf]; rfl⟩

example : ∃ h e, HeapReachable h ∧ h.envs 0 = some e ∧ e.frames = [10] :: [9] :: [] := by
  obtain ⟨h, _, hr, hp⟩ := reachable_of (ops := [(0, .newObject none), (0, .pushLocalFrame), (0, .newObject none)])
    (p := fun h => (h.envs 0).any (fun e => e.frames == [[10], [9]])) (by decide +kernel)
  obtain ⟨e, he, hf⟩ := Option.any_eq_true _ _ |>.1 hp
  simp only [beq_iff_eq] at hf
  exact ⟨h, e, hr, he, hf⟩

end Jnivm
