import Verif.Lemmas.FrameSize
import Verif.Props.LocalFrame
/-!
C68: the sizes given for frames of local references change nothing as long as memory can be had; a size that is
negative or too large leaves a frame behind.
-/
namespace Jnivm
open Spec
open Heap hiding Live

/-! ## Sizes that fit -/

/-- A program whose sizes can all be reserved does what it does without sizes. -/
theorem sized_fits_partial {m : Memory} (t : Nat) (h : Heap) (l : List SizedStmt)
    (hs : sizesAll (fun n => (m.reserveNew n).isSome) l = 0) : runSized m t h l = runFrames t h (eraseAll l) :=
  sized_list_fits t h l hs

/-- A platform with 64 bits and room for a million references. -/
def bigMemory : Memory := ⟨true, fun n => n ≤ 1000000⟩

/-- `{ LocalFrame f(vm, 16); env->NewObject(..); try { LocalFrame g(n); env->NewObject(..); } catch(...) {} }` -/
def sizedProgram (n : BitVec 32) : SizedStmt :=
  .frame true 16 [.call 0 (.newObject none), .attempt [.frame false n [.call 0 (.newObject none)]]]

example : sizesAll (fun n => (bigMemory.reserveNew n).isSome) [sizedProgram 1000000, sizedProgram 0] = 0 ∧
    eraseAll [sizedProgram 1000000] =
      [.frame true [.call 0 (.newObject none), .attempt [.frame false [.call 0 (.newObject none)]]]] := by
  refine ⟨by decide, rfl⟩

/-- Zero is always accepted by the constructors, whatever memory there is. -/
theorem sized_zero (m : Memory) (h : Heap) (t : Nat) (vm : Bool) :
    h.enterSized m t vm 0 = match h.enterFrame t vm with
      | .ok (h, made) => .ok (h, .ok made)
      | .throws e => .ok (h, .error e)
      | .ub x => .ub x
      | .diverges => .diverges := enterSized_fits rfl h t vm

/-- After such a scope the thread has its frames and its attachment again. -/
theorem sized_restores_partial {m : Memory} {h h' : Heap} (hr : HeapReachable h) {t : Nat} {vm : Bool}
    {n : BitVec 32} {body : List SizedStmt} {x : Option Exn}
    (hs : AllCalls (Structured t) (eraseAll body))
    (hf : sizesIn (fun n => (m.reserveNew n).isSome) (.frame vm n body) = 0)
    (hx : (SizedStmt.frame vm n body).run m t h = .ok (h', x)) :
    Restored t h h' ∧ (AllCalls (NoDelete t) (eraseAll body) → RestoredAll t h h') := by
  rw [sized_stmt_fits t h _ hf] at hx
  exact frame_restores hr hs hx

example : ∃ h h', HeapReachable h ∧ (sizedProgram 5).run bigMemory 0 h = .ok (h', none) ∧
    sizesIn (fun n => (bigMemory.reserveNew n).isSome) (sizedProgram 5) = 0 := by
  obtain ⟨h, _, hr, hp⟩ := reachable_of (ops := [(0, .newObject none)])
    (p := fun h => ((sizedProgram 5).run bigMemory 0 h).holds fun y => y.2 == none)
    (by decide +kernel)
  simp only [beq_iff_eq, Res.holds_iff] at hp
  obtain ⟨⟨h', x⟩, hx, rfl⟩ := hp
  exact ⟨h, h', hr, hx, by decide⟩

/-! ## Sizes that do not fit -/

/-- Negative sizes never fit: they become sizes above the limit of the container, on every platform. -/
theorem negative_size (m : Memory) {n : BitVec 32} (hn : n.toInt < 0) :
    m.reserveNew n = some .lengthError ∧ m.reserve n = some .lengthError :=
  ⟨m.reserveNew_negative hn, m.reserve_negative hn⟩

example : (-1 : BitVec 32).toInt < 0 ∧ (0x80000000 : BitVec 32).toInt < 0 := by decide

/-- Other sizes fit if and only if they are within the limit and the allocator has the memory; with 64 bits no
`jint` is above the limit. -/
theorem positive_size (m : Memory) {n : BitVec 32} (hn : 0 ≤ n.toInt) :
    (m.reserve n = none ↔ n.toNat ≤ m.maxSize ∧ m.room n.toNat = true) ∧
    (m.wide = true → n.toNat ≤ m.maxSize) := by
  have hm : n.msb = false := by rw [BitVec.msb_eq_toInt]; simpa using hn
  have hlt : n.toNat < 2 ^ 31 := by
    rw [BitVec.msb_eq_decide] at hm
    simpa using hm
  have hs : m.toSize n = n.toNat := by
    obtain ⟨w, room⟩ := m
    cases w with
    | true =>
      rw [Memory.toSize, show Memory.bits ⟨true, room⟩ = 64 from rfl, BitVec.toNat_signExtend, hm,
        BitVec.toNat_setWidth]
      simp only [Bool.false_eq_true, if_false]
      omega
    | false => rw [Memory.toSize, show Memory.bits ⟨false, room⟩ = 32 from rfl, BitVec.signExtend_eq]
  refine ⟨?_, fun hw => ?_⟩
  · rw [Memory.reserve, hs]
    by_cases hle : n.toNat > m.maxSize
    · rw [if_pos hle]
      exact ⟨fun h => (nomatch h), fun h => absurd h.1 (by omega)⟩
    · rw [if_neg hle]
      by_cases hroom : m.room n.toNat = true
      · rw [if_pos hroom]; exact ⟨fun _ => ⟨by omega, hroom⟩, fun _ => rfl⟩
      · rw [if_neg hroom]; exact ⟨fun h => (nomatch h), fun h => absurd h.2 hroom⟩
  · have : m.maxSize = 576460752303423487 := by
      rw [Memory.maxSize, Memory.bits, hw]; rfl
    omega

example : bigMemory.reserve 1000000 = none ∧ bigMemory.reserve 1000001 = some .badAlloc ∧
    (⟨false, fun _ => true⟩ : Memory).reserve 268435455 = none ∧
    (⟨false, fun _ => true⟩ : Memory).reserve 268435456 = some .lengthError := by decide

/-- The constructor throws.  On an attached thread the frame that it pushed remains, as no destructor pops it;
a thread that it attached is detached again. -/
theorem sized_throws {m : Memory} {h : Heap} (hr : HeapReachable h) {t : Nat} {vm : Bool} {n : BitVec 32}
    {e : Exn} (hn : m.reserveNew n = some e) (hv : h.envs t ≠ none ∨ vm = true) (body : List SizedStmt) :
    ∃ h', (SizedStmt.frame vm n body).run m t h = .ok (h', some e) ∧ HeapReachable h' ∧
      (h.envs t = none → h'.envs t = none) ∧
      ∀ e0, h.envs t = some e0 → ∃ e1, h'.envs t = some e1 ∧ e1.eid = e0.eid ∧ e1.frames = [] :: e0.frames := by
  obtain ⟨h1, hx1, hr1, hrest⟩ := enterSized_throws (m := m) hr hn hv
  exact ⟨h1, by rw [SizedStmt.run, hx1]; rfl, hr1, hrest⟩

example : bigMemory.reserveNew (-1) = some .lengthError ∧ bigMemory.reserveNew 2000000 = some .badAlloc ∧
    ∃ h, HeapReachable h ∧ h.envs 0 ≠ none ∧ h.envs 1 = none := by
  refine ⟨by decide, by decide, Heap.initial, ⟨[], rfl⟩, fun h => (nomatch h), rfl⟩

/-- So the sizes matter: a scope does not in general give back what it got. -/
theorem sized_not_restored : ¬ ∀ (m : Memory) (h h' : Heap) (t : Nat) (vm : Bool) (n : BitVec 32)
    (body : List SizedStmt) (x : Option Exn), HeapReachable h → AllCalls (Structured t) (eraseAll body) →
    (SizedStmt.frame vm n body).run m t h = .ok (h', x) → Restored t h h' := by
  intro hall
  obtain ⟨h', hx, _, _, hs⟩ := sized_throws (m := bigMemory) (h := Heap.initial) (t := 0) (vm := true) (n := -1)
    ⟨[], rfl⟩ (by decide : bigMemory.reserveNew (-1) = some .lengthError) (.inr rfl) []
  have hre := hall bigMemory Heap.initial h' 0 true (-1) [] _ ⟨[], rfl⟩ trivial hx
  obtain ⟨e, he⟩ : ∃ e, Heap.initial.envs 0 = some e := ⟨_, rfl⟩
  obtain ⟨e1, he1, _, hf⟩ := hs e he
  unfold Restored at hre
  rw [he] at hre
  obtain ⟨e2, he2, _, ht⟩ := hre
  rw [he1] at he2; injection he2 with he2; subst he2
  have hl := thinned_length ht
  rw [hf] at hl
  simp at hl

/-- If an exception from an inner constructor is caught inside an outer scope, the destructor of the outer scope
pops the frame that the inner one left, and the references that were made in the outer scope remain. -/
theorem sized_keeps_locals : ¬ ∀ (m : Memory) (h h' : Heap) (n : BitVec 32) (x : Option Exn) (i : Nat),
    HeapReachable h → (sizedProgram n).run m 0 h = .ok (h', x) → HasLocal h' 0 i → HasLocal h 0 i := by
  intro hall
  obtain ⟨h, _, hr, hp⟩ := reachable_of (ops := [(0, .newObject none)])
    (p := fun h => (h.envs 0).any (fun e => e.frames == [[9]]) &&
      ((sizedProgram (-1)).run bigMemory 0 h).holds fun y => (y.1.envs 0).any fun e => e.frames == [[10], [9]])
    (by decide +kernel)
  simp only [Bool.and_eq_true, Res.holds_iff] at hp
  obtain ⟨he, ⟨h', x⟩, hx, he'⟩ := hp
  obtain ⟨e, he, hf⟩ := Option.any_eq_true _ _ |>.1 he
  obtain ⟨e', he', hf'⟩ := Option.any_eq_true _ _ |>.1 he'
  simp only [beq_iff_eq] at hf hf'
  obtain ⟨e2, he2, hm⟩ := hall bigMemory h h' (-1) x 10 hr hx ⟨e', he', by simp [hf']⟩
  rw [he] at he2; injection he2 with he2; subst he2
  simp [hf] at hm

/-- Nothing worse happens in any program: no frame of the thread is lost, and at most one is left for every
scope with a size that does not fit; a thread that was not attached is not attached after a scope. -/
theorem sized_depth {m : Memory} {h h' : Heap} (hr : HeapReachable h) {t : Nat} {vm : Bool} {n : BitVec 32}
    {body : List SizedStmt} {x : Option Exn} (hs : AllCalls (Structured t) (eraseAll body))
    (hx : (SizedStmt.frame vm n body).run m t h = .ok (h', x)) :
    HeapReachable h' ∧ (h.envs t = none → h'.envs t = none) ∧
    ∀ e, h.envs t = some e → ∃ e', h'.envs t = some e' ∧ e'.eid = e.eid ∧ e.frames.length ≤ e'.frames.length ∧
      e'.frames.length ≤ e.frames.length +
        sizesIn (fun n => (m.reserveNew n).isSome) (.frame vm n body) := by
  obtain ⟨hr', hd, hn⟩ := sized_stmt_deeper hr (.frame vm n body) hs hx
  exact ⟨hr', fun h => hn h _ _ _ rfl, hd⟩

/-- The bound is reached. -/
example : ∃ h h' e e', HeapReachable h ∧ (sizedProgram (-1)).run bigMemory 0 h = .ok (h', none) ∧
    h.envs 0 = some e ∧ h'.envs 0 = some e' ∧ e'.frames.length = e.frames.length + 1 ∧
    sizesIn (fun n => (bigMemory.reserveNew n).isSome) (sizedProgram (-1)) = 1 := by
  obtain ⟨h, _, hr, hp⟩ := reachable_of (ops := [(0, .newObject none)])
    (p := fun h => (h.envs 0).any (fun e => e.frames == [[9]]) &&
      ((sizedProgram (-1)).run bigMemory 0 h).holds fun y => y.2 == none &&
        (y.1.envs 0).any fun e => e.frames == [[10], [9]])
    (by decide +kernel)
  simp only [Bool.and_eq_true, Res.holds_iff, beq_iff_eq] at hp
  obtain ⟨he, ⟨h', x⟩, hx, rfl, he'⟩ := hp
  obtain ⟨e, he, hf⟩ := Option.any_eq_true _ _ |>.1 he
  obtain ⟨e', he', hf'⟩ := Option.any_eq_true _ _ |>.1 he'
  simp only [beq_iff_eq] at hf hf'
  exact ⟨h, h', e, e', hr, hx, he, he', by rw [hf, hf']; rfl, by decide⟩

/-! ## The calls of the interface -/

/-- `PushLocalFrame` and `EnsureLocalCapacity` keep their contract for sizes that fit. -/
theorem room_contract_partial {m : Memory} {h : Heap} (hr : HeapReachable h) {t : Nat} {e : Env}
    (he : h.envs t = some e) {n : BitVec 32} :
    (m.reserveNew n = none → ∃ h', HeapOp.pushLocalFrame.run h t = .ok (h', .unit) ∧
      h.pushLocalFrameSized m t n = .ok (h', .ok 0) ∧ RoomContract t h h' h' (.ok 0)) ∧
    (m.reserve n = none → h.ensureLocalCapacity m t n = .ok (h, .ok 0) ∧ RoomContract t h h h (.ok 0)) := by
  refine ⟨fun hn => ?_, fun hn => ?_⟩
  · obtain ⟨h1, hrun⟩ : ∃ h1, HeapOp.pushLocalFrame.run h t = .ok (h1, .unit) := by
      rw [HeapOp.run, exec_of_body he, HeapOp.body, Heap.pushLocalFrame, Heap.env, he]
      cases hf : e.free <;> simp only [Res.bind_ok, hf, outUnit] <;> exact ⟨_, rfl⟩
    exact ⟨h1, hrun, by rw [Heap.pushLocalFrameSized, hrun]; simp only [Res.bind_ok, hn], .inl ⟨rfl, rfl⟩⟩
  · obtain ⟨f, fs, hf⟩ := List.exists_cons_of_ne_nil (frames_nonempty hr he)
    exact ⟨by rw [Heap.ensureLocalCapacity, Heap.env, he]; simp only [Res.bind_ok, hf, hn], .inl ⟨rfl, rfl⟩⟩

example : bigMemory.reserveNew 16 = none ∧ bigMemory.reserve 16 = none ∧ bigMemory.reserve 0 = none := by decide

/-- For the others both throw a C++ exception at the caller instead of returning; `PushLocalFrame` has pushed the
frame all the same, `EnsureLocalCapacity` has done nothing. -/
theorem room_throws {m : Memory} {h : Heap} (hr : HeapReachable h) {t : Nat} {e : Env}
    (he : h.envs t = some e) {n : BitVec 32} {x : Exn} :
    (m.reserveNew n = some x → ∃ h' e', h.pushLocalFrameSized m t n = .ok (h', .error x) ∧
      h'.envs t = some e' ∧ e'.frames = [] :: e.frames) ∧
    (m.reserve n = some x → h.ensureLocalCapacity m t n = .ok (h, .error x)) := by
  refine ⟨fun hn => ?_, fun hn => ?_⟩
  · obtain ⟨h1, hrun⟩ : ∃ h1, HeapOp.pushLocalFrame.run h t = .ok (h1, .unit) := by
      rw [HeapOp.run, exec_of_body he, HeapOp.body, Heap.pushLocalFrame, Heap.env, he]
      cases hf : e.free <;> simp only [Res.bind_ok, hf, outUnit] <;> exact ⟨_, rfl⟩
    exact ⟨h1, _, by rw [Heap.pushLocalFrameSized, hrun]; simp only [Res.bind_ok, hn], push_fresh hr he hrun, rfl⟩
  · obtain ⟨f, fs, hf⟩ := List.exists_cons_of_ne_nil (frames_nonempty hr he)
    rw [Heap.ensureLocalCapacity, Heap.env, he]; simp only [Res.bind_ok, hf, hn]

/-- So both break the contract for negative sizes. -/
theorem room_not_contract :
    (¬ ∀ (m : Memory) (h done h' : Heap) (t : Nat) (n : BitVec 32) (r : Except Exn (BitVec 32)), HeapReachable h →
      HeapOp.pushLocalFrame.run h t = .ok (done, .unit) → h.pushLocalFrameSized m t n = .ok (h', r) →
      RoomContract t h done h' r) ∧
    (¬ ∀ (m : Memory) (h h' : Heap) (t : Nat) (n : BitVec 32) (r : Except Exn (BitVec 32)), HeapReachable h →
      h.ensureLocalCapacity m t n = .ok (h', r) → RoomContract t h h h' r) := by
  obtain ⟨e, he⟩ : ∃ e, Heap.initial.envs 0 = some e := ⟨_, rfl⟩
  have hr : HeapReachable Heap.initial := ⟨[], rfl⟩
  have hneg : (-1 : BitVec 32).toInt < 0 := by decide
  constructor
  · intro hall
    obtain ⟨done, hrun, _⟩ := (room_contract_partial (m := bigMemory) (n := 0) hr he).1 rfl
    obtain ⟨h', _, hx, _⟩ := (room_throws (m := bigMemory) hr he).1 (negative_size bigMemory hneg).1
    rcases hall _ _ _ _ _ _ _ hr hrun hx with ⟨h, _⟩ | ⟨_, _, _, h, _⟩ <;> exact nomatch h
  · intro hall
    have hx := (room_throws (m := bigMemory) hr he).2 (negative_size bigMemory hneg).2
    rcases hall _ _ _ _ _ _ hr hx with ⟨h, _⟩ | ⟨_, _, _, h, _⟩ <;> exact nomatch h

end Jnivm
