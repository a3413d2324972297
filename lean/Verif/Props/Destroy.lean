import Verif.Lemmas.Destroy
import Verif.Props.Refs
/-!
C67: what the end of a VM releases.
-/
namespace Jnivm
open Spec

/-- C29, for all states: exactly the objects are alive that can be reached from a local or global reference, a
pending exception or the tables of the VM, or that an object owns that owns itself. -/
theorem live_exact {h : Heap} (hr : HeapReachable h) (i : Nat) : Live h i ↔ Reachable h i ∨ Stuck h i := by
  have hi := hr.inv
  have e : h.collect = h := Heap.collect_of_allHeld hi.held
  have := Heap.collect_exact hi.bound hi.toPre.roots hi.toPre.edges i
  rw [e] at this
  refine this.trans (or_congr ?_ Iff.rfl)
  constructor
  · rintro ⟨r, hr', rfl | hp⟩
    · exact .root ((root_iff hi.toPre).2 hr')
    · have h0 : Reachable h r := .root ((root_iff hi.toPre).2 hr')
      clear hr' this
      induction hp with
      | one h1 => exact .owned h0 h1
      | cons h1 _ ih => exact ih (.owned h0 h1)
  · intro hx
    clear this
    induction hx with
    | root h1 => exact ⟨_, (root_iff hi.toPre).1 h1, .inl rfl⟩
    | owned _ h1 ih =>
      obtain ⟨r, hr', hf⟩ := ih
      exact ⟨r, hr', Heap.from_trans hf (.inr (.one h1))⟩

/-- The array 10 contains itself and the object 11, nobody has references to them. -/
example : ∃ h, HeapReachable h ∧ Live h 11 ∧ Stuck h 11 ∧ ¬ Root h 11 := by
  obtain ⟨h, _, hr, hp⟩ := reachable_of
    (ops := [(0, .newObjectArray 2 "[Ljava/lang/Object;".toList none), (0, .newObject none),
      (0, .setObjectArrayElement (some 10) 0 (some 10)), (0, .setObjectArrayElement (some 10) 1 (some 11)),
      (0, .deleteLocalRef (some 10)), (0, .deleteLocalRef (some 11))])
    (p := fun h => (h.objs 11).isSome && !h.roots.contains 11 &&
      (h.objs 10).any fun o => o.kind == .array [some 10, some 11]) (by decide +kernel)
  simp only [Bool.and_eq_true, Bool.not_eq_true', Option.any_eq_true, beq_iff_eq] at hp
  obtain ⟨⟨h11, hroot⟩, o, ho, hk⟩ := hp
  have o1 : Owns h 10 10 := ⟨o, ho, .inr (.inl ⟨_, hk, by simp⟩)⟩
  have o2 : Owns h 10 11 := ⟨o, ho, .inr (.inl ⟨_, hk, by simp⟩)⟩
  refine ⟨h, hr, Option.isSome_iff_exists.1 h11, ⟨10, .one o1, .inr (.one o2)⟩, fun h1 => ?_⟩
  rw [List.contains_iff_mem.2 ((root_iff hr.inv.toPre).1 h1)] at hroot
  exact nomatch hroot

/-- When the VM is destroyed, exactly those objects stay that C++ code keeps, or that are owned by one of these or
by an object that owns itself. -/
theorem destroy_exact {h : Heap} (hr : HeapReachable h) {kept : List Nat} (hk : ∀ k ∈ kept, Live h k) (i : Nat) :
    Live (h.destroy kept) i ↔ (∃ k ∈ kept, From h k i) ∨ Stuck h i := by
  have hi := hr.inv
  have own : ∀ {a b}, Owns (h.dropVm kept) a b ↔ Owns h a b := Iff.rfl
  have := Heap.collect_exact (h := h.dropVm kept) hi.bound (by rw [Heap.dropVm_roots]; exact hk) hi.toPre.edges i
  rw [Heap.dropVm_roots] at this
  have path : ∀ {a b}, OwnsPath (h.dropVm kept) a b ↔ OwnsPath h a b := by
    intro a b
    constructor
    · intro x
      induction x with
      | one h1 => exact .one h1
      | cons h1 _ ih => exact .cons h1 ih
    · intro x
      induction x with
      | one h1 => exact .one h1
      | cons h1 _ ih => exact .cons h1 ih
  have hf : ∀ {a b}, From (h.dropVm kept) a b ↔ From h a b := or_congr Iff.rfl path
  have hs : Stuck (h.dropVm kept) i ↔ Stuck h i := exists_congr fun c => and_congr path hf
  refine this.trans (or_congr ?_ hs)
  exact exists_congr fun k => and_congr Iff.rfl hf

/-- They are not changed, and no new ones appear. -/
theorem destroy_same (h : Heap) (kept : List Nat) {i : Nat} {o : Obj} (ho : (h.destroy kept).objs i = some o) :
    h.objs i = some o := Heap.collect_sub (h := h.dropVm kept) ho

/-- No name is bound to a class any more, no thread has an environment, and nothing but the C++ code refers to an
object from outside. -/
theorem destroy_empty (h : Heap) (kept : List Nat) :
    (∀ n, (h.destroy kept).typeClass n = none) ∧ (∀ t, (h.destroy kept).envs t = none) ∧
    ∀ i, Root (h.destroy kept) i ↔ i ∈ kept := by
  refine ⟨fun n => ?_, fun t => ?_, fun i => ⟨?_, fun hi => .inl ?_⟩⟩
  · rw [Heap.typeClass, Heap.destroy, Heap.collect_classes]; rfl
  · rw [Heap.destroy, Heap.collect_envs]; rfl
  · rintro (hi | hi | ⟨t, e, he, _⟩ | ⟨t, e, he, _⟩)
    · rw [Heap.destroy, Heap.collect_globals] at hi; exact hi
    · rw [Heap.destroy, Heap.collect_pinned] at hi; exact nomatch hi
    · rw [Heap.destroy, Heap.collect_envs] at he; exact nomatch he
    · rw [Heap.destroy, Heap.collect_envs] at he; exact nomatch he
  · rw [Heap.destroy, Heap.collect_globals]; exact hi

/-- If C++ code keeps nothing and no object owns itself, everything is released. -/
theorem destroy_all {h : Heap} (hr : HeapReachable h) (hc : ∀ i, ¬ OwnsPath h i i) (i : Nat) :
    ¬ Live (h.destroy []) i := by
  intro hl
  rcases (destroy_exact hr (kept := []) (fun _ h => nomatch h) i).1 hl with ⟨k, hk, _⟩ | ⟨c, hc', _⟩
  · exact nomatch hk
  · exact hc c hc'

/-- The same without the condition is false: an array that contains itself survives the VM. -/
theorem destroy_leaks : ∃ h i, HeapReachable h ∧ (∃ e, h.envs 0 = some e) ∧ Live (h.destroy []) i := by
  obtain ⟨h, _, hr, hp⟩ := reachable_of
    (ops := [(0, .newObjectArray 1 "[Ljava/lang/Object;".toList none),
      (0, .setObjectArrayElement (some 10) 0 (some 10))])
    (p := fun h => (h.envs 0).isSome && (h.objs 10).any fun o => o.kind == .array [some 10]) (by decide +kernel)
  simp only [Bool.and_eq_true, Option.any_eq_true, beq_iff_eq] at hp
  obtain ⟨he, o, ho, hk⟩ := hp
  have o1 : Owns h 10 10 := ⟨o, ho, .inr (.inl ⟨_, hk, by simp⟩)⟩
  exact ⟨h, 10, hr, Option.isSome_iff_exists.1 he,
    (destroy_exact hr (kept := []) (fun _ h => nomatch h) 10).2 (.inr ⟨10, .one o1, .inl rfl⟩)⟩

/-- A VM with a global reference, an array with an object in it and a pending exception: nothing of it is left,
not even the classes; if C++ code keeps the array, it and the object are left. -/
example : ∃ h, HeapReachable h ∧ (∀ i, ¬ OwnsPath h i i) ∧ Live h 0 ∧ Owns h 10 11 ∧
    (∀ i, ¬ Live (h.destroy []) i) ∧ Live (h.destroy [10]) 10 ∧ Live (h.destroy [10]) 11 ∧
    ¬ Live (h.destroy [10]) 0 := by
  obtain ⟨h, _, hr, hp⟩ := reachable_of
    (ops := [(0, .newObjectArray 1 "[Ljava/lang/Object;".toList none), (0, .newObject none),
      (0, .setObjectArrayElement (some 10) 0 (some 11)), (0, .raise .runtimeError), (0, .newGlobalRef (some 10))])
    (p := fun h => (h.objs 0).isSome && (h.objs 10).any (fun o => o.kind == .array [some 11]) &&
      (List.range h.next).all fun j => (h.objs j).all fun o => o.kind.edges == [] ||
        (j == 10 && o.kind.edges == [11]) || (j == 13 && o.kind.edges == [10])) (by decide +kernel)
  simp only [Bool.and_eq_true, Option.any_eq_true, beq_iff_eq, List.all_eq_true, List.mem_range] at hp
  obtain ⟨⟨h0, o, ho, hk⟩, hall⟩ := hp
  have o1 : Owns h 10 11 := ⟨o, ho, .inr (.inl ⟨_, hk, by simp⟩)⟩
  have only : ∀ {j i}, Owns h j i → (j = 10 ∧ i = 11) ∨ (j = 13 ∧ i = 10) := by
    intro j i hown
    obtain ⟨oj, hoj, he⟩ := owns_iff.1 hown
    have := hall j (hr.inv.bound j oj hoj)
    simp only [hoj, Option.all_some, Bool.or_eq_true, Bool.and_eq_true, beq_iff_eq] at this
    rcases this with (h1 | ⟨rfl, h1⟩) | ⟨rfl, h1⟩
    · rw [h1] at he; exact nomatch he
    · rw [h1] at he; exact .inl ⟨rfl, by simpa using he⟩
    · rw [h1] at he; exact .inr ⟨rfl, by simpa using he⟩
  have down : ∀ {j i}, OwnsPath h j i → (if i = 10 then 1 else if i = 11 then 0 else 2) <
      (if j = 10 then 1 else if j = 11 then 0 else 2) := by
    intro j i hx
    induction hx with
    | one h1 => rcases only h1 with ⟨rfl, rfl⟩ | ⟨rfl, rfl⟩ <;> decide
    | cons h1 _ ih => rcases only h1 with ⟨rfl, rfl⟩ | ⟨rfl, rfl⟩ <;> exact Nat.lt_trans ih (by decide)
  have hac : ∀ i, ¬ OwnsPath h i i := fun i hx => Nat.lt_irrefl _ (down hx)
  have hk : ∀ k ∈ [10], Live h k := by
    intro k hk
    obtain rfl : k = 10 := by simpa using hk
    exact ⟨o, ho⟩
  refine ⟨h, hr, hac, Option.isSome_iff_exists.1 h0, o1, destroy_all hr hac,
    (destroy_exact hr hk 10).2 (.inl ⟨10, by simp, .inl rfl⟩),
    (destroy_exact hr hk 11).2 (.inl ⟨10, by simp, .inr (.one o1)⟩), fun hl => ?_⟩
  rcases (destroy_exact hr hk 0).1 hl with ⟨k, hk', hf⟩ | ⟨c, hc, _⟩
  · obtain rfl : k = 10 := by simpa using hk'
    rcases hf with h1 | h1
    · exact nomatch h1
    · exact absurd (down h1) (by decide)
  · exact hac c hc

end Jnivm
