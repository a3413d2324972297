import Verif.Props.Objects
/-!
The length of object arrays (C40).
-/
namespace Jnivm
open Spec

/-- `GetArrayLength` through any reference to an object array is the number of its slots: exactly the
slots below it exist. -/
theorem array_length {h : Heap} (hr : HeapReachable h) {a : Option Nat} {x : Nat}
    (ha : Denotes h a (some x)) {o : Obj} {slots : List (Option Nat)} (ho : h.objs x = some o)
    (hk : o.kind = .array slots) :
    ∃ n, h.getArrayLength a = .ok n ∧ ∀ k, k < n ↔ ∃ v, SlotIs h x k v := by
  have hd := (Heap.denote_iff hr.inv.toPre).2 ha
  refine ⟨slots.length, ?_, fun k => ⟨fun hlt => ?_, ?_⟩⟩
  · cases a with
    | none => cases ha
    | some a =>
      rw [Heap.getArrayLength, Heap.arrayOf, hd, Res.bind_ok]
      simp only [ho, hk, Res.bind_ok]
  · exact ⟨slots[k], o, slots, ho, hk, List.getElem?_eq_getElem hlt⟩
  · rintro ⟨v, o', s', ho', hk', hv⟩
    rw [ho] at ho'; cases ho'
    rw [hk] at hk'; cases hk'
    exact (List.getElem?_eq_some_iff.1 hv).1

/-- The length of null is 0, a cleared weak reference is dereferenced, and an object that is no object
array throws. -/
theorem array_length_other {h : Heap} (hr : HeapReachable h) :
    h.getArrayLength none = .ok 0 ∧
    (∀ r, Denotes h (some r) none → h.getArrayLength (some r) = .ub .nullDeref) ∧
    ∀ a x o, Denotes h a (some x) → h.objs x = some o → (∀ slots, o.kind ≠ .array slots) →
      h.getArrayLength a = .throws .badCast := by
  refine ⟨rfl, fun r hd => ?_, fun a x o hd ho hk => ?_⟩
  · rw [Heap.getArrayLength, Heap.arrayOf, (Heap.denote_iff hr.inv.toPre).2 hd]
    rfl
  · cases a with
    | none => cases hd
    | some a =>
      rw [Heap.getArrayLength, Heap.arrayOf, (Heap.denote_iff hr.inv.toPre).2 hd, Res.bind_ok]
      simp only [ho]
      cases hk' : o.kind <;> first | rfl | exact absurd hk' (hk _)

/-- The length of an array never changes: as long as it lives, every reference to it gives the same
length, whatever is called in between. -/
theorem array_length_kept {h h' : Heap} (hr : HeapReachable h) {a a' : Option Nat} {x n : Nat}
    (ha : Denotes h a (some x)) (hn : h.getArrayLength a = .ok n) {ops : List (Nat × HeapOp)}
    (hx : runHeap h ops = .ok h') (ha' : Denotes h' a' (some x)) : h'.getArrayLength a' = .ok n := by
  have hp := hr.inv.toPre
  obtain ⟨o, ho, _⟩ := Heap.denotes_ok hp ha
  have hs : ∃ slots, o.kind = .array slots := by
    cases a with
    | none => cases ha
    | some a =>
      rw [Heap.getArrayLength, Heap.arrayOf, (Heap.denote_iff hp).2 ha, Res.bind_ok] at hn
      simp only [ho] at hn
      cases hk : o.kind <;> rw [hk] at hn <;> first | exact ⟨_, rfl⟩ | cases hn
  obtain ⟨slots, hk⟩ := hs
  have hlen : slots.length = n := by
    cases a with
    | none => cases ha
    | some a =>
      rw [Heap.getArrayLength, Heap.arrayOf, (Heap.denote_iff hp).2 ha, Res.bind_ok] at hn
      simp only [ho, hk, Res.bind_ok, Res.ok.injEq] at hn
      exact hn
  have key : x < h'.next ∧ ∀ o', h'.objs x = some o' → ∃ s, o'.kind = .array s ∧ s.length = n := by
    refine Along.induct (P := fun _ _ _ => True)
      (Q := fun h => x < h.next ∧ ∀ o', h.objs x = some o' → ∃ s, o'.kind = .array s ∧ s.length = n)
      (fun h t op h' out hi hq _ hx => ?_) hr.inv
      ⟨hr.inv.bound x o ho, fun o' ho' => by rw [ho] at ho'; cases ho'; exact ⟨slots, hk, hlen⟩⟩
      Along.trivial hx
    refine ⟨Nat.lt_of_lt_of_le hq.1 (runStep hi.toPre hx).next, fun o' ho' => ?_⟩
    have hlt := hq.1
    rcases Heap.kinds_run hi.toPre hx ho' with ⟨o, ho, hko⟩ | ⟨hge, _⟩ |
        ⟨_, _, _, _, _, hge, _⟩ | ⟨_, _, _, o, s, y, _, _, ho, hko, _, _, _, hka⟩ |
        ⟨_, _, _, hge, _⟩ | ⟨_, _, _, o, _, _, _, _, ho, hko, _, _, _⟩
    · rw [hko]; exact hq.2 o ho
    · omega
    · omega
    · obtain ⟨s', hs', hl'⟩ := hq.2 o ho
      rw [hko] at hs'; cases hs'
      exact ⟨_, hka, by simpa using hl'⟩
    · omega
    · obtain ⟨s', hs', _⟩ := hq.2 o ho
      rw [hko] at hs'; cases hs'
  have hr' := hr.steps hx
  obtain ⟨o', ho', _⟩ := Heap.denotes_ok hr'.inv.toPre ha'
  obtain ⟨s, hs, hl⟩ := key.2 o' ho'
  cases a' with
  | none => cases ha'
  | some a' =>
    rw [Heap.getArrayLength, Heap.arrayOf, (Heap.denote_iff hr'.inv.toPre).2 ha', Res.bind_ok]
    simp only [ho', hs, Res.bind_ok, hl]

/-- The length through a local reference, and after stores and without the local reference through a
global one. -/
example : ∃ h h', HeapReachable h ∧ Denotes h (some 10) (some 10) ∧ h.getArrayLength (some 10) = .ok 3 ∧
    runHeap h [(0, .newGlobalRef (some 10)), (0, .setObjectArrayElement (some 10) 1 (some 11)),
      (0, .deleteLocalRef (some 10))] = .ok h' ∧ Denotes h' (some 12) (some 10) := by
  obtain ⟨h, hx, hr, hp⟩ := reachable_of (ops := [(0, .newObjectArray 3 "[Ljava/lang/Object;".toList none),
      (0, .newObject none)])
    (p := fun h => h.denote (some 10) == .ok (some 10) && h.getArrayLength (some 10) == .ok 3 &&
      (runHeap h [(0, .newGlobalRef (some 10)), (0, .setObjectArrayElement (some 10) 1 (some 11)),
        (0, .deleteLocalRef (some 10))]).holds fun (h' : Heap) => h'.denote (some 12) == .ok (some 10))
    (by decide +kernel)
  simp only [Bool.and_eq_true, beq_iff_eq, Res.holds_iff] at hp
  obtain ⟨⟨hd, hn⟩, h', hx', hd'⟩ := hp
  exact ⟨h, h', hr, (Heap.denote_iff hr.inv.toPre).1 hd, hn, hx',
    (Heap.denote_iff (hr.steps hx').inv.toPre).1 hd'⟩

/-- A weak reference whose array was released, and an object that is no array. -/
example : ∃ h, HeapReachable h ∧ Denotes h (some 11) none ∧ Denotes h (some 12) (some 12) ∧
    h.getArrayLength (some 12) = .throws .badCast := by
  obtain ⟨h, hx, hr, hp⟩ := reachable_of (ops := [(0, .newObjectArray 3 "[Ljava/lang/Object;".toList none),
      (0, .newWeakGlobalRef (some 10)), (0, .newObject none), (0, .deleteLocalRef (some 10))])
    (p := fun h => h.denote (some 11) == .ok none && h.denote (some 12) == .ok (some 12) &&
      h.getArrayLength (some 12) == .throws .badCast)
    (by decide +kernel)
  simp only [Bool.and_eq_true, beq_iff_eq] at hp
  exact ⟨h, hr, (Heap.denote_iff hr.inv.toPre).1 hp.1.1, (Heap.denote_iff hr.inv.toPre).1 hp.1.2, hp.2⟩

end Jnivm
