import Verif.Lemmas.RefTypes
/-!
Properties of reference types (C34), object arrays (C40), reflection (C48) and defined behaviour
(C51).
-/
namespace Jnivm
open Spec

/-! ## C34: GetObjectRefType -/

/-- A reference keeps its type as long as it exists. -/
theorem ref_type_stable {h h' : Heap} (hr : HeapReachable h) {i : Nat} (hl : Live h i)
    {ops : List (Nat × HeapOp)} (hx : runHeap h ops = .ok h') (hl' : Live h' i) :
    h'.getObjectRefType (some i) = h.getObjectRefType (some i) := by
  obtain ⟨o, ho⟩ := hl
  have key : i < h'.next ∧ ∀ o', h'.objs i = some o' → o.kind.Same o'.kind := by
    refine Along.induct (P := fun _ _ _ => True)
      (Q := fun h => i < h.next ∧ ∀ o', h.objs i = some o' → o.kind.Same o'.kind)
      (fun h t op h' out hi hq _ hx => ?_) hr.inv
      ⟨hr.inv.bound i o ho, fun o' ho' => by rw [ho] at ho'; cases ho'; exact .refl _⟩ Along.trivial hx
    have s := runStep hi.toPre hx
    refine ⟨Nat.lt_of_lt_of_le hq.1 s.next, fun o' ho' => ?_⟩
    obtain ⟨o1, ho1, hs, _⟩ := s.old i o' hq.1 ho'
    exact (hq.2 o1 ho1).trans hs
  obtain ⟨o', ho'⟩ := hl'
  have hs := key.2 o' ho'
  simp only [Heap.getObjectRefType, ho, ho']
  cases hk : o.kind <;> cases hk' : o'.kind <;> simp_all [Kind.Same]

example : ∃ h h', HeapReachable h ∧ Live h 10 ∧ runHeap h [(0, .deleteLocalRef (some 9)),
    (0, .pushLocalFrame), (0, .newLocalRef (some 10))] = .ok h' ∧ Live h' 10 ∧
    h.getObjectRefType (some 10) = .ok .glob := by
  obtain ⟨h, hx, hr, hp⟩ := reachable_of (ops := [(0, .newObject none), (0, .newGlobalRef (some 9))])
    (p := fun h => (h.objs 10).isSome && h.getObjectRefType (some 10) == .ok .glob &&
      (runHeap h [(0, .deleteLocalRef (some 9)), (0, .pushLocalFrame), (0, .newLocalRef (some 10))]).holds
        fun h' => (h'.objs 10).isSome) (by decide +kernel)
  simp only [Bool.and_eq_true, beq_iff_eq, Res.holds_iff] at hp
  obtain ⟨⟨h1, h2⟩, h', hx', h3⟩ := hp
  exact ⟨h, h', hr, Option.isSome_iff_exists.1 h1, hx', Option.isSome_iff_exists.1 h3, h2⟩

/-- The null reference, a new global reference and a new weak global reference. -/
theorem ref_type_created {h h' : Heap} (hr : HeapReachable h) {t : Nat} {r : Option Nat} {g : Nat} :
    h.getObjectRefType none = .ok .invalid ∧
    ((HeapOp.newGlobalRef r).run h t = .ok (h', .ref (some g)) →
      h'.getObjectRefType (some g) = .ok .glob) ∧
    ((HeapOp.newWeakGlobalRef r).run h t = .ok (h', .ref (some g)) →
      h'.getObjectRefType (some g) = .ok .weakGlob) := by
  refine ⟨rfl, fun hx => ?_, fun hx => ?_⟩
  all_goals
    obtain ⟨h1, hx1, rfl⟩ := Heap.run_ok hx
    obtain ⟨hb, hne⟩ := Heap.exec_ok hx1
    obtain ⟨e, he⟩ := hne rfl
    obtain ⟨x, _, eff⟩ := (Heap.effect_exec hr.inv.toPre he hx1 (by simp)).2
    cases x with
    | none => cases eff.1
    | some i =>
      obtain ⟨g', hg, hgl, _, o, ho, hk⟩ := eff
      cases hg
      have ho' : h1.collect.objs g = some o :=
        Heap.collect_keep (Heap.step_exec hr.inv.toPre hx1).pre.bound
          (.root (Heap.mem_roots.2 (.inl (by simp [hgl])))) ho
      simp only [Heap.getObjectRefType, ho', hk]

/-- Partial form of C34: what a function returns as local reference is reported as local.  Missing:
arrays filled with a global or weak reference, see `array_ref_type_wrong`, and `PopLocalFrame` on a
cleared weak reference, see `pop_cleared_not_null`. -/
theorem ref_type_local_partial {h h' : Heap} {ops : List (Nat × HeapOp)}
    (hrun : runHeap Heap.initial ops = .ok h)
    (hpl : Along (fun h _ op => PlainInit h op) Heap.initial ops)
    {t i : Nat} {op : HeapOp} (hc : CreatesLocal op)
    (hnc : ∀ r, op = .popLocalFrame r → NotCleared h r)
    (hx : op.run h t = .ok (h', .ref (some i))) :
    h'.getObjectRefType (some i) = .ok .loc := by
  have hr : HeapReachable h := ⟨ops, hrun⟩
  have hps : h.PlainSlots := Along.induct (Q := Heap.PlainSlots)
    (fun h t op h' out hi hq hp hx => Heap.plainSlots_run hi hx hq hp) Heap.initial_inv
    Heap.plainSlots_initial hpl hrun
  obtain ⟨h1, hx1, rfl⟩ := Heap.run_ok hx
  obtain ⟨o, ho, hw⟩ := Heap.local_body hr.inv hps hr.pending hc hnc hx1
  obtain ⟨e', he', hf⟩ := Heap.local_pushed hr.inv.toPre hc hx1 hnc
  have hp1 := (Heap.step_exec hr.inv.toPre hx1).pre
  have ho' : h1.collect.objs i = some o :=
    Heap.collect_keep hp1.bound
      (.root (Heap.mem_roots.2 (.inr (.inr ⟨t, e', hp1.thread t e' he', he', .inl hf⟩)))) ho
  simp only [Heap.getObjectRefType, ho']
  cases hk : o.kind <;> simp_all [Kind.isWrapper]

/-- An array filled with an object, a global reference stored into it, an element read. -/
def samplePlain : List (Nat × HeapOp) :=
  [(0, .newObject none), (0, .newGlobalRef (some 9)),
    (0, .newObjectArray 2 "[Ljava/lang/Object;".toList (some 9)),
    (0, .setObjectArrayElement (some 12) 1 (some 10))]

def plainInitB (h : Heap) : HeapOp → Bool
  | .newObjectArray _ _ init => h.denote init == .ok init
  | _ => true

example : ∃ h h', runHeap Heap.initial samplePlain = .ok h ∧
    Along (fun h _ op => PlainInit h op) Heap.initial samplePlain ∧
    (HeapOp.getObjectArrayElement (some 12) 1).run h 0 = .ok (h', .ref (some 9)) := by
  obtain ⟨h, hx, hr, hp⟩ := reachable_of (ops := samplePlain)
    (p := fun h => alongB (fun h _ op => plainInitB h op) Heap.initial samplePlain &&
      ((HeapOp.getObjectArrayElement (some 12) 1).run h 0).holds fun x => x.2 == .ref (some 9))
    (by decide +kernel)
  simp only [Bool.and_eq_true, beq_iff_eq, Res.holds_iff] at hp
  obtain ⟨ha, ⟨h', out⟩, hx', ho⟩ := hp
  simp only at ho
  subst ho
  refine ⟨h, h', hx, ?_, hx'⟩
  refine alongB_sound (fun h u op hi hb => ?_) Heap.initial_inv ha
  cases op <;> try trivial
  exact (Heap.denote_iff hi.toPre).1 (by simpa [plainInitB] using hb)

/-- C34 fails for arrays filled with a global reference: `GetObjectArrayElement` returns the global
reference itself, reported as global. -/
theorem array_ref_type_wrong : ∃ h h' a, HeapReachable h ∧
    (HeapOp.getObjectArrayElement (some a) 0).run h 0 = .ok (h', .ref (some 10)) ∧
    h'.getObjectRefType (some 10) = .ok .glob := by
  obtain ⟨h, hx, hr, hp⟩ := reachable_of (ops := [(0, .newObject none), (0, .newGlobalRef (some 9)),
      (0, .newObjectArray 2 "[Ljava/lang/Object;".toList (some 10))])
    (p := fun h => ((HeapOp.getObjectArrayElement (some 12) 0).run h 0).holds fun x =>
      x.2 == .ref (some 10) && x.1.getObjectRefType (some 10) == .ok .glob)
    (by decide +kernel)
  simp only [Bool.and_eq_true, beq_iff_eq, Res.holds_iff] at hp
  obtain ⟨⟨h', out⟩, hx', ho, hty⟩ := hp
  simp only at ho
  subst ho
  exact ⟨h, h', 12, hr, hx', hty⟩

/-! ## C40: object arrays -/

/-- `NewObjectArray` returns a new array with the given length, every slot holding the initial
element. -/
theorem new_array_filled {h h' : Heap} (hr : HeapReachable h) {t : Nat} {n : Int} {c : Str}
    {init : Option Nat} {out : Out}
    (hx : (HeapOp.newObjectArray n c init).run h t = .ok (h', out)) :
    ∃ a, out = .ref (some a) ∧ h.next ≤ a ∧ HasLocal h' t a ∧ h'.getArrayLength (some a) = .ok n.toNat ∧
      0 ≤ n ∧ ∀ k, k < n.toNat → SlotIs h' a k init := by
  obtain ⟨h1, hx1, rfl⟩ := Heap.run_ok hx
  have hb := (Heap.exec_ok hx1).1
  replace hb := Heap.outRef_ok hb
  obtain ⟨r, hb, rfl⟩ := hb
  obtain ⟨h0, rfl, hle, _, _, ⟨o, ho, hk⟩, _⟩ := Heap.newObjectArray_ok hb
  obtain ⟨e', he', hf⟩ := Heap.local_pushed hr.inv.toPre (by trivial) hx1 (by simp)
  have hp1 := (Heap.step_exec hr.inv.toPre hx1).pre
  have ho' : h1.collect.objs (h.intern c).1.next = some o :=
    Heap.collect_keep hp1.bound
      (.root (Heap.mem_roots.2 (.inr (.inr ⟨t, e', hp1.thread t e' he', he', .inl hf⟩)))) ho
  refine ⟨_, rfl, hle, ⟨e', by simpa using he', hf⟩, ?_, h0, fun k hk' => ?_⟩
  · have hp' := (hr.step hx).inv.toPre
    have hd : h1.collect.denote (some (h.intern c).1.next) = .ok (some (h.intern c).1.next) :=
      (Heap.denote_iff hp').2 (.direct ho' (by simp [hk]))
    rw [Heap.getArrayLength, Heap.arrayOf, hd, Res.bind_ok]
    simp only [ho', hk, Res.bind_ok, List.length_replicate]
  · exact ⟨o, _, ho', hk, by simp [hk']⟩

/-- A slot keeps its value through every history that does not store into it, for as long as the
array lives. -/
theorem slot_kept {h h' : Heap} (hr : HeapReachable h) {x n : Nat} {v : Option Nat}
    (hs : SlotIs h x n v) {ops : List (Nat × HeapOp)}
    (hk : Along (fun h _ op => KeepsSlot x n h op) h ops) (hx : runHeap h ops = .ok h')
    (hl : Live h' x) : SlotIs h' x n v := by
  have key : x < h'.next ∧ (Live h' x → SlotIs h' x n v) := by
    refine Along.induct (Q := fun h => x < h.next ∧ (Live h x → SlotIs h x n v))
      (fun h t op h' out hi hq hp hx => ?_) hr.inv ⟨?_, fun _ => hs⟩ hk hx
    · refine ⟨Nat.lt_of_lt_of_le hq.1 (runStep hi.toPre hx).next, ?_⟩
      rintro ⟨o', ho'⟩
      have hlt := hq.1
      rcases Heap.kinds_run hi.toPre hx ho' with ⟨o, ho, hko⟩ | ⟨hge, _⟩ |
          ⟨_, _, _, _, _, hge, _⟩ | ⟨a, m, w, o, s, y, rfl, ha, ho, hko, _, h0, hm, hka⟩ |
          ⟨_, _, _, hge, _⟩ | ⟨_, _, _, o, _, _, _, _, ho, hko, _, _, _⟩
      · obtain ⟨o2, slots, ho2, hk2, hv⟩ := hq.2 ⟨o, ho⟩
        rw [ho] at ho2; cases ho2
        exact ⟨o', slots, ho', hko.trans hk2, hv⟩
      · omega
      · omega
      · obtain ⟨o2, slots, ho2, hk2, hv⟩ := hq.2 ⟨o, ho⟩
        rw [ho] at ho2; cases ho2
        rw [hko] at hk2; cases hk2
        refine ⟨o', _, ho', hka, ?_⟩
        have hne := hp a m w rfl ha
        rw [List.getElem?_set_ne (by omega)]
        exact hv
      · omega
      · obtain ⟨o2, slots, ho2, hk2, hv⟩ := hq.2 ⟨o, ho⟩
        rw [ho] at ho2; cases ho2
        rw [hko] at hk2; cases hk2
    · obtain ⟨o, _, ho, _⟩ := hs
      exact hr.inv.bound x o ho
  exact key.2 hl

/-- `SetObjectArrayElement` stores the object denoted by the reference; until the slot is stored to
again it is there, and the object is alive with the array. -/
theorem set_slot {h h1 h2 : Heap} (hr : HeapReachable h) {t x : Nat} {a v y : Option Nat} {i : Int}
    {out : Out} {ops : List (Nat × HeapOp)} (ha : Denotes h a (some x)) (hv : Denotes h v y)
    (hset : (HeapOp.setObjectArrayElement a i v).run h t = .ok (h1, out))
    (hk : Along (fun h _ op => KeepsSlot x i.toNat h op) h1 ops) (hx : runHeap h1 ops = .ok h2)
    (hl : Live h2 x) : 0 ≤ i ∧ SlotIs h2 x i.toNat y ∧ ∀ z, y = some z → Live h2 z := by
  have hp := hr.inv.toPre
  have hr1 := hr.step hset
  have hr2 := hr1.steps hx
  -- the array lives in between
  have hl1 : Live h1 x := by
    refine Classical.byContradiction fun hn => ?_
    have hlt : x < h1.next := by
      obtain ⟨o, ho, _⟩ := Heap.denotes_ok hp ha
      exact Nat.lt_of_lt_of_le (hp.bound x o ho) (runStep hp hset).next
    have key : x < h2.next ∧ ¬ Live h2 x := by
      refine Along.induct (P := fun _ _ _ => True) (Q := fun h => x < h.next ∧ ¬ Live h x)
        (fun h t op h' out hinv hq _ hx => ?_) hr1.inv ⟨hlt, hn⟩ Along.trivial hx
      have s := runStep hinv.toPre hx
      refine ⟨Nat.lt_of_lt_of_le hq.1 s.next, ?_⟩
      rintro ⟨o', ho'⟩
      obtain ⟨o, ho, _⟩ := s.old x o' hq.1 ho'
      exact hq.2 ⟨o, ho⟩
    exact key.2 hl
  have hslot : 0 ≤ i ∧ SlotIs h1 x i.toNat y := by
    obtain ⟨h1', hx1, rfl⟩ := Heap.run_ok hset
    have hb := (Heap.outUnit_ok (Heap.exec_ok hx1).1).1
    obtain ⟨x', o, slots, y', ha', ho, hko, hv', h0, hlen, rfl⟩ := Heap.setObjectArrayElement_ok hb
    rw [(Heap.denote_iff hp).2 ha] at ha'; cases ha'
    rw [(Heap.denote_iff hp).2 hv] at hv'; cases hv'
    obtain ⟨o', ho'⟩ := hl1
    have := Heap.collect_sub ho'
    simp at this
    subst this
    exact ⟨h0, _, _, ho', rfl, by rw [List.getElem?_set_self hlen]⟩
  refine ⟨hslot.1, ?_⟩
  have hs2 := slot_kept hr1 hslot.2 hk hx hl
  refine ⟨hs2, ?_⟩
  rintro z rfl
  obtain ⟨o, slots, ho, hko, hz⟩ := hs2
  exact hr2.inv.edges x z ⟨o, ho, by
    rw [hko]; simp only [Kind.edges, List.mem_filterMap, id]
    exact ⟨some z, List.mem_of_getElem? hz, rfl⟩⟩

/-- `GetObjectArrayElement` returns what the slot holds. -/
theorem get_slot {h : Heap} (hr : HeapReachable h) {t x : Nat} {e : Env} {a v : Option Nat} {i : Int}
    (he : h.envs t = some e) (ha : Denotes h a (some x)) (h0 : 0 ≤ i) (hs : SlotIs h x i.toNat v) :
    ∃ h', (HeapOp.getObjectArrayElement a i).run h t = .ok (h', .ref v) := by
  have hp := hr.inv.toPre
  obtain ⟨o, slots, ho, hk, hv⟩ := hs
  have hlt : i.toNat < slots.length := by
    rcases Nat.lt_or_ge i.toNat slots.length with h1 | h1
    · exact h1
    · rw [List.getElem?_eq_none h1] at hv; cases hv
  have harr : h.arrayOf a = .ok (x, o, slots) := by
    rw [Heap.arrayOf, (Heap.denote_iff hp).2 ha, Res.bind_ok]
    simp only [ho, hk]
  obtain ⟨h', hx⟩ := Heap.toJNI?_exists hp (s := h.typeClass "java/lang/Object".toList) (i := v) he
    (fun j hj => hp.edges x j ⟨o, ho, by
      rw [hk]; simp only [Kind.edges, List.mem_filterMap, id]
      exact ⟨some j, hj ▸ List.mem_of_getElem? hv, rfl⟩⟩)
    (fun c hc => hp.typeClass hc)
  refine ⟨h'.collect, ?_⟩
  rw [HeapOp.run, Heap.exec_of_body he, HeapOp.body, Heap.getObjectArrayElement, harr, Res.bind_ok]
  simp only [Heap.slotIndex, if_pos (And.intro h0 hlt), Res.bind_ok]
  rw [List.getD_eq_getElem?_getD, hv, Option.getD_some, hx]
  rfl

/-- An index out of range is undefined behaviour, not an exception. -/
theorem index_unchecked {h : Heap} (hr : HeapReachable h) {t x : Nat} {e : Env} {a : Option Nat} {i : Int}
    (he : h.envs t = some e) (ha : Denotes h a (some x)) {o : Obj} {slots : List (Option Nat)}
    (ho : h.objs x = some o) (hk : o.kind = .array slots) (hi : i < 0 ∨ slots.length ≤ i) :
    (HeapOp.getObjectArrayElement a i).run h t = .ub .outOfBounds := by
  have hp := hr.inv.toPre
  have harr : h.arrayOf a = .ok (x, o, slots) := by
    rw [Heap.arrayOf, (Heap.denote_iff hp).2 ha, Res.bind_ok]
    simp only [ho, hk]
  rw [HeapOp.run, Heap.exec_of_body he, HeapOp.body, Heap.getObjectArrayElement, harr, Res.bind_ok]
  simp only [Heap.slotIndex, if_neg (show ¬ (0 ≤ i ∧ i.toNat < slots.length) by omega)]
  rfl

/-- A store through a global reference to the array, the stored object then only held by the array,
another slot stored, the element read back. -/
def sampleSlots : List (Nat × HeapOp) :=
  [(0, .newObjectArray 3 "[Ljava/lang/Object;".toList none), (0, .newObject none),
    (0, .newGlobalRef (some 10))]

def sampleAfter : List (Nat × HeapOp) :=
  [(0, .deleteLocalRef (some 11)), (0, .setObjectArrayElement (some 10) 0 (some 10))]

def keepsSlotB (x n : Nat) (h : Heap) : HeapOp → Bool
  | .setObjectArrayElement a i _ => h.denote a != .ok (some x) || i != n
  | _ => true

example : ∃ h h1 h2 out, HeapReachable h ∧ Denotes h (some 12) (some 10) ∧ Denotes h (some 11) (some 11) ∧
    (HeapOp.setObjectArrayElement (some 12) 2 (some 11)).run h 0 = .ok (h1, out) ∧
    Along (fun h _ op => KeepsSlot 10 2 h op) h1 sampleAfter ∧ runHeap h1 sampleAfter = .ok h2 ∧
    Live h2 10 ∧ ¬ HasLocal h2 0 11 := by
  obtain ⟨h, hx, hr, hp⟩ := reachable_of (ops := sampleSlots)
    (p := fun h => h.denote (some 12) == .ok (some 10) && h.denote (some 11) == .ok (some 11) &&
      ((HeapOp.setObjectArrayElement (some 12) 2 (some 11)).run h 0).holds fun x =>
        alongB (fun h _ op => keepsSlotB 10 2 h op) x.1 sampleAfter &&
        (runHeap x.1 sampleAfter).holds fun h2 => (h2.objs 10).isSome &&
          (h2.envs 0).all fun e => e.frames.all fun f => !f.contains 11)
    (by decide +kernel)
  simp only [Bool.and_eq_true, beq_iff_eq, Res.holds_iff] at hp
  obtain ⟨⟨hd1, hd2⟩, ⟨h1, out⟩, hx1, ha, h2, hx2, hl, hnl⟩ := hp
  refine ⟨h, h1, h2, out, hr, (Heap.denote_iff hr.inv.toPre).1 hd1, (Heap.denote_iff hr.inv.toPre).1 hd2,
    hx1, ?_, hx2, Option.isSome_iff_exists.1 hl, ?_⟩
  · refine alongB_sound (fun h u op hi hb => ?_) (hr.step hx1).inv ha
    intro a i v hop hd
    subst hop
    simp only [keepsSlotB, (Heap.denote_iff hi.toPre).2 hd] at hb
    simpa using hb
  · rintro ⟨e, he, f, hf, hi⟩
    simp only [he, Option.all_some, List.all_eq_true] at hnl
    have := hnl f hf
    simp [hi] at this

/-! ## C48: reflection round trip -/

/-- The exact behaviour of the round trip: `ToReflectedMethod` gives a local reference to the method
and `FromReflectedMethod` gives it back exactly if the class of the method object was set to
`java/lang/reflect/Method` before (fields likewise). -/
theorem reflect_exact {h : Heap} (hr : HeapReachable h) {t m c : Nat} {e : Env} {o : Obj}
    {isMethod isStatic : Bool} (he : h.envs t = some e) (ho : h.objs m = some o)
    (hk : o.kind = if isMethod then .method isStatic else .field isStatic) :
    ∃ h1 h2 r, (HeapOp.toReflected isMethod (some c) (some m) isStatic).run h t = .ok (h1, .ref (some m)) ∧
      HasLocal h1 t m ∧
      (HeapOp.fromReflected isMethod (some m)).run h1 t = .ok (h2, .ref r) ∧
      (r = some m ∨ r = none) ∧
      (r = some m ↔ ∃ k, o.cls = some k ∧ h1.classes.lookup
        (if isMethod then "java/lang/reflect/Method" else "java/lang/reflect/Field").toList = some k) := by
  have hp := hr.inv.toPre
  have hnw : ∀ x, o.kind ≠ .weak x ∧ o.kind ≠ .global x := by
    intro x; rw [hk]; cases isMethod <;> simp
  have hd : h.denote (some m) = .ok (some m) := (Heap.denote_iff hp).2 (.direct ho hnw)
  obtain ⟨h0, hpush⟩ := Heap.pushLocal_exists hp (i := m) he
  have hx1 : (HeapOp.toReflected isMethod (some c) (some m) isStatic).exec h t = .ok (h0, .ref (some m)) := by
    rw [Heap.exec_of_body he, HeapOp.body]
    simp only [Heap.toReflected, ho, if_pos hk, Heap.newLocalRef, hd, Res.bind_ok, hpush]
    rfl
  have hrun1 : (HeapOp.toReflected isMethod (some c) (some m) isStatic).run h t
      = .ok (h0.collect, .ref (some m)) := by rw [HeapOp.run, hx1]; rfl
  have hr1 := hr.step hrun1
  have hp1 := hr1.inv.toPre
  obtain ⟨e1, he1, f1, hf1, hm1⟩ := Heap.local_pushed hp (by trivial) hx1 (by simp)
  have he1' : h0.collect.envs t = some e1 := by simpa using he1
  have hl1 : HasLocal h0.collect t m := ⟨e1, he1', f1, hf1, hm1⟩
  have ho1 : h0.collect.objs m = some o := by
    obtain ⟨e2, f2, fs2, he2, hf2, rfl⟩ := Heap.pushLocal_ok hpush
    refine Heap.collect_keep (Heap.step_exec hp hx1).pre.bound (.root (Heap.mem_roots.2 (.inr (.inr
      ⟨t, e1, (Heap.step_exec hp hx1).pre.thread t e1 he1, he1, .inl ⟨f1, hf1, hm1⟩⟩)))) ?_
    simpa using ho
  generalize h0.collect = h1 at *
  have hd1 : h1.denote (some m) = .ok (some m) := (Heap.denote_iff hp1).2 (.direct ho1 hnw)
  -- FromReflected
  have hgc : ∃ h2, h1.getObjectClass t (some m) = .ok (h2, o.cls) := by
    obtain ⟨h2, hx2⟩ := Heap.toJNI?_exists hp1 (s := h1.typeClass "java/lang/Class".toList) (i := o.cls)
      he1' (fun k hk' => by
        obtain ⟨n, hn⟩ := hp1.cls m o k ho1 hk'
        obtain ⟨_, oc, hoc, _⟩ := hp1.classes n k hn
        exact ⟨oc, hoc⟩) (fun k hk' => hp1.typeClass hk')
    refine ⟨h2, ?_⟩
    rw [Heap.getObjectClass, hd1, Res.bind_ok]
    simp only [ho1]
    exact hx2
  obtain ⟨h2, hx2⟩ := hgc
  have s2 := Heap.step_getObjectClass hp1 hx2
  have hcls2 : h2.classes = h1.classes := by
    rw [Heap.getObjectClass, hd1, Res.bind_ok] at hx2
    simp only [ho1] at hx2
    cases hoc : o.cls with
    | none => rw [hoc] at hx2; cases hx2; rfl
    | some k =>
      rw [hoc] at hx2
      obtain ⟨h3, hx3, hx4⟩ := Res.bind_eq_ok.1 hx2
      cases hx4
      simp only [Heap.toJNI] at hx3
      cases hok : h1.objs k with
      | none => simp [hok] at hx3
      | some ok =>
        simp only [hok] at hx3
        split at hx3 <;> (obtain ⟨_, _, _, _, _, rfl⟩ := Heap.pushLocal_ok hx3; rfl)
  obtain ⟨e2, he2⟩ : ∃ e2, h2.envs t = some e2 := ⟨_, (Heap.pushed_getObjectClass hx2).1 e1 he1'⟩
  generalize hname : (if isMethod then "java/lang/reflect/Method" else "java/lang/reflect/Field").toList = name
  obtain ⟨⟨h3, k3⟩, hx3⟩ : ∃ x, h2.findClass t name = .ok x := by
    rcases Heap.defined_findClass s2.pre he2 name with h | ⟨ex, hex⟩
    · exact h
    · obtain ⟨s, hl, _⟩ := s2.pre.intern t name
      obtain ⟨h', hx'⟩ := Heap.toJNI_exists s.pre (e := e2) (by rw [Heap.intern_envs]; exact he2) hl
        (fun c hc => s.pre.typeClass hc) (s := (h2.intern name).1.typeClass "java/lang/Class".toList)
      have heq : h2.findClass t name = ((h2.intern name).1.toJNI t
        ((h2.intern name).1.typeClass "java/lang/Class".toList) (h2.intern name).2).bind
          fun h1 => .ok (h1, some (h2.intern name).2) := rfl
      rw [heq, hx', Res.bind_ok] at hex
      cases hex
  obtain ⟨hk3, hx3'⟩ := Heap.findClass_ok hx3
  subst hk3
  have s3 := Heap.step_findClass s2.pre hx3
  have look := (s2.pre.intern t name).2.2
  -- both are classes, so they denote themselves
  have selfDen : ∀ {n} k o', h3.objs k = some o' → o'.kind = .cls n → h3.denote (some k) = .ok (some k) :=
    fun k o' ho' hk' => (Heap.denote_iff s3.pre).2 (.direct ho' (by simp [hk']))
  obtain ⟨ok, hok, hokk⟩ : ∃ o', h3.objs (h2.intern name).2 = some o' ∧ o'.kind = .cls name := by
    obtain ⟨o1, ho1, hk1⟩ := Heap.intern_kind s2.pre t name
    obtain ⟨o2, ho2, _, _, ho'⟩ := Heap.toJNI_ok hx3'
    rw [ho1] at ho2; cases ho2
    exact ⟨_, ho', by split <;> simp [hk1]⟩
  have same : h3.isSameObject o.cls (some (h2.intern name).2) =
      .ok (decide (o.cls = some (h2.intern name).2)) := by
    rw [Heap.isSameObject]
    by_cases hce : o.cls = some (h2.intern name).2
    · simp [hce]
    · rw [if_neg hce, selfDen _ ok hok hokk]
      cases hoc : o.cls with
      | none => rfl
      | some k =>
        obtain ⟨n, hn⟩ := hp1.cls m o k ho1 hoc
        obtain ⟨_, oc, hoc', hkc⟩ := hp1.classes n k hn
        obtain ⟨o3, ho3, hs3, _⟩ := (s2.trans s3).live k oc hoc'
        have hk3 : o3.kind = .cls n := by
          rw [hkc] at hs3
          revert hs3; cases o3.kind <;> simp [Kind.Same, eq_comm]
        rw [selfDen k o3 ho3 hk3]
        rfl
  refine ⟨h1, h3.collect, if decide (o.cls = some (h2.intern name).2) then some m else none, hrun1, hl1,
    ?_, ?_, ?_⟩
  · rw [HeapOp.run, Heap.exec_of_body he1', HeapOp.body, Heap.fromReflected, hx2, Res.bind_ok]
    simp only [hname, hx3, Res.bind_ok, same]
    rfl
  · split <;> simp
  · constructor
    · intro hr'
      split at hr'
      · rename_i hdec
        have hoc := of_decide_eq_true hdec
        refine ⟨_, hoc, ?_⟩
        obtain ⟨n, hn⟩ := hp1.cls m o _ ho1 hoc
        -- the class existed, so it is the one found by name
        cases hlk : h1.classes.lookup name with
        | some k =>
          have := look
          simp only [Heap.intern, hcls2, hlk] at this ⊢
        | none =>
          exfalso
          obtain ⟨_, oc, hoc', _⟩ := hp1.classes n _ hn
          have hlt := hp1.bound _ oc hoc'
          have hge : (h2.intern name).2 = h2.next := by
            simp only [Heap.intern, hcls2, hlk]; rfl
          have := s2.next
          omega
      · cases hr'
    · rintro ⟨k, hoc, hlk⟩
      have : (h2.intern name).2 = k := by simp only [Heap.intern, hcls2, hlk]
      rw [this, hoc]
      simp

/-- C48 fails: the round trip of a new method gives null. -/
theorem reflect_null : ∃ h h1 h2 m, HeapReachable h ∧ (∃ o, h.objs m = some o ∧ o.kind = .method false) ∧
    (HeapOp.toReflected true (some 0) (some m) false).run h 0 = .ok (h1, .ref (some m)) ∧
    (HeapOp.fromReflected true (some m)).run h1 0 = .ok (h2, .ref none) := by
  obtain ⟨h, hx, hr, hp⟩ := reachable_of (ops := [(0, .newMember true false)])
    (p := fun h => (h.objs 9).any (fun o => o.kind == .method false) &&
      ((HeapOp.toReflected true (some 0) (some 9) false).run h 0).holds fun x => x.2 == .ref (some 9) &&
        ((HeapOp.fromReflected true (some 9)).run x.1 0).holds fun y => y.2 == .ref none)
    (by decide +kernel)
  simp only [Bool.and_eq_true, beq_iff_eq, Res.holds_iff] at hp
  obtain ⟨h9, ⟨h1, out⟩, hx1, ho, ⟨h2, out2⟩, hx2, ho2⟩ := hp
  simp only at ho ho2
  subst ho; subst ho2
  obtain ⟨o, ho, hk⟩ := Option.any_eq_true _ _ |>.1 h9
  exact ⟨h, h1, h2, 9, hr, ⟨o, ho, by simpa using hk⟩, hx1, hx2⟩

/-- Partial form of C48: the round trip works for a method object that was returned as `Method` by a
function before, which sets its class.  Missing: all others, see `reflect_null` and
`reflect_exact`. -/
theorem reflect_partial {h : Heap} (hr : HeapReachable h) {t m c k : Nat} {e : Env} {o : Obj}
    {isMethod isStatic : Bool} (he : h.envs t = some e) (ho : h.objs m = some o)
    (hk : o.kind = if isMethod then .method isStatic else .field isStatic) (hc : o.cls = some k)
    (hl : h.classes.lookup
      (if isMethod then "java/lang/reflect/Method" else "java/lang/reflect/Field").toList = some k) :
    ∃ h1 h2, (HeapOp.toReflected isMethod (some c) (some m) isStatic).run h t = .ok (h1, .ref (some m)) ∧
      (HeapOp.fromReflected isMethod (some m)).run h1 t = .ok (h2, .ref (some m)) := by
  obtain ⟨h1, h2, r, hx1, _, hx2, _, hiff⟩ := reflect_exact (c := c) hr he ho hk
  have := hiff.2 ⟨k, hc, (runStep hr.inv.toPre hx1).classes _ _ hl⟩
  subst this
  exact ⟨h1, h2, hx1, hx2⟩

example : ∃ h e o k, HeapReachable h ∧ h.envs 0 = some e ∧ h.objs 9 = some o ∧
    o.kind = .method true ∧ o.cls = some k ∧
    h.classes.lookup "java/lang/reflect/Method".toList = some k := by
  obtain ⟨h, hx, hr, hp⟩ := reachable_of (ops := [(0, .newMember true true),
      (0, .returnObject (some 9) (some "java/lang/reflect/Method".toList))])
    (p := fun h => (h.envs 0).isSome && (h.objs 9).any fun o => o.kind == .method true &&
      o.cls.any fun k => h.classes.lookup "java/lang/reflect/Method".toList == some k)
    (by decide +kernel)
  simp only [Bool.and_eq_true] at hp
  obtain ⟨he, hp⟩ := hp
  obtain ⟨e, he⟩ := Option.isSome_iff_exists.1 he
  obtain ⟨o, ho, hp⟩ := Option.any_eq_true _ _ |>.1 hp
  simp only [Bool.and_eq_true, beq_iff_eq] at hp
  obtain ⟨k, hk, hl⟩ := Option.any_eq_true _ _ |>.1 hp.2
  exact ⟨h, e, o, k, hr, he, ho, hp.1, hk, by simpa using hl⟩

/-! ## C51: legal calls have defined behaviour -/

/-- In every reachable state every call that keeps to the rules of the interface returns or throws;
it never touches released memory, dereferences null, leaves an array or loops. -/
theorem legal_defined {h : Heap} (hr : HeapReachable h) {t : Nat} {op : HeapOp} (hl : Legal h t op) :
    (∃ h' out, op.run h t = .ok (h', out)) ∨ ∃ ex, op.run h t = .throws ex := by
  have : (op.exec h t).Defined := by
    by_cases hn : op.needsEnv = true
    · have : ∃ e, h.envs t = some e := by
        cases op <;> first | exact hl.1 | cases hn
      obtain ⟨e, he⟩ := this
      rw [Heap.exec_of_body he]
      exact Heap.defined_body hr.inv.toPre he hl
    · cases op <;> simp only [HeapOp.needsEnv, not_true_eq_false] at hn <;> exact Heap.defined_ok _
  rcases this with ⟨⟨h', out⟩, hx⟩ | ⟨ex, hx⟩
  · exact .inl ⟨h'.collect, out, by rw [HeapOp.run, hx]; rfl⟩
  · exact .inr ⟨ex, by rw [HeapOp.run, hx]; rfl⟩

/-- A whole history of legal calls runs to its end or to the first exception. -/
theorem legal_history {ops : List (Nat × HeapOp)} (hl : Along Legal Heap.initial ops) :
    (∃ h, runHeap Heap.initial ops = .ok h) ∨ ∃ ex, runHeap Heap.initial ops = .throws ex := by
  have key : ∀ {ops : List (Nat × HeapOp)} {h : Heap}, HeapReachable h → Along Legal h ops →
      (∃ h', runHeap h ops = .ok h') ∨ ∃ ex, runHeap h ops = .throws ex := by
    intro ops
    induction ops with
    | nil => intro h _ _; exact .inl ⟨h, rfl⟩
    | cons x ops ih =>
      obtain ⟨t, op⟩ := x
      intro h hr ha
      rcases legal_defined hr ha.1 with ⟨h', out, hx⟩ | ⟨ex, hx⟩
      · rw [runHeap, hx, Res.bind_ok]
        exact ih (hr.step hx) (ha.2 h' out hx)
      · exact .inr ⟨ex, by rw [runHeap, hx]; rfl⟩
  exact key HeapReachable.initial hl

example : ∃ h, HeapReachable h ∧ Legal h 0 (.getObjectArrayElement (some 10) 1) ∧
    Legal h 0 (.newLocalRef (some 12)) ∧ Denotes h (some 12) none ∧
    ¬ Legal h 0 (.getObjectClass (some 12)) ∧
    (HeapOp.getObjectClass (some 12)).run h 0 = .ub .nullDeref := by
  obtain ⟨h, hx, hr, hp⟩ := reachable_of (ops := [
      (0, .newObjectArray 2 "[Ljava/lang/Object;".toList none), (0, .newObject none),
      (0, .newWeakGlobalRef (some 11)), (0, .deleteLocalRef (some 11))])
    (p := fun h => (h.envs 0).isSome && h.denote (some 10) == .ok (some 10) &&
      (h.objs 10).any (fun o => o.kind == .array [none, none]) && (h.objs 12).isSome &&
      h.denote (some 12) == .ok none &&
      match (HeapOp.getObjectClass (some 12)).run h 0 with | .ub .nullDeref => true | _ => false)
    (by decide +kernel)
  simp only [Bool.and_eq_true, beq_iff_eq] at hp
  obtain ⟨⟨⟨⟨⟨h1, h2⟩, h3⟩, h4⟩, h5⟩, h6⟩ := hp
  have he := Option.isSome_iff_exists.1 h1
  obtain ⟨o, ho, hk⟩ := Option.any_eq_true _ _ |>.1 h3
  have hd := (Heap.denote_iff hr.inv.toPre).1 h5
  refine ⟨h, hr, ⟨he, 10, (Heap.denote_iff hr.inv.toPre).1 h2, ?_⟩,
    ⟨he, Option.isSome_iff_exists.1 h4⟩, hd, ?_, ?_⟩
  · intro o' slots ho' hk'
    rw [ho] at ho'; cases ho'
    rw [beq_iff_eq.1 hk] at hk'; cases hk'
    simp
  · intro hl; cases hl.2.2 hd
  · split at h6
    · assumption
    · cases h6

end Jnivm
