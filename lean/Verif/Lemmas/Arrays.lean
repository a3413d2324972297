import Verif.Spec.Arrays
/-! Helper lemmas for primitive arrays. -/
namespace Jnivm
open Spec

theorem ElemType.size_pos (t : ElemType) : 0 < t.size := by cases t <;> decide

theorem splice_get {c v : List MemByte} {o : Nat} (ho : o + v.length ≤ c.length) (k : Nat) :
    (c.take o ++ v ++ c.drop (o + v.length))[k]? =
      if o ≤ k ∧ k < o + v.length then v[k - o]? else c[k]? := by
  have hl : (c.take o).length = o := by rw [List.length_take]; omega
  by_cases h1 : k < o
  · rw [List.append_assoc, List.getElem?_append_left (by omega), List.getElem?_take_of_lt h1,
      if_neg (by omega)]
  · by_cases h2 : k < o + v.length
    · rw [List.append_assoc, List.getElem?_append_right (by omega), hl,
        List.getElem?_append_left (by omega), if_pos (by omega)]
    · rw [List.getElem?_append_right (by simp; omega), List.getElem?_drop, if_neg (by omega)]
      congr 1
      simp
      omega

theorem splice_length {c v : List MemByte} {o : Nat} (ho : o + v.length ≤ c.length) :
    (c.take o ++ v ++ c.drop (o + v.length)).length = c.length := by
  simp; omega

theorem element_get (w : Nat) (c : List MemByte) (i j : Nat) :
    (element w c i)[j]? = if j < w then c[i * w + j]? else none := by
  unfold element
  by_cases h : j < w
  · rw [List.getElem?_take_of_lt h, if_pos h, List.getElem?_drop]
  · rw [if_neg h, List.getElem?_eq_none]
    simp; omega

theorem element_lt {w i j s : Nat} (hj : j < w) : i * w + j < s * w ↔ i < s := by
  constructor
  · intro h
    cases Nat.lt_or_ge i s with
    | inl h' => exact h'
    | inr h' => have := Nat.mul_le_mul_right w h'; omega
  · intro h
    have := Nat.mul_le_mul_right w h
    rw [Nat.succ_mul] at this
    omega

theorem element_splice {w : Nat} {c v : List MemByte} {start len : Nat}
    (hv : v.length = w * len) (hc : w * start + v.length ≤ c.length) :
    Assigned (element w c) (element w (c.take (w * start) ++ v ++ c.drop (w * start + v.length)))
      (element w v) start len := by
  intro i
  apply List.ext_getElem?
  intro j
  rw [element_get]
  by_cases hj : j < w
  · rw [if_pos hj, splice_get hc]
    have e1 : w * start ≤ i * w + j ↔ start ≤ i := by
      rw [Nat.mul_comm w start]
      have := element_lt (s := start) (i := i) hj
      omega
    have e2 : i * w + j < w * start + v.length ↔ i < start + len := by
      rw [hv, ← Nat.mul_add, Nat.mul_comm w (start + len)]; exact element_lt hj
    by_cases hi : start ≤ i ∧ i < start + len
    · rw [if_pos ⟨e1.2 hi.1, e2.2 hi.2⟩, if_pos hi, element_get, if_pos hj]
      congr 1
      rw [Nat.sub_mul, Nat.mul_comm w start]
      have := Nat.mul_le_mul_right w hi.1
      omega
    · rw [if_neg (by rw [e1, e2]; exact hi), if_neg hi, element_get, if_pos hj]
  · rw [if_neg hj]
    by_cases hi : start ≤ i ∧ i < start + len
    · rw [if_pos hi, element_get, if_neg hj]
    · rw [if_neg hi, element_get, if_neg hj]

/-- The elements of a slice. -/
theorem element_slice {w : Nat} {c : List MemByte} {start len : Nat} (i : Nat) (hi : i < len) :
    element w ((c.drop (w * start)).take (w * len)) i = element w c (start + i) := by
  apply List.ext_getElem?
  intro j
  rw [element_get, element_get]
  by_cases hj : j < w
  · rw [if_pos hj, if_pos hj]
    have := (element_lt (s := len) hj).2 hi
    rw [List.getElem?_take_of_lt (by rw [Nat.mul_comm w len]; exact this), List.getElem?_drop]
    congr 1
    rw [Nat.add_mul, Nat.mul_comm w start]
    omega
  · rw [if_neg hj, if_neg hj]

theorem load_ok {m : Mem} {p : Option Ptr} {n : Nat} {v : List MemByte} :
    m.load p n = .ok v ↔ ∃ q, p = some q ∧ At m q n v := by
  cases p with
  | none => simp [Mem.load]
  | some p =>
    cases hb : m.blocks p.block with
    | none => simp [Mem.load, hb, At]
    | some c =>
      by_cases hc : p.off + n ≤ c.length
      · simp [Mem.load, hb, At, hc, eq_comm]
      · simp [Mem.load, hb, At, hc]

theorem at_length {m : Mem} {p : Ptr} {n : Nat} {v : List MemByte} (h : At m p n v) : v.length = n := by
  obtain ⟨c, _, hl, rfl⟩ := h
  simp; omega

theorem store_ok {m m' : Mem} {p : Option Ptr} {v : List MemByte} :
    m.store p v = .ok m' ↔ ∃ q c, p = some q ∧ m.blocks q.block = some c ∧ q.off + v.length ≤ c.length ∧
      m' = { m with blocks := fun b =>
        if b = q.block then some (c.take q.off ++ v ++ c.drop (q.off + v.length)) else m.blocks b } := by
  cases p with
  | none => simp [Mem.store]
  | some p =>
    cases hb : m.blocks p.block with
    | none => simp [Mem.store, hb]
    | some c =>
      by_cases hc : p.off + v.length ≤ c.length
      · simp [Mem.store, hb, hc, eq_comm]
      · simp [Mem.store, hb, hc]

theorem store_shape {m m' : Mem} {p : Option Ptr} {v : List MemByte} (h : m.store p v = .ok m') :
    m'.next = m.next ∧ m'.junk = m.junk ∧ ∀ b, (m'.blocks b).map List.length = (m.blocks b).map List.length := by
  obtain ⟨q, c, rfl, hb, hl, rfl⟩ := store_ok.1 h
  refine ⟨rfl, rfl, fun b => ?_⟩
  show (if b = q.block then _ else m.blocks b).map List.length = _
  by_cases hq : b = q.block
  · rw [if_pos hq, hq, hb]
    exact congrArg some (splice_length hl)
  · rw [if_neg hq]

theorem memcpy_ok {m m' : Mem} {dst src : Option Ptr} {n : Nat} :
    m.memcpy dst src n = .ok m' ↔ ∃ d q v w, dst = some d ∧ src = some q ∧ At m q n v ∧ At m d n w ∧
      overlapping (some d) (some q) n = false ∧ m.store (some d) v = .ok m' := by
  unfold Mem.memcpy
  constructor
  · intro h
    obtain ⟨v, h1, h2⟩ := Res.bind_eq_ok.1 h
    obtain ⟨w, h3, h4⟩ := Res.bind_eq_ok.1 h2
    obtain ⟨q, rfl, hq⟩ := load_ok.1 h1
    obtain ⟨d, rfl, hd⟩ := load_ok.1 h3
    cases ho : overlapping (some d) (some q) n with
    | true => simp [ho] at h4
    | false =>
      simp only [ho, Bool.false_eq_true, if_false] at h4
      exact ⟨d, q, v, w, rfl, rfl, hq, hd, ho, h4⟩
  · rintro ⟨d, q, v, w, rfl, rfl, hq, hd, ho, hs⟩
    rw [load_ok.2 ⟨q, rfl, hq⟩, Res.bind_ok, load_ok.2 ⟨d, rfl, hd⟩, Res.bind_ok, ho]
    simpa using hs

theorem memcpy_shape {m m' : Mem} {dst src : Option Ptr} {n : Nat} (h : m.memcpy dst src n = .ok m') :
    m'.next = m.next ∧ m'.junk = m.junk ∧ ∀ b, (m'.blocks b).map List.length = (m.blocks b).map List.length := by
  obtain ⟨d, q, v, w, rfl, rfl, _, _, _, hs⟩ := memcpy_ok.1 h
  exact store_shape hs

structure ArraysWF (s : Arrays) : Prop where
  obj : ∀ a o, s.objs a = some o → ∃ b, o = ⟨o.type, some ⟨b, 0⟩, o.length, true⟩ ∧
    (s.mem.blocks b).map List.length = some (o.type.size * o.length)
  inj : ∀ a a' o o', s.objs a = some o → s.objs a' = some o' → o.data = o'.data → a = a'
  live : ∀ b, s.mem.blocks b ≠ none → b < s.mem.next
  fresh : ∀ a, s.objs a ≠ none → a < s.next

theorem ArraysWF.shape {s : Arrays} {m : Mem} (h : ArraysWF s) (hn : m.next = s.mem.next)
    (hs : ∀ b, (m.blocks b).map List.length = (s.mem.blocks b).map List.length) :
    ArraysWF { s with mem := m } where
  obj a o ho := by
    obtain ⟨b, e, hb⟩ := h.obj a o ho
    exact ⟨b, e, by rw [← hb]; exact hs b⟩
  inj := h.inj
  live b hb := by
    show b < m.next
    rw [hn]
    refine h.live b fun he => hb ?_
    have := hs b
    rw [he] at this
    exact Option.map_eq_none_iff.1 this
  fresh := h.fresh

theorem ArraysWF.alloc {s : Arrays} (h : ArraysWF s) (c : List MemByte) :
    ArraysWF { s with mem := (s.mem.alloc c).1 } where
  obj a o ho := by
    obtain ⟨b, e, hb⟩ := h.obj a o ho
    refine ⟨b, e, ?_⟩
    have hne : b ≠ s.mem.next := by
      have := h.live b (fun he => by rw [he] at hb; exact nomatch hb)
      omega
    show ((if b = s.mem.next then some c else s.mem.blocks b).map List.length) = _
    rw [if_neg hne, hb]
  inj := h.inj
  live b hb := by
    show b < s.mem.next + 1
    by_cases he : b = s.mem.next
    · omega
    · have hb : (if b = s.mem.next then some c else s.mem.blocks b) ≠ none := hb
      rw [if_neg he] at hb
      exact Nat.lt_succ_of_lt (h.live b hb)
  fresh := h.fresh

/-- A new object on a block no other object uses. -/
theorem ArraysWF.make {s : Arrays} {m : Mem} {b n : Nat} {ty : ElemType} (h : ArraysWF { s with mem := m })
    (hb : (m.blocks b).map List.length = some (ty.size * n))
    (hfree : ∀ a o, s.objs a = some o → o.data ≠ some ⟨b, 0⟩) :
    ArraysWF (s.make m ⟨ty, some ⟨b, 0⟩, n, true⟩).1 where
  obj a o ho := by
    have ho : (if a = s.next then some _ else s.objs a) = some o := ho
    by_cases ha : a = s.next
    · rw [if_pos ha] at ho; cases ho; exact ⟨b, rfl, hb⟩
    · rw [if_neg ha] at ho; exact h.obj a o ho
  inj a a' o o' ho ho' he := by
    have ho : (if a = s.next then some _ else s.objs a) = some o := ho
    have ho' : (if a' = s.next then some _ else s.objs a') = some o' := ho'
    by_cases ha : a = s.next
    · by_cases ha' : a' = s.next
      · rw [ha, ha']
      · rw [if_pos ha] at ho; rw [if_neg ha'] at ho'; cases ho
        exact absurd he.symm (hfree a' o' ho')
    · by_cases ha' : a' = s.next
      · rw [if_neg ha] at ho; rw [if_pos ha'] at ho'; cases ho'
        exact absurd he (hfree a o ho)
      · rw [if_neg ha] at ho; rw [if_neg ha'] at ho'
        exact h.inj a a' o o' ho ho' he
  live := h.live
  fresh a ha := by
    show a < s.next + 1
    by_cases he : a = s.next
    · omega
    · have ha : (if a = s.next then some _ else s.objs a) ≠ none := ha
      rw [if_neg he] at ha
      exact Nat.lt_succ_of_lt (h.fresh a ha)

theorem newArray_zero (s : Arrays) (ty : ElemType) :
    s.newArray ty 0 = .ok (s.make (s.mem.alloc []).1 ⟨ty, some ⟨s.mem.next, 0⟩, 0, true⟩) := rfl

/-- The memory after a new array of `n` bytes: the block given to the constructor and the copy. -/
def Mem.twice (m : Mem) (n : Nat) : Mem :=
  { m with
    blocks := fun c => if c = m.next + 1 then some (List.replicate n 0) else
      if c = m.next then some (List.replicate n 0) else m.blocks c
    next := m.next + 2 }

theorem newArray_pos (s : Arrays) (ty : ElemType) {length : Int} (hl : 0 < length) :
    s.newArray ty length = .ok (s.make (s.mem.twice (ty.size * length.toNat))
      ⟨ty, some ⟨s.mem.next + 1, 0⟩, length.toNat, true⟩) := by
  have hne : ¬ s.mem.next = s.mem.next + 1 := by omega
  unfold Arrays.newArray
  rw [if_neg (by omega), if_neg (by omega)]
  simp only [Arrays.copying, Mem.alloc]
  have : ∀ (m m' : Mem), m.memcpy (some ⟨s.mem.next + 1, 0⟩) (some ⟨s.mem.next, 0⟩)
      (ty.size * length.toNat) = .ok m' → m' = s.mem.twice (ty.size * length.toNat) →
      ((m.memcpy (some ⟨s.mem.next + 1, 0⟩) (some ⟨s.mem.next, 0⟩) (ty.size * length.toNat)).bind fun m =>
        .ok (s.make m ⟨ty, some ⟨s.mem.next + 1, 0⟩, length.toNat, true⟩)) =
      .ok (s.make (s.mem.twice (ty.size * length.toNat)) ⟨ty, some ⟨s.mem.next + 1, 0⟩, length.toNat, true⟩) := by
    intro m m' h1 h2
    rw [h1, Res.bind_ok, h2]
  refine this _ _ (memcpy_ok.2 ⟨_, _, List.replicate (ty.size * length.toNat) 0, _, rfl, rfl,
    ⟨List.replicate (ty.size * length.toNat) 0, ?_, ?_, ?_⟩, ⟨_, if_pos rfl, ?_, rfl⟩, ?_,
    store_ok.2 ⟨_, _, rfl, if_pos rfl, ?_, rfl⟩⟩) ?_
  · exact (if_neg hne).trans (if_pos rfl)
  · simp
  · simp
  · simp
  · simp [overlapping]
  · simp
  · simp only [Mem.twice, Mem.mk.injEq, and_true]
    funext c
    by_cases h1 : c = s.mem.next + 1
    · rw [if_pos h1, if_pos h1]
      simp
    · rw [if_neg h1, if_neg h1]; exact if_neg h1

theorem ArraysWF.twice {s : Arrays} (h : ArraysWF s) (n : Nat) :
    ArraysWF { s with mem := s.mem.twice n } := by
  have h1 := (h.alloc (List.replicate n 0)).alloc (List.replicate n 0)
  exact h1

theorem ArraysWF.newArray {s s' : Arrays} {ty : ElemType} {length : Int} {a : Nat} (h : ArraysWF s)
    (hs : s.newArray ty length = .ok (s', a)) : ArraysWF s' := by
  have hfree : ∀ b, s.mem.next ≤ b → ∀ a o, s.objs a = some o → o.data ≠ some ⟨b, 0⟩ := by
    intro b hb a o ho he
    obtain ⟨b', e, hb'⟩ := h.obj a o ho
    have := h.live b' (fun hn => by rw [hn] at hb'; exact nomatch hb')
    rw [e] at he
    cases he
    omega
  rcases Int.lt_trichotomy length 0 with hl | hl | hl
  · simp [Arrays.newArray, hl] at hs
  · subst hl
    rw [newArray_zero] at hs
    cases hs
    refine ArraysWF.make (h.alloc []) ?_ (hfree _ (Nat.le_refl _))
    show ((if s.mem.next = s.mem.next then some [] else _).map List.length) = _
    rw [if_pos rfl]; rfl
  · rw [newArray_pos s ty hl] at hs
    cases hs
    refine ArraysWF.make (h.twice _) ?_ (hfree _ (Nat.le_succ _))
    show ((if s.mem.next + 1 = s.mem.next + 1 then some (List.replicate _ 0) else _).map List.length) = _
    rw [if_pos rfl]; simp

theorem ArraysWF.destroy {s s' : Arrays} {a : Nat} (h : ArraysWF s) (hs : s.destroy a = .ok s') :
    ArraysWF s' := by
  unfold Arrays.destroy at hs
  cases ho : s.objs a with
  | none => simp only [ho] at hs; exact nomatch hs
  | some o =>
    obtain ⟨b, e, hb⟩ := h.obj a o ho
    rw [e] at ho
    simp only [ho] at hs
    cases hs
    have old : ∀ i x, (if i = a then none else s.objs i) = some x → i ≠ a ∧ s.objs i = some x := by
      intro i x hx
      by_cases hi : i = a
      · rw [if_pos hi] at hx; exact nomatch hx
      · rw [if_neg hi] at hx; exact ⟨hi, hx⟩
    constructor
    · intro i x hx
      obtain ⟨hi, hx⟩ := old i x hx
      obtain ⟨b', e', hb'⟩ := h.obj i x hx
      refine ⟨b', e', ?_⟩
      have hne : b' ≠ b := fun hbb => hi (h.inj i a _ _ hx ho (by rw [e', hbb]))
      show ((if b' = b then none else s.mem.blocks b').map List.length) = _
      rw [if_neg hne]; exact hb'
    · intro i i' x x' hx hx' he
      exact h.inj i i' x x' (old i x hx).2 (old i' x' hx').2 he
    · intro c hc
      have hc : (if c = b then none else s.mem.blocks c) ≠ none := hc
      by_cases hcb : c = b
      · rw [if_pos hcb] at hc; exact absurd rfl hc
      · rw [if_neg hcb] at hc; exact h.live c hc
    · intro i hi
      have hi : (if i = a then none else s.objs i) ≠ none := hi
      by_cases hia : i = a
      · rw [if_pos hia] at hi; exact absurd rfl hi
      · rw [if_neg hia] at hi; exact h.fresh i hi

theorem ArraysWF.step {s s' : Arrays} {o : ArrayOp} (h : ArraysWF s) (hs : s.step o = .ok s') : ArraysWF s' := by
  cases o with
  | newArray ty n =>
    obtain ⟨⟨s1, a⟩, h1, h2⟩ := Res.bind_eq_ok.1 hs
    cases h2
    exact h.newArray h1
  | getRegion ty a st n b =>
    obtain ⟨_, _, h2⟩ := Res.bind_eq_ok.1 hs
    obtain ⟨m, h3, h4⟩ := Res.bind_eq_ok.1 h2
    cases h4
    have := memcpy_shape h3
    exact h.shape this.1 this.2.2
  | setRegion ty a st n b =>
    obtain ⟨_, _, h2⟩ := Res.bind_eq_ok.1 hs
    obtain ⟨m, h3, h4⟩ := Res.bind_eq_ok.1 h2
    cases h4
    have := memcpy_shape h3
    exact h.shape this.1 this.2.2
  | release a p m => cases hs; exact h
  | destroy a => exact h.destroy hs
  | malloc c => cases hs; exact h.alloc c
  | write p v =>
    obtain ⟨m, h3, h4⟩ := Res.bind_eq_ok.1 hs
    cases h4
    have := store_shape h3
    exact h.shape this.1 this.2.2

theorem ArraysWF.run {s s' : Arrays} {ops : List ArrayOp} (h : ArraysWF s) (hs : s.run ops = .ok s') :
    ArraysWF s' := by
  induction ops generalizing s with
  | nil => cases hs; exact h
  | cons o ops ih =>
    unfold Arrays.run at hs
    cases ho : s.step o with
    | ok s1 => rw [ho] at hs; exact ih (h.step ho) hs
    | throws e => rw [ho] at hs; exact ih h hs
    | ub u => rw [ho] at hs; exact nomatch hs
    | diverges => rw [ho] at hs; exact nomatch hs

theorem _root_.Spec.ArraysReached.wf {s : Arrays} (h : ArraysReached s) : ArraysWF s := by
  obtain ⟨j, ops, h⟩ := h
  refine ArraysWF.run ⟨?_, ?_, ?_, ?_⟩ h
  · exact fun a o ho => nomatch ho
  · exact fun a a' o o' ho => nomatch ho
  · exact fun b hb => absurd rfl hb
  · exact fun b hb => absurd rfl hb

/-- An allocation that belongs to no array. -/
def Orphan (s : Arrays) (b : Nat) : Prop :=
  s.mem.blocks b ≠ none ∧ ∀ a o, s.objs a = some o → o.data ≠ some ⟨b, 0⟩

theorem Orphan.shape {s : Arrays} {m : Mem} {b : Nat} (h : Orphan s b)
    (hs : ∀ b, (m.blocks b).map List.length = (s.mem.blocks b).map List.length) :
    Orphan { s with mem := m } b := by
  refine ⟨fun he => h.1 ?_, h.2⟩
  have := hs b
  have he : m.blocks b = none := he
  rw [he] at this
  exact Option.map_eq_none_iff.1 this.symm

theorem Orphan.make {s : Arrays} {m : Mem} {b b' n : Nat} {ty : ElemType} (h : Orphan s b)
    (hm : m.blocks b = s.mem.blocks b) (hb : b ≠ b') :
    Orphan (s.make m ⟨ty, some ⟨b', 0⟩, n, true⟩).1 b := by
  refine ⟨fun he => h.1 (hm.symm.trans he), fun a o ho => ?_⟩
  have ho : (if a = s.next then some _ else s.objs a) = some o := ho
  by_cases ha : a = s.next
  · rw [if_pos ha] at ho
    cases ho
    intro he
    cases he
    exact hb rfl
  · rw [if_neg ha] at ho
    exact h.2 a o ho

theorem Orphan.step {s s' : Arrays} {b : Nat} {o : ArrayOp} (hw : ArraysWF s) (h : Orphan s b)
    (hs : s.step o = .ok s') : Orphan s' b := by
  have hlt := hw.live b h.1
  cases o with
  | newArray ty n =>
    obtain ⟨⟨s1, a⟩, h1, h2⟩ := Res.bind_eq_ok.1 hs
    cases h2
    rcases Int.lt_trichotomy n 0 with hl | hl | hl
    · simp [Arrays.newArray, hl] at h1
    · subst hl
      rw [newArray_zero] at h1
      cases h1
      exact h.make (if_neg (by omega)) (by omega)
    · rw [newArray_pos s ty hl] at h1
      cases h1
      exact h.make ((if_neg (by omega)).trans (if_neg (by omega))) (by omega)
  | getRegion ty a st n bf =>
    obtain ⟨_, _, h2⟩ := Res.bind_eq_ok.1 hs
    obtain ⟨m, h3, h4⟩ := Res.bind_eq_ok.1 h2
    cases h4
    exact h.shape (memcpy_shape h3).2.2
  | setRegion ty a st n bf =>
    obtain ⟨_, _, h2⟩ := Res.bind_eq_ok.1 hs
    obtain ⟨m, h3, h4⟩ := Res.bind_eq_ok.1 h2
    cases h4
    exact h.shape (memcpy_shape h3).2.2
  | release a p m => cases hs; exact h
  | malloc c =>
    cases hs
    refine ⟨fun he => h.1 ?_, h.2⟩
    exact (if_neg (show ¬ b = s.mem.next by omega)).symm.trans he
  | write p v =>
    obtain ⟨m, h3, h4⟩ := Res.bind_eq_ok.1 hs
    cases h4
    exact h.shape (store_shape h3).2.2
  | destroy a =>
    have hs : s.destroy a = .ok s' := hs
    unfold Arrays.destroy at hs
    cases ho : s.objs a with
    | none => simp only [ho] at hs; exact nomatch hs
    | some o =>
      obtain ⟨b', e, hb'⟩ := hw.obj a o ho
      have hne : b ≠ b' := fun he => h.2 a o ho (by rw [e, he])
      rw [e] at ho
      simp only [ho] at hs
      cases hs
      refine ⟨fun he => h.1 ((if_neg hne).symm.trans he), fun i x hx => ?_⟩
      have hx : (if i = a then none else s.objs i) = some x := hx
      by_cases hi : i = a
      · rw [if_pos hi] at hx; exact nomatch hx
      · rw [if_neg hi] at hx; exact h.2 i x hx

theorem Orphan.run {s s' : Arrays} {b : Nat} {ops : List ArrayOp} (hw : ArraysWF s) (h : Orphan s b)
    (hs : s.run ops = .ok s') : Orphan s' b := by
  induction ops generalizing s with
  | nil => cases hs; exact h
  | cons o ops ih =>
    unfold Arrays.run at hs
    cases ho : s.step o with
    | ok s1 => rw [ho] at hs; exact ih (hw.step ho) (h.step hw ho) hs
    | throws e => rw [ho] at hs; exact ih hw h hs
    | ub u => rw [ho] at hs; exact nomatch hs
    | diverges => rw [ho] at hs; exact nomatch hs

end Jnivm
