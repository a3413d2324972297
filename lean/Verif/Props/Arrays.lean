import Verif.Lemmas.Arrays
/-! C39: primitive arrays. -/
namespace Jnivm
open Spec

variable {s s' : Arrays}

/-- An element has as many bits as the Java type. -/
theorem element_bits (ty : ElemType) : 8 * ty.size = javaBits ty := by cases ty <;> rfl

/-- In every history every array has as many elements as it was made with. -/
theorem array_holds (hr : ArraysReached s) {a : Nat} {o : PArray} (ho : s.objs a = some o) :
    ∃ bytes, Holds s a o.type o.length bytes := by
  obtain ⟨b, e, hb⟩ := hr.wf.obj a o ho
  obtain ⟨bytes, h1, h2⟩ := Option.map_eq_some_iff.1 hb
  exact ⟨bytes, ⟨⟨b, 0⟩, by rw [ho]; exact congrArg some e, rfl, h1⟩, h2⟩

theorem holds_unique {a : Nat} {ty ty' : ElemType} {n n' : Nat} {c c' : List MemByte}
    (h : Holds s a ty n c) (h' : Holds s a ty' n' c') : ty = ty' ∧ n = n' ∧ c = c' := by
  obtain ⟨⟨p, h1, h2, h3⟩, _⟩ := h
  obtain ⟨⟨p', h1', h2', h3'⟩, _⟩ := h'
  rw [h1] at h1'
  cases h1'
  rw [h3] at h3'
  cases h3'
  exact ⟨rfl, rfl, rfl⟩

/-- A new array has the requested length and is zero; the other arrays do not change. -/
theorem new_array (hr : ArraysReached s) (ty : ElemType) {length : Int} (hl : 0 ≤ length) :
    ∃ s' a, s.newArray ty length = .ok (s', a) ∧ s.objs a = none ∧
      Holds s' a ty length.toNat (List.replicate (ty.size * length.toNat) 0) ∧
      s'.getLength (some a) = .ok length.toNat ∧
      ∀ b ty' n c, Holds s b ty' n c → Holds s' b ty' n c := by
  have hw := hr.wf
  have hnew : s.objs s.next = none := by
    cases h : s.objs s.next with
    | none => rfl
    | some o => exact absurd (hw.fresh s.next (by rw [h]; exact nofun)) (Nat.lt_irrefl _)
  have old : ∀ (m : Mem) (x : PArray), (∀ b, s.mem.blocks b ≠ none → m.blocks b = s.mem.blocks b) →
      ∀ b ty' n c, Holds s b ty' n c → Holds (s.make m x).1 b ty' n c := by
    intro m x hm b ty' n c ⟨⟨p, h1, h2, h3⟩, h4⟩
    refine ⟨⟨p, ?_, h2, ?_⟩, h4⟩
    · have : b ≠ s.next := fun he => by rw [he, hnew] at h1; exact nomatch h1
      exact (if_neg this).trans h1
    · show m.blocks p.block = some c
      rw [hm p.block (by rw [h3]; exact nofun), h3]
  have len : ∀ (m : Mem) (p : Option Ptr) (n : Nat),
      (s.make m ⟨ty, p, n, true⟩).1.getLength (some (s.make m ⟨ty, p, n, true⟩).2) = .ok n := by
    intro m p n
    simp [Arrays.getLength, Arrays.cast, Arrays.make, Res.bind]
  rcases Int.lt_or_eq_of_le hl with hl | hl
  · refine ⟨_, _, newArray_pos s ty hl, hnew, ⟨⟨_, if_pos rfl, rfl, if_pos rfl⟩, by simp⟩, len _ _ _,
      old _ _ fun b hb => ?_⟩
    have := hw.live b hb
    exact (if_neg (by omega)).trans (if_neg (by omega))
  · subst hl
    refine ⟨_, _, newArray_zero s ty, hnew, ⟨⟨_, if_pos rfl, rfl, if_pos rfl⟩, by simp⟩, len _ _ _,
      old _ _ fun b hb => ?_⟩
    have := hw.live b hb
    exact if_neg (by omega)

/-- A negative length throws. -/
theorem new_array_negative (s : Arrays) (ty : ElemType) {length : Int} (hl : length < 0) :
    s.newArray ty length = .throws .lengthError := if_pos hl

/-- Where an in-range region is. -/
theorem region_ok {a : Nat} {ty : ElemType} {n : Nat} {c : List MemByte} {start len : Int}
    (h : Holds s a ty n c) (hi : InRange n start len) :
    ∃ p, s.objs a = some ⟨ty, some ⟨p, 0⟩, n, true⟩ ∧ s.mem.blocks p = some c ∧
      s.region ty (some a) start len =
        .ok (some ⟨p, ty.size * start.toNat⟩, ty.size * len.toNat) ∧
      ty.size * start.toNat + ty.size * len.toNat ≤ c.length := by
  obtain ⟨⟨⟨p, off⟩, h1, h2, h3⟩, h4⟩ := h
  cases h2
  obtain ⟨i1, i2, i3⟩ := hi
  have hle : ty.size * start.toNat + ty.size * len.toNat ≤ c.length := by
    rw [h4, ← Nat.mul_add]
    exact Nat.mul_le_mul_left _ (by omega)
  have hcast : (ty.size : Int) * start = ((ty.size * start.toNat : Nat) : Int) := by
    rw [Int.natCast_mul, Int.toNat_of_nonneg i1]
  refine ⟨p, h1, h3, ?_, hle⟩
  have h3 : s.mem.blocks p = some c := h3
  have hadd : s.mem.add (some ⟨p, 0⟩) (ty.size * start) = .ok (some ⟨p, ty.size * start.toNat⟩) := by
    simp only [Mem.add, h3, hcast]
    rw [if_pos (by omega)]
    congr 3
    omega
  simp only [Arrays.region, Arrays.cast, h1, Option.all_some, decide_true, if_true, Res.bind_ok, hadd]
  rw [if_neg (by omega)]

/-- `Set<Type>ArrayRegion` with an in-range request and a large enough buffer outside the region assigns the
slice; all other elements, the length and all other arrays keep their value. -/
theorem set_region (hr : ArraysReached s) {a : Nat} {ty : ElemType} {n : Nat} {c v : List MemByte}
    {start len : Int} {buf : Ptr} (h : Holds s a ty n c) (hi : InRange n start len)
    (hb : At s.mem buf (ty.size * len.toNat) v)
    (hsep : ∀ p, s.objs a = some ⟨ty, some p, n, true⟩ → buf.block ≠ p.block) :
    ∃ s' c', s.setRegion ty (some a) start len (some buf) = .ok s' ∧ Holds s' a ty n c' ∧
      Assigned (element ty.size c) (element ty.size c') (element ty.size v) start.toNat len.toNat ∧
      (∀ b ty' n' d, b ≠ a → Holds s b ty' n' d → Holds s' b ty' n' d) ∧
      ∀ b, (∀ p, s.objs a = some ⟨ty, some p, n, true⟩ → b ≠ p.block) →
        s'.mem.blocks b = s.mem.blocks b := by
  obtain ⟨p, h1, h2, h3, h4⟩ := region_ok h hi
  have hv := at_length hb
  have hne := hsep _ h1
  have hm : s.mem.memcpy (some ⟨p, ty.size * start.toNat⟩) (some buf) (ty.size * len.toNat) =
      .ok { s.mem with blocks := fun b => if b = p then some (c.take (ty.size * start.toNat) ++ v ++
        c.drop (ty.size * start.toNat + v.length)) else s.mem.blocks b } := by
    refine memcpy_ok.2 ⟨_, _, v, _, rfl, rfl, hb, ⟨c, h2, h4, rfl⟩, ?_, store_ok.2 ⟨_, c, rfl, h2, ?_, rfl⟩⟩
    · simp [overlapping, Ne.symm hne]
    · rw [hv]; exact h4
  have hle : ty.size * start.toNat + v.length ≤ c.length := by rw [hv]; exact h4
  refine ⟨{ s with mem := { s.mem with blocks := fun b => if b = p then some (c.take (ty.size * start.toNat) ++
      v ++ c.drop (ty.size * start.toNat + v.length)) else s.mem.blocks b } }, _, ?_,
    ⟨⟨⟨p, 0⟩, h1, rfl, if_pos rfl⟩, (splice_length hle).trans h.size⟩, element_splice hv hle, ?_, ?_⟩
  · simp only [Arrays.setRegion, h3, Res.bind_ok, hm]
  · intro b ty' n' d hba ⟨⟨q, g1, g2, g3⟩, g4⟩
    refine ⟨⟨q, g1, g2, ?_⟩, g4⟩
    have : q.block ≠ p := by
      intro he
      refine hba (hr.wf.inj b a _ _ g1 h1 ?_)
      obtain ⟨q1, q2⟩ := q
      cases g2
      cases he
      rfl
    exact (if_neg this).trans g3
  · intro b hb
    exact if_neg (hb _ h1)

/-- `Get<Type>ArrayRegion` with an in-range request copies the slice into the buffer and changes nothing
else. -/
theorem get_region {a : Nat} {ty : ElemType} {n : Nat} {c v : List MemByte}
    {start len : Int} {buf : Ptr} (h : Holds s a ty n c) (hi : InRange n start len)
    (hb : At s.mem buf (ty.size * len.toNat) v)
    (hsep : ∀ p, s.objs a = some ⟨ty, some p, n, true⟩ → buf.block ≠ p.block) :
    ∃ s' v', s.getRegion ty (some a) start len (some buf) = .ok s' ∧
      At s'.mem buf (ty.size * len.toNat) v' ∧
      (∀ i, i < len.toNat → element ty.size v' i = element ty.size c (start.toNat + i)) ∧
      Holds s' a ty n c ∧ s'.objs = s.objs ∧
      (∀ b, b ≠ buf.block → s'.mem.blocks b = s.mem.blocks b) ∧
      ∀ d, s.mem.blocks buf.block = some d → ∃ d', s'.mem.blocks buf.block = some d' ∧
        d'.length = d.length ∧
        ∀ k, k < buf.off ∨ buf.off + ty.size * len.toNat ≤ k → d'[k]? = d[k]? := by
  obtain ⟨p, h1, h2, h3, h4⟩ := region_ok h hi
  have hne := hsep _ h1
  obtain ⟨d, hd1, hd2, hd3⟩ := hb
  have hat : At s.mem ⟨p, ty.size * start.toNat⟩ (ty.size * len.toNat)
      ((c.drop (ty.size * start.toNat)).take (ty.size * len.toNat)) := ⟨c, h2, h4, rfl⟩
  have hl := at_length hat
  generalize hw : (c.drop (ty.size * start.toNat)).take (ty.size * len.toNat) = w at hat hl
  have hle : buf.off + w.length ≤ d.length := by rw [hl]; exact hd2
  have hm : s.mem.memcpy (some buf) (some ⟨p, ty.size * start.toNat⟩) (ty.size * len.toNat) =
      .ok { s.mem with blocks := fun b => if b = buf.block then some (d.take buf.off ++ w ++
        d.drop (buf.off + w.length)) else s.mem.blocks b } := by
    refine memcpy_ok.2 ⟨_, _, w, _, rfl, rfl, hat, ⟨d, hd1, hd2, rfl⟩, ?_, store_ok.2 ⟨_, d, rfl, hd1, hle, rfl⟩⟩
    simp [overlapping, hne]
  refine ⟨{ s with mem := { s.mem with blocks := fun b => if b = buf.block then some (d.take buf.off ++ w ++
      d.drop (buf.off + w.length)) else s.mem.blocks b } }, w, ?_, ⟨_, if_pos rfl, ?_, ?_⟩, ?_, ⟨⟨⟨p, 0⟩, h1, rfl, ?_⟩, h.size⟩, rfl,
    fun b hb => if_neg hb, ?_⟩
  · simp only [Arrays.getRegion, h3, Res.bind_ok, hm]
  · rw [splice_length hle]; exact hd2
  · rw [List.append_assoc, List.drop_append_of_le_length (by simp; omega), List.drop_take_self,
      List.nil_append, ← hl]
    simp
  · intro i hi
    rw [← hw]
    exact element_slice i hi
  · exact (if_neg (Ne.symm hne)).trans h2
  · intro d' hd'
    rw [hd1] at hd'
    cases hd'
    refine ⟨_, if_pos rfl, splice_length hle, fun k hk => ?_⟩
    rw [splice_get hle, if_neg (by omega)]

/-- What was written is read back: the two calls together copy the elements from one buffer to the other. -/
theorem set_get (hr : ArraysReached s) {a : Nat} {ty : ElemType} {n : Nat} {c v w : List MemByte}
    {start len : Int} {src dst : Ptr} (h : Holds s a ty n c) (hi : InRange n start len)
    (hs : At s.mem src (ty.size * len.toNat) v) (hd : At s.mem dst (ty.size * len.toNat) w)
    (hsep : ∀ p, s.objs a = some ⟨ty, some p, n, true⟩ → src.block ≠ p.block ∧ dst.block ≠ p.block) :
    ∃ s1 s2 v', s.setRegion ty (some a) start len (some src) = .ok s1 ∧
      s1.getRegion ty (some a) start len (some dst) = .ok s2 ∧
      At s2.mem dst (ty.size * len.toNat) v' ∧
      ∀ i, i < len.toNat → element ty.size v' i = element ty.size v i := by
  obtain ⟨s1, c1, e1, g1, g2, g3, g4⟩ := set_region hr h hi hs (fun p hp => (hsep p hp).1)
  have hobj : s1.objs = s.objs := by
    unfold Arrays.setRegion at e1
    obtain ⟨_, _, e2⟩ := Res.bind_eq_ok.1 e1
    obtain ⟨_, _, e3⟩ := Res.bind_eq_ok.1 e2
    cases e3
    rfl
  have hd' : At s1.mem dst (ty.size * len.toNat) w := by
    obtain ⟨d, d1, d2, d3⟩ := hd
    exact ⟨d, by rw [g4 _ (fun p hp => (hsep p hp).2)]; exact d1, d2, d3⟩
  obtain ⟨s2, v', f1, f2, f3, _⟩ := get_region g1 hi hd' (fun p hp => (hsep p (by rw [← hobj]; exact hp)).2)
  refine ⟨s1, s2, v', e1, f1, f2, fun i hi => ?_⟩
  rw [f3 i hi, g2 (start.toNat + i), if_pos (by omega)]
  congr 1
  omega

/-- The element pointer is the memory of the array, it is never a copy and the critical variant returns the
same pointer: what is written through it at element `i` is element `i` from then on. -/
theorem elements_alias {a : Nat} {ty : ElemType} {n : Nat} {c : List MemByte} (h : Holds s a ty n c) :
    ∃ p, s.getElements (some ty) (some a) = .ok (some p, false) ∧
      s.getElements none (some a) = .ok (some p, false) ∧
      s.mem.load (some p) (ty.size * n) = .ok c ∧
      ∀ i x, i < n → x.length = ty.size → ∃ m c', s.mem.store (some ⟨p.block, p.off + ty.size * i⟩) x = .ok m ∧
        Holds { s with mem := m } a ty n c' ∧ ∀ j, element ty.size c' j = if j = i then x else element ty.size c j := by
  obtain ⟨⟨⟨p, off⟩, h1, h2, h3⟩, h4⟩ := h
  cases h2
  have h3 : s.mem.blocks p = some c := h3
  refine ⟨⟨p, 0⟩, ?_, ?_, ?_, ?_⟩
  · simp [Arrays.getElements, Arrays.cast, h1, Res.bind]
  · simp [Arrays.getElements, Arrays.cast, h1, Res.bind]
  · exact load_ok.2 ⟨_, rfl, c, h3, by simp [h4], by rw [← h4]; simp⟩
  · intro i x hi hx
    have hle : ty.size * i + x.length ≤ c.length := by
      rw [h4, hx, ← Nat.mul_succ]
      exact Nat.mul_le_mul_left _ hi
    refine ⟨_, _, store_ok.2 ⟨_, c, rfl, h3, by simpa using hle, rfl⟩,
      ⟨⟨⟨p, 0⟩, h1, rfl, if_pos rfl⟩, ?_⟩, ?_⟩
    · rw [splice_length (by simpa using hle)]; exact h4
    · intro j
      have := element_splice (w := ty.size) (c := c) (v := x) (start := i) (len := 1) (by simp [hx]) hle j
      simp only [Nat.zero_add]
      rw [this]
      by_cases hj : j = i
      · subst hj
        rw [if_pos (by omega), if_pos rfl]
        simp [element, ← hx]
      · rw [if_neg (by omega), if_neg hj]

/-- Releasing the elements changes nothing, whatever the mode. -/
theorem release_nothing (a : Option Nat) (p : Option Ptr) (mode : Int) : s.releaseElements a p mode = s := rfl

/-- Out-of-range requests are undefined, for every array: no check is made. -/
theorem region_out_of_range {a : Nat} {ty : ElemType} {n : Nat} {c : List MemByte} {start len : Int}
    (buf : Option Ptr) (h : Holds s a ty n c) (hi : ¬ InRange n start len) :
    (∃ u, s.getRegion ty (some a) start len buf = .ub u) ∧
      ∃ u, s.setRegion ty (some a) start len buf = .ub u := by
  obtain ⟨⟨⟨p, off⟩, h1, h2, h3⟩, h4⟩ := h
  cases h2
  have h3 : s.mem.blocks p = some c := h3
  have hpos := ty.size_pos
  have reg : s.region ty (some a) start len = ((s.mem.add (some ⟨p, 0⟩) (ty.size * start)).bind fun q =>
      if len < 0 then .ub .outOfBounds else .ok (q, ty.size * len.toNat)) := by
    simp [Arrays.region, Arrays.cast, h1, Res.bind]
  by_cases hs : 0 ≤ start ∧ start ≤ n
  · have hcast : (ty.size : Int) * start = ((ty.size * start.toNat : Nat) : Int) := by
      rw [Int.natCast_mul, Int.toNat_of_nonneg hs.1]
    have hle : ty.size * start.toNat ≤ c.length := by
      rw [h4]; exact Nat.mul_le_mul_left _ (by omega)
    have hadd : s.mem.add (some ⟨p, 0⟩) (ty.size * start) = .ok (some ⟨p, ty.size * start.toNat⟩) := by
      simp only [Mem.add, h3, hcast]
      rw [if_pos (by omega)]
      congr 3
      omega
    rw [hadd, Res.bind_ok] at reg
    by_cases hl : len < 0
    · rw [if_pos hl] at reg
      exact ⟨⟨_, by rw [Arrays.getRegion, reg]; rfl⟩, ⟨_, by rw [Arrays.setRegion, reg]; rfl⟩⟩
    · rw [if_neg hl] at reg
      have hover : ¬ ty.size * start.toNat + ty.size * len.toNat ≤ c.length := by
        rw [h4, ← Nat.mul_add]
        intro hh
        have := Nat.le_of_mul_le_mul_left hh hpos
        exact hi ⟨hs.1, by omega, by omega⟩
      have hload : s.mem.load (some ⟨p, ty.size * start.toNat⟩) (ty.size * len.toNat) = .ub .outOfBounds := by
        simp only [Mem.load, h3]
        exact if_neg hover
      refine ⟨⟨.outOfBounds, by simp [Arrays.getRegion, reg, Res.bind, Mem.memcpy, hload]⟩, ?_⟩
      simp only [Arrays.setRegion, reg, Res.bind_ok, Mem.memcpy]
      cases hbuf : s.mem.load buf (ty.size * len.toNat) with
      | ok v => rw [Res.bind_ok, hload]; exact ⟨_, rfl⟩
      | ub u => exact ⟨_, rfl⟩
      | throws e =>
        unfold Mem.load at hbuf
        repeat (first | split at hbuf | exact nomatch hbuf)
      | diverges =>
        unfold Mem.load at hbuf
        repeat (first | split at hbuf | exact nomatch hbuf)
  · have hadd : s.mem.add (some ⟨p, 0⟩) (ty.size * start) = .ub .outOfBounds := by
      simp only [Mem.add, h3]
      refine if_neg fun hh => hs ?_
      rw [h4] at hh
      obtain ⟨g1, g2⟩ := hh
      have hpos' : (0 : Int) < ty.size := by omega
      constructor
      · exact Int.nonneg_of_mul_nonneg_right (by omega) hpos'
      · have g2 : (ty.size : Int) * start ≤ ty.size * n := by
          have : ((ty.size * n : Nat) : Int) = (ty.size : Int) * n := Int.natCast_mul _ _
          omega
        exact Int.le_of_mul_le_mul_left g2 hpos'
    rw [hadd] at reg
    exact ⟨⟨_, by rw [Arrays.getRegion, reg]; rfl⟩, ⟨_, by rw [Arrays.setRegion, reg]; rfl⟩⟩

/-- What is left of "no undefined effect".  Missing: requests that are out of range. -/
theorem region_safe_partial (hr : ArraysReached s) {a : Nat} {ty : ElemType} {n : Nat} {c v : List MemByte}
    {start len : Int} {buf : Ptr} (h : Holds s a ty n c) (hi : InRange n start len)
    (hb : At s.mem buf (ty.size * len.toNat) v)
    (hsep : ∀ p, s.objs a = some ⟨ty, some p, n, true⟩ → buf.block ≠ p.block) :
    (s.getRegion ty (some a) start len (some buf)).Safe ∧
      (s.setRegion ty (some a) start len (some buf)).Safe := by
  obtain ⟨s1, _, h1, _⟩ := get_region h hi hb hsep
  obtain ⟨s2, _, h2, _⟩ := set_region hr h hi hb hsep
  rw [h1, h2]
  exact ⟨trivial, trivial⟩

/-- Null: length 0 and a null pointer, but regions are undefined; another element type throws. -/
theorem array_null (ty : ElemType) (start len : Int) (buf : Option Ptr) :
    s.getLength none = .ok 0 ∧ s.getElements (some ty) none = .ok (none, false) ∧
      s.getRegion ty none start len buf = .ub .nullDeref ∧
      s.setRegion ty none start len buf = .ub .nullDeref := ⟨rfl, rfl, rfl, rfl⟩

theorem array_wrong_type {a : Nat} {ty ty' : ElemType} {n : Nat} {c : List MemByte} (h : Holds s a ty n c)
    (ht : ty' ≠ ty) (start len : Int) (buf : Option Ptr) :
    s.getElements (some ty') (some a) = .throws .badCast ∧
      s.getRegion ty' (some a) start len buf = .throws .badCast ∧
      s.setRegion ty' (some a) start len buf = .throws .badCast := by
  obtain ⟨⟨p, h1, _, _⟩, _⟩ := h
  refine ⟨?_, ?_, ?_⟩ <;>
    simp [Arrays.getElements, Arrays.getRegion, Arrays.setRegion, Arrays.region, Arrays.cast, h1, Res.bind, ht]

/-- Copying between overlapping parts of an array is undefined: the buffer may not be an element pointer into
the region. -/
theorem region_overlap {a : Nat} {ty : ElemType} {n : Nat} {c : List MemByte} {start len : Int} {p : Ptr}
    (h : Holds s a ty n c) (hi : InRange n start len)
    (hp : s.objs a = some ⟨ty, some p, n, true⟩) {k : Nat} (hk : k + len.toNat ≤ n)
    (ho : k < start.toNat + len.toNat ∧ start.toNat < k + len.toNat) :
    s.getRegion ty (some a) start len (some ⟨p.block, ty.size * k⟩) = .ub .overlap ∧
      s.setRegion ty (some a) start len (some ⟨p.block, ty.size * k⟩) = .ub .overlap := by
  obtain ⟨q, h1, h2, h3, h4⟩ := region_ok h hi
  rw [h1] at hp
  cases hp
  have l1 : s.mem.load (some ⟨q, ty.size * start.toNat⟩) (ty.size * len.toNat) =
      .ok ((c.drop (ty.size * start.toNat)).take (ty.size * len.toNat)) := load_ok.2 ⟨_, rfl, c, h2, h4, rfl⟩
  have l2 : s.mem.load (some ⟨q, ty.size * k⟩) (ty.size * len.toNat) =
      .ok ((c.drop (ty.size * k)).take (ty.size * len.toNat)) := by
    refine load_ok.2 ⟨_, rfl, c, h2, ?_, rfl⟩
    show ty.size * k + _ ≤ _
    rw [h.size, ← Nat.mul_add]
    exact Nat.mul_le_mul_left _ hk
  have m1 : ty.size * k < ty.size * start.toNat + ty.size * len.toNat := by
    rw [← Nat.mul_add]; exact Nat.mul_lt_mul_of_pos_left ho.1 ty.size_pos
  have m2 : ty.size * start.toNat < ty.size * k + ty.size * len.toNat := by
    rw [← Nat.mul_add]; exact Nat.mul_lt_mul_of_pos_left ho.2 ty.size_pos
  refine ⟨?_, ?_⟩
  · simp [Arrays.getRegion, h3, Res.bind, Mem.memcpy, l1, l2, overlapping, m1, m2]
  · simp [Arrays.setRegion, h3, Res.bind, Mem.memcpy, l1, l2, overlapping, m1, m2]

/-- Every new array that is not empty leaks: an allocation made by the call belongs to no array and is there
whatever happens later. -/
theorem new_array_leaks (hr : ArraysReached s) {ty : ElemType} {length : Int} (hl : 0 < length) {a : Nat}
    (hs : s.newArray ty length = .ok (s', a)) :
    ∃ b, s.mem.blocks b = none ∧ s'.mem.blocks b = some (List.replicate (ty.size * length.toNat) 0) ∧
      ∀ ops s2, s'.run ops = .ok s2 →
        s2.mem.blocks b ≠ none ∧ ∀ a o, s2.objs a = some o → o.data ≠ some ⟨b, 0⟩ := by
  have hw := hr.wf
  have hw' := hw.newArray hs
  have hnone : s.mem.blocks s.mem.next = none := by
    cases hb : s.mem.blocks s.mem.next with
    | none => rfl
    | some c => exact absurd (hw.live _ (by rw [hb]; exact nofun)) (Nat.lt_irrefl _)
  rw [newArray_pos s ty hl] at hs
  cases hs
  have hblk : (s.mem.twice (ty.size * length.toNat)).blocks s.mem.next =
      some (List.replicate (ty.size * length.toNat) 0) :=
    (if_neg (by omega)).trans (if_pos rfl)
  refine ⟨s.mem.next, hnone, hblk, fun ops s2 h2 => ?_⟩
  refine Orphan.run hw' ⟨?_, ?_⟩ h2
  · show (s.mem.twice _).blocks _ ≠ none
    rw [hblk]; exact nofun
  · intro a o ho he
    obtain ⟨b, e, hb⟩ := hw'.obj a o ho
    have ho : (if a = s.next then some _ else s.objs a) = some o := ho
    by_cases ha : a = s.next
    · rw [if_pos ha] at ho
      cases ho
      injection he with he
      injection he with he
      omega
    · rw [if_neg ha] at ho
      obtain ⟨b', e', hb'⟩ := hw.obj a o ho
      rw [e'] at he
      cases he
      rw [hnone] at hb'
      exact nomatch hb'

/-- An empty array leaks nothing. -/
theorem new_array_empty (hr : ArraysReached s) (ty : ElemType) :
    ∃ s1 a s2, s.newArray ty 0 = .ok (s1, a) ∧ s1.destroy a = .ok s2 ∧ s2.mem.blocks = s.mem.blocks := by
  have hw := hr.wf
  have hd : (s.make (s.mem.alloc []).1 ⟨ty, some ⟨s.mem.next, 0⟩, 0, true⟩).1.destroy s.next =
      .ok ⟨(s.mem.alloc []).1.free ⟨s.mem.next, 0⟩, fun i => if i = s.next then none else
        if i = s.next then some ⟨ty, some ⟨s.mem.next, 0⟩, 0, true⟩ else s.objs i, s.next + 1⟩ := by
    simp [Arrays.make, Arrays.destroy]
  refine ⟨_, _, _, newArray_zero s ty, hd, ?_⟩
  funext b
  simp only [Mem.free, Mem.alloc]
  by_cases hb : b = s.mem.next
  · rw [if_pos hb, hb]
    cases hbb : s.mem.blocks s.mem.next with
    | none => rfl
    | some c => exact absurd (hw.live _ (by rw [hbb]; exact nofun)) (Nat.lt_irrefl _)
  · rw [if_neg hb, if_neg hb]

/-! ### Cases that meet the hypotheses -/

/-- Two arrays, a buffer, a write through the element pointer and a region read back. -/
def arraySample : List ArrayOp :=
  [.newArray .short 3, .newArray .int 2, .malloc [1, 2, 3, 4, 9], .setRegion .short (some 0) 1 2 (some ⟨4, 0⟩),
   .write (some ⟨3, 4⟩) [7, 7, 7, 7]]

example : ((Arrays.initial 0xcd).run arraySample).bind (fun s =>
      .ok (s.mem.blocks 1, s.mem.blocks 3, s.objs 0)) =
    .ok (some [0, 0, 1, 2, 3, 4], some [0, 0, 0, 0, 7, 7, 7, 7], some ⟨.short, some ⟨1, 0⟩, 3, true⟩) := by
  decide +kernel

/-- It is reached, array 0 holds what was written, and the region `[1, 3)` is in range with a buffer of its own. -/
example : ∃ s, ArraysReached s ∧ Holds s 0 .short 3 [0, 0, 1, 2, 3, 4] ∧ InRange 3 1 2 ∧
    At s.mem ⟨4, 1⟩ (ElemType.short.size * 2) [2, 3, 4, 9] ∧
    (∀ p, s.objs 0 = some ⟨.short, some p, 3, true⟩ → (4 : Nat) ≠ p.block) ∧ ¬ InRange 3 2 2 ∧
    s.objs 0 = some ⟨.short, some ⟨1, 0⟩, 3, true⟩ := by
  have h : ((Arrays.initial 0xcd).run arraySample).bind (fun s =>
      .ok (s.mem.blocks 1, s.objs 0, s.mem.blocks 4)) =
      .ok (some [0, 0, 1, 2, 3, 4], some ⟨.short, some ⟨1, 0⟩, 3, true⟩, some [1, 2, 3, 4, 9]) := by
    decide +kernel
  obtain ⟨s, h1, h2⟩ := Res.bind_eq_ok.1 h
  injection h2 with h2
  injection h2 with h2 h3
  injection h3 with h3 h4
  refine ⟨s, ⟨_, _, h1⟩, ⟨⟨_, h3, rfl, h2⟩, rfl⟩, by unfold InRange; decide, ⟨_, h4, by decide, by decide⟩, ?_,
    by unfold InRange; decide, h3⟩
  intro p hp
  rw [h3] at hp
  cases hp
  decide

/-- A region copied onto its neighbourhood through the element pointer, as in `region_overlap`. -/
example : (((Arrays.initial 0xcd).run arraySample).bind fun s =>
    (s.setRegion .short (some 0) 1 2 (some ⟨1, 0⟩)).bind fun _ => .ok ()) = .ub .overlap := by
  decide +kernel

end Jnivm
