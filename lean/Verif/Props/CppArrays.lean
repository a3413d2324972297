import Verif.Lemmas.CppArrays
/-!
C61: the memory of array objects made, copied and destroyed by C++ code.
-/
namespace Jnivm

variable {α : Type} {j : α}

theorem CppArrays.Reached.inv {s : CppArrays α} (h : CppArrays.Reached j s) : s.Inv := by
  induction h with
  | initial => exact CppArrays.inv_initial j
  | step _ hc hs ih => exact ih.step hc hs

/-- A state in which array 0 was made of a vector, array 1 of a pointer without copying, array 2 of the same
pointer with copying. -/
def sampleArrays : CppArrays Nat :=
  match (CppArrays.initial 0).step (.ofVector [5, 6, 7]) with
  | .ok s => match s.step (.malloc [1, 2]) with
    | .ok s => match s.step (.ofPointer (some ⟨1, 0⟩) 2 false) with
      | .ok s => match s.step (.ofPointer (some ⟨1, 0⟩) 2 true) with
        | .ok s => s
        | _ => .initial 0
      | _ => .initial 0
    | _ => .initial 0
  | _ => .initial 0

theorem sampleArrays_reached : CppArrays.Reached 0 sampleArrays :=
  .step (op := .ofPointer (some ⟨1, 0⟩) 2 true)
    (.step (op := .ofPointer (some ⟨1, 0⟩) 2 false)
      (.step (op := .malloc [1, 2])
        (.step (op := .ofVector [5, 6, 7]) .initial trivial rfl) trivial rfl) trivial rfl) trivial rfl

/-- **C61.** `Array(length)` has the length asked for, or throws. -/
theorem array_of_length {s : CppArrays α} {n : Int} :
    (n < 0 → s.ofLength n = .throws .lengthError) ∧
    (0 ≤ n → ∃ s' a, s.ofLength n = .ok (s', a) ∧ s.objs a = s.objs s.nextObj ∧
      (∃ o, s'.objs a = some o ∧ o.length = n ∧ o.owner = true) ∧
      (∀ i, 0 ≤ i → i < n → s'.get a i = .ok s.junk) ∧
      (∀ i, i < 0 ∨ n ≤ i → s'.get a i = .ub .outOfBounds)) := by
  constructor
  · intro h; unfold CppArrays.ofLength; rw [if_pos h]
  · intro h
    unfold CppArrays.ofLength
    rw [if_neg (by omega)]
    refine ⟨_, _, rfl, rfl, ⟨⟨some ⟨s.nextBlock, 0⟩, n, true⟩, ?_, rfl, rfl⟩, ?_, ?_⟩
    · simp
    · intro i h0 h1
      simp only [CppArrays.get, CppArrays.read, if_pos]
      rw [if_neg (by omega), List.getElem?_eq_getElem (by simp; omega)]
      simp
    · intro i h0
      simp only [CppArrays.get, CppArrays.read, if_pos]
      split
      · rfl
      · rw [List.getElem?_eq_none (by simp; omega)]

/-- **C61.** An array of a vector has its elements, and its length if that is a `jsize`. -/
theorem array_of_vector {s : CppArrays α} {v : List α} :
    (∃ o, (s.ofVector v).1.objs (s.ofVector v).2 = some o ∧ o.owner = true ∧
      (v.length < 2147483648 → o.length = v.length)) ∧
    (∀ i (h : i < v.length), (s.ofVector v).1.get (s.ofVector v).2 i = .ok v[i]) ∧
    (∀ i : Int, i < 0 ∨ v.length ≤ i → (s.ofVector v).1.get (s.ofVector v).2 i = .ub .outOfBounds) := by
  refine ⟨⟨⟨some ⟨s.nextBlock, 0⟩, toJsize v.length, true⟩, ?_, rfl, by intro h; dsimp only; exact toJsize_small h⟩, ?_, ?_⟩
  · simp [CppArrays.ofVector, CppArrays.make, CppArrays.alloc]
  · intro i h
    simp only [CppArrays.ofVector, CppArrays.get, CppArrays.make, CppArrays.alloc, CppArrays.read, if_pos]
    rw [if_neg (by omega)]
    have : ((0 : Nat) + (i : Int)).toNat = i := by omega
    simp only [this, List.getElem?_eq_getElem h]
  · intro i h
    simp only [CppArrays.ofVector, CppArrays.get, CppArrays.make, CppArrays.alloc, CppArrays.read, if_pos]
    split
    · rfl
    · rw [List.getElem?_eq_none (by omega)]

/-- A vector of 2³¹ elements or more has a wrong length as an array: a negative one, or one too small. -/
theorem vector_length_truncated {s : CppArrays α} {v : List α} (h : 2147483648 ≤ v.length) :
    ∃ o, (s.ofVector v).1.objs (s.ofVector v).2 = some o ∧ o.length < v.length := by
  refine ⟨⟨some ⟨s.nextBlock, 0⟩, toJsize v.length, true⟩, ?_, ?_⟩
  · simp [CppArrays.ofVector, CppArrays.make, CppArrays.alloc]
  · dsimp only
    unfold toJsize; rw [Int.bmod_def]; split <;> omega

/-- **C61.** An array that copies a pointer's elements. -/
theorem array_of_pointer_copies {s s' : CppArrays α} {p : Option Ptr} {n : Int} {a : Nat}
    (h : s.ofPointer p n true = .ok (s', a)) :
    (∃ o, s'.objs a = some o ∧ o.length = n ∧ o.owner = true) ∧
    ∀ i, 0 ≤ i → i < n → s'.get a i = s.read p i := by
  unfold CppArrays.ofPointer at h
  rw [if_pos rfl] at h
  split at h
  · cases h
  · obtain ⟨l, h1, h2⟩ := Res.bind_eq_ok.1 h
    have hl := CppArrays.readAll_length h1
    cases h2
    refine ⟨⟨_, by simp; rfl, rfl, rfl⟩, ?_⟩
    intro i h0 hi
    simp only [CppArrays.get, CppArrays.read, if_pos]
    unfold CppArrays.readAll at h1
    cases p with
    | none => cases h1
    | some q =>
      dsimp only at h1 ⊢
      cases hb : s.blocks q.block with
      | none => rw [hb] at h1; cases h1
      | some c =>
        rw [hb] at h1; dsimp only at h1 ⊢
        split at h1
        · rename_i hle
          cases h1
          rw [if_neg (by omega), if_neg (by omega)]
          have h3 : ((0 : Nat) + i).toNat = i.toNat := by omega
          have h4 : (q.off + i).toNat = q.off + i.toNat := by omega
          rw [h3, h4, List.getElem?_take, if_pos (by omega), List.getElem?_drop]
        · cases h1

/-- Negative lengths: copying throws, not copying accepts them. -/
theorem array_of_pointer_negative {s : CppArrays α} {p : Option Ptr} {n : Int} (h : n < 0) :
    s.ofPointer p n true = .throws .lengthError ∧
    ∃ s' a o, s.ofPointer p n false = .ok (s', a) ∧ s'.objs a = some o ∧ o.length = n := by
  constructor
  · unfold CppArrays.ofPointer; rw [if_pos rfl, if_pos h]
  · exact ⟨_, _, ⟨p, n, false⟩, rfl, by simp, rfl⟩

/-- **C61.** The elements of an array that does not copy are the caller's memory, now and as long as the array
exists and is not assigned to. -/
theorem array_of_pointer_aliases {s s' : CppArrays α} {p : Option Ptr} {n : Int} {a : Nat}
    (h : s.ofPointer p n false = .ok (s', a)) :
    (∃ o, s'.objs a = some o ∧ o.length = n ∧ o.owner = false) ∧
    s'.blocks = s.blocks ∧
    ∀ t : CppArrays α, t.objs a = s'.objs a → (∀ i, t.get a i = t.read p i) ∧ (∀ i x, t.set a i x = t.write p i x) ∧
      ∃ t', t.destroy a = .ok t' ∧ t'.blocks = t.blocks := by
  cases h
  refine ⟨⟨⟨p, n, false⟩, by simp, rfl, rfl⟩, rfl, ?_⟩
  intro t ht
  have ht : t.objs s.nextObj = some ⟨p, n, false⟩ := by rw [ht]; simp
  refine ⟨fun i => ?_, fun i x => ?_, ?_⟩
  · simp [CppArrays.get, ht]
  · simp [CppArrays.set, ht]
  · refine ⟨{ t with objs := fun i => if i = s.nextObj then none else t.objs i }, ?_, rfl⟩
    simp [CppArrays.destroy, ht, Res.bind_ok]

/-- Which operations replace or remove the array. -/
def CppArrayOp.ends (a : Nat) : CppArrayOp α → Bool
  | .assign b _ => b == a
  | .destroy b => b == a
  | _ => false

/-- **C61.** Array objects change only by assignment and destruction. -/
theorem array_object_kept {s s' : CppArrays α} {op : CppArrayOp α} {a : Nat} (ha : a < s.nextObj)
    (he : op.ends a = false) (hs : s.step op = .ok s') : s'.objs a = s.objs a := by
  have mk : ∀ (t : CppArrays α) o, t.nextObj = s.nextObj → t.objs = s.objs → (t.make o).1.objs a = s.objs a := by
    intro t o h1 h2
    simp only [CppArrays.make, h1, h2]
    rw [if_neg (by omega)]
  cases op with
  | ofLength n =>
    obtain ⟨r, h1, h2⟩ := Res.bind_eq_ok.1 hs
    cases h2
    unfold CppArrays.ofLength at h1
    split at h1
    · cases h1
    · cases h1; exact mk _ _ rfl rfl
  | empty => cases hs; exact mk _ _ rfl rfl
  | ofVector v => cases hs; exact mk _ _ rfl rfl
  | ofPointer p n c =>
    obtain ⟨r, h1, h2⟩ := Res.bind_eq_ok.1 hs
    cases h2
    unfold CppArrays.ofPointer at h1
    cases c with
    | false => cases h1; exact mk _ _ rfl rfl
    | true =>
      rw [if_pos rfl] at h1
      split at h1
      · cases h1
      · obtain ⟨l, h3, h4⟩ := Res.bind_eq_ok.1 h1
        cases h4; exact mk _ _ rfl rfl
  | copy b =>
    obtain ⟨r, h1, h2⟩ := Res.bind_eq_ok.1 hs
    cases h2
    unfold CppArrays.copy at h1
    cases ho : s.objs b with
    | none => rw [ho] at h1; cases h1
    | some o => rw [ho] at h1; cases h1; exact mk _ _ rfl rfl
  | assign b c =>
    have hne : a ≠ b := by rintro rfl; simp [CppArrayOp.ends] at he
    simp only [CppArrays.step, CppArrays.assign] at hs
    split at hs
    · cases hs; simp [hne]
    · cases hs
  | set b i x =>
    simp only [CppArrays.step, CppArrays.set] at hs
    cases ho : s.objs b with
    | none => rw [ho] at hs; cases hs
    | some o =>
      rw [ho] at hs
      obtain ⟨q, l, -, -, -, -, rfl⟩ := CppArrays.write_ok hs; rfl
  | destroy b =>
    have hne : a ≠ b := by rintro rfl; simp [CppArrayOp.ends] at he
    obtain ⟨o, t, -, h1, rfl⟩ := CppArrays.destroy_ok hs
    have : t.objs = s.objs := by
      split at h1
      · cases hd : o.data with
        | none => rw [hd] at h1; cases h1; rfl
        | some p => rw [hd] at h1; obtain ⟨-, -, rfl⟩ := CppArrays.free_some h1; rfl
      · cases h1; rfl
    simp [hne, this]
  | malloc l => cases hs; rfl
  | free p => obtain ⟨-, -, rfl⟩ := CppArrays.free_some hs; rfl
  | write p i x => obtain ⟨q, l, -, -, -, -, rfl⟩ := CppArrays.write_ok hs; rfl

/-- **C61 (partial).** As long as code copies only arrays that own nothing: every element inside the length of
an owning array can be read and written, every array can be destroyed, and destroying it deletes exactly the memory it
owns.  Missing: the rules themselves; see `copy_double_free`. -/
theorem array_memory_partial {s : CppArrays α} (h : CppArrays.Reached j s) {a : Nat} {o : CppArray}
    (ho : s.objs a = some o) :
    (o.owner = true → ∀ i, 0 ≤ i → i < o.length → (∃ x, s.get a i = .ok x) ∧
      ∀ y, ∃ s', s.set a i y = .ok s' ∧ s'.get a i = .ok y) ∧
    ∃ s', s.destroy a = .ok s' ∧ s'.objs a = none ∧ (∀ a', a' ≠ a → s'.objs a' = s.objs a') ∧
      ∀ b, s'.blocks b = if o.owner = true ∧ o.data = some ⟨b, 0⟩ then none else s.blocks b := by
  constructor
  · intro hw i h0 h1
    obtain ⟨b, l, h3, h4, h5, h6⟩ := h.inv.owner a o ho hw
    have hi : ((0 : Nat) + i).toNat < l.length := by omega
    constructor
    · refine ⟨l[((0 : Nat) + i).toNat], ?_⟩
      simp only [CppArrays.get, ho, h3, CppArrays.read, h4]
      rw [if_neg (by omega), List.getElem?_eq_getElem hi]
    · intro y
      refine ⟨_, by simp only [CppArrays.set, ho, h3, CppArrays.write, h4]; rw [if_pos (by omega)], ?_⟩
      simp only [CppArrays.get, ho, h3, CppArrays.read, if_pos]
      rw [if_neg (by omega), List.getElem?_set_self hi]
  · refine ⟨_, h.inv.destroy_run ho, by simp, ?_, fun b => rfl⟩
    intro a' hne
    simp [hne]

/-- Whether an operation stores an element to allocation `b`. -/
def CppArrayOp.stores (s : CppArrays α) (b : Nat) : CppArrayOp α → Bool
  | .set a _ _ => (s.objs a).any fun o => o.data.any fun p => p.block == b
  | .write p _ _ => p.any fun p => p.block == b
  | _ => false

/-- **C61.** The elements of an array that owns memory stay what they are until they are stored to or the
array is destroyed: code that keeps the rules cannot free or reuse the memory otherwise. -/
theorem array_elements_kept {s s' : CppArrays α} (h : CppArrays.Reached j s) {a b : Nat} {o : CppArray}
    (ho : s.objs a = some o) (hw : o.owner = true) (hd : o.data = some ⟨b, 0⟩) {op : CppArrayOp α}
    (hc : s.Careful op) (hs : s.step op = .ok s') (he : op.ends a = false) (hn : op.stores s b = false) :
    s'.objs a = some o ∧ s'.blocks b = s.blocks b ∧ ∀ i, s'.get a i = s.get a i := by
  have hlt := h.inv.objLt a o ho
  have h1 : s'.objs a = some o := by rw [array_object_kept hlt he hs]; exact ho
  obtain ⟨b', l, h3, h4, h5, -⟩ := h.inv.owner a o ho hw
  rw [hd] at h3; cases h3
  have hb := h.inv.blockLt b l h4
  have h2 : s'.blocks b = s.blocks b := by
    have al : ∀ l c, (s.alloc l c).1.blocks b = s.blocks b := by
      intro l c; simp only [CppArrays.alloc]; rw [if_neg (by omega)]
    have wr : ∀ p i x, (∀ q, p = some q → q.block ≠ b) → s.write p i x = .ok s' → s'.blocks b = s.blocks b := by
      intro p i x hp hs
      obtain ⟨q, l, hq, -, -, -, rfl⟩ := CppArrays.write_ok hs
      simp only
      rw [if_neg (fun g => hp q hq g.symm)]
    cases op with
    | ofLength n =>
      obtain ⟨r, g1, g2⟩ := Res.bind_eq_ok.1 hs
      cases g2
      unfold CppArrays.ofLength at g1
      split at g1
      · cases g1
      · cases g1; exact al _ false
    | empty => cases hs; rfl
    | ofVector v => cases hs; exact al _ false
    | ofPointer p n c =>
      obtain ⟨r, g1, g2⟩ := Res.bind_eq_ok.1 hs
      cases g2
      unfold CppArrays.ofPointer at g1
      cases c with
      | false => cases g1; rfl
      | true =>
        rw [if_pos rfl] at g1
        split at g1
        · cases g1
        · obtain ⟨l, g3, g4⟩ := Res.bind_eq_ok.1 g1
          cases g4; exact al _ false
    | copy x =>
      obtain ⟨r, g1, g2⟩ := Res.bind_eq_ok.1 hs
      cases g2
      unfold CppArrays.copy at g1
      cases ho : s.objs x with
      | none => rw [ho] at g1; cases g1
      | some o => rw [ho] at g1; cases g1; rfl
    | assign x y =>
      simp only [CppArrays.step, CppArrays.assign] at hs
      split at hs
      · cases hs; rfl
      · cases hs
    | set x i v =>
      simp only [CppArrays.step, CppArrays.set] at hs
      cases hx : s.objs x with
      | none => rw [hx] at hs; cases hs
      | some ox =>
        rw [hx] at hs
        refine wr _ _ _ ?_ hs
        intro q hq g
        simp [CppArrayOp.stores, hx, hq, g] at hn
    | destroy x =>
      have hne : a ≠ x := by rintro rfl; simp [CppArrayOp.ends] at he
      obtain ⟨ox, -, hx, -, -⟩ := CppArrays.destroy_ok hs
      simp only [CppArrays.step] at hs
      rw [h.inv.destroy_run hx] at hs
      cases hs
      simp only
      rw [if_neg]
      rintro ⟨g1, g2⟩
      exact hne (h.inv.sole a x o ox b ho hx hw g1 hd g2)
    | malloc l => cases hs; exact al _ true
    | free p =>
      obtain ⟨-, -, rfl⟩ := CppArrays.free_some hs
      simp only
      rw [if_neg]
      rintro rfl
      have hc : s.callers p.block = true := hc
      rw [h5] at hc; cases hc
    | write p i v =>
      refine wr _ _ _ ?_ hs
      intro q hq g
      simp [CppArrayOp.stores, hq, g] at hn
  refine ⟨h1, h2, fun i => ?_⟩
  simp only [CppArrays.get, h1, ho, hd, CppArrays.read, h2]

/-- Writing to one owning array leaves the others' elements as they are. -/
theorem array_write_independent {s s' : CppArrays α} (h : CppArrays.Reached j s) {a a' : Nat} {o o' : CppArray}
    (ho : s.objs a = some o) (ho' : s.objs a' = some o') (hw : o.owner = true) (hw' : o'.owner = true)
    (hne : a ≠ a') {i : Int} {x : α} (hs : s.set a i x = .ok s') (k : Int) : s'.get a' k = s.get a' k := by
  obtain ⟨b, l, h3, h4, -, -⟩ := h.inv.owner a o ho hw
  obtain ⟨b', l', h3', h4', -, -⟩ := h.inv.owner a' o' ho' hw'
  have hb : b' ≠ b := by
    rintro rfl
    exact hne (h.inv.sole a a' o o' b' ho ho' hw hw' h3 h3')
  simp only [CppArrays.set, ho] at hs
  obtain ⟨q, l2, hq, -, -, -, rfl⟩ := CppArrays.write_ok hs
  rw [h3] at hq; cases hq
  simp only [CppArrays.get, ho', h3', CppArrays.read]
  rw [if_neg hb]

/-- **C61.** Nothing leaks: memory that arrays allocated is live exactly as long as one array owns it, and only
one does. -/
theorem array_no_leak {s : CppArrays α} (h : CppArrays.Reached j s) (b : Nat) (hb : s.callers b = false) :
    ((s.blocks b).isSome ↔ ∃ a o, s.objs a = some o ∧ o.owner = true ∧ o.data = some ⟨b, 0⟩) ∧
    ∀ a a' o o', s.objs a = some o → s.objs a' = some o' → o.owner = true → o'.owner = true →
      o.data = some ⟨b, 0⟩ → o'.data = some ⟨b, 0⟩ → a = a' := by
  refine ⟨⟨?_, ?_⟩, fun a a' o o' => h.inv.sole a a' o o' b⟩
  · intro hl
    obtain ⟨l, hl⟩ := Option.isSome_iff_exists.1 hl
    exact h.inv.held b l hl hb
  · rintro ⟨a, o, h1, h2, h3⟩
    obtain ⟨b', l, h4, h5, -⟩ := h.inv.owner a o h1 h2
    rw [h3] at h4; cases h4
    rw [h5]; rfl

/-- **C61 fails for copies**: the copy of an array that owns memory shares it.  After one of the two is
destroyed, in either order, the other's elements dangle and destroying it deletes the memory again. -/
theorem copy_double_free {s s1 : CppArrays α} (h : CppArrays.Reached j s) {a c : Nat} {o : CppArray}
    (ho : s.objs a = some o) (hw : o.owner = true) (hc : s.copy a = .ok (s1, c)) :
    c ≠ a ∧ ∀ x y, (x = a ∧ y = c) ∨ (x = c ∧ y = a) → ∃ s2, s1.destroy x = .ok s2 ∧
      s2.destroy y = .ub .dangling ∧ ∀ i, s2.get y i = .ub .dangling := by
  obtain ⟨b, l, h3, h4, h5, h6⟩ := h.inv.owner a o ho hw
  have hlt := h.inv.objLt a o ho
  simp only [CppArrays.copy, ho] at hc
  cases hc
  refine ⟨by omega, ?_⟩
  have e1 : (s.make o).1.objs a = some o := by
    simp only [CppArrays.make]; rw [if_neg (by omega)]; exact ho
  have e2 : (s.make o).1.objs s.nextObj = some o := by simp [CppArrays.make]
  have e3 : (s.make o).1.blocks b = some l := h4
  show ∀ x y, (x = a ∧ y = s.nextObj) ∨ (x = s.nextObj ∧ y = a) → ∃ s2, (s.make o).1.destroy x = .ok s2 ∧
      s2.destroy y = .ub .dangling ∧ ∀ i, s2.get y i = .ub .dangling
  generalize (s.make o).1 = t at e1 e2 e3 ⊢
  intro x y hxy
  have hne : y ≠ x := by omega
  have ex : t.objs x = some o := by rcases hxy with ⟨rfl, -⟩ | ⟨rfl, -⟩ <;> assumption
  have ey : t.objs y = some o := by rcases hxy with ⟨-, rfl⟩ | ⟨-, rfl⟩ <;> assumption
  refine ⟨{ t with
      blocks := fun b' => if b' = b then none else t.blocks b'
      objs := fun i => if i = x then none else t.objs i }, ?_, ?_, ?_⟩
  · simp only [CppArrays.destroy, ex, hw, if_pos, h3, CppArrays.free, e3, Res.bind_ok]
  · simp only [CppArrays.destroy, if_neg hne, ey, hw, if_pos, h3, CppArrays.free]; rfl
  · intro i
    simp only [CppArrays.get, if_neg hne, ey, h3, CppArrays.read, if_pos]

/-- Copying and destroying both is fine exactly for arrays that own nothing. -/
theorem copy_ok_iff {s s1 : CppArrays α} (h : CppArrays.Reached j s) {a c : Nat} {o : CppArray}
    (ho : s.objs a = some o) (hc : s.copy a = .ok (s1, c)) :
    (∃ s2, ((s1.destroy a).bind fun s => s.destroy c) = .ok s2) ↔ o.owner = false := by
  constructor
  · rintro ⟨s2, h2⟩
    cases hw : o.owner with
    | false => rfl
    | true =>
      obtain ⟨-, h3⟩ := copy_double_free h ho hw hc
      obtain ⟨t, h4, h5, -⟩ := h3 a c (.inl ⟨rfl, rfl⟩)
      rw [h4, Res.bind_ok, h5] at h2
      cases h2
  · intro hw
    have hr : CppArrays.Reached j s1 :=
      .step (op := .copy a) h (fun o' ho' => by rw [ho] at ho'; cases ho'; exact hw)
        (by simp only [CppArrays.step, hc, Res.bind_ok])
    have hlt := h.inv.objLt a o ho
    simp only [CppArrays.copy, ho] at hc
    cases hc
    have e1 : (s.make o).1.objs a = some o := by
      simp only [CppArrays.make]; rw [if_neg (by omega)]; exact ho
    obtain ⟨-, s2, h2, -, h3, -⟩ := array_memory_partial hr e1
    have hr2 : CppArrays.Reached j s2 := .step (op := .destroy a) hr trivial h2
    have e2 : s2.objs s.nextObj = some o := by
      rw [h3 _ (by omega)]; simp
    obtain ⟨-, s3, h4, -⟩ := array_memory_partial hr2 e2
    exact ⟨s3, by rw [h2, Res.bind_ok]; exact h4⟩

/-- **C61 fails for assignments**: after `*a = *b` both own the memory of `b`, and no array owns the memory that `a`
had. -/
theorem assign_leaks {s s1 : CppArrays α} (h : CppArrays.Reached j s) {a b : Nat} {o o' : CppArray}
    (ho : s.objs a = some o) (ho' : s.objs b = some o') (hw : o.owner = true) (hw' : o'.owner = true)
    (hne : a ≠ b) (hs : s.assign a b = .ok s1) :
    (∃ p, o.data = some ⟨p, 0⟩ ∧ (s1.blocks p).isSome ∧ s1.callers p = false ∧
      ∀ x ox, s1.objs x = some ox → ox.owner = true → ox.data ≠ some ⟨p, 0⟩) ∧
    ∃ s2, s1.destroy b = .ok s2 ∧ s2.destroy a = .ub .dangling := by
  obtain ⟨p, l, h3, h4, h5, -⟩ := h.inv.owner a o ho hw
  obtain ⟨p', l', h3', h4', -, -⟩ := h.inv.owner b o' ho' hw'
  simp only [CppArrays.assign, ho, ho'] at hs
  cases hs
  refine ⟨⟨p, h3, by simp [h4], h5, ?_⟩, ?_⟩
  · intro x ox hx hwx hd
    simp only at hx
    split at hx
    · cases hx
      exact hne (h.inv.sole a b o o' p ho ho' hw hw' h3 hd)
    · rename_i hxa
      exact hxa (h.inv.sole x a ox o p hx ho hwx hw hd h3)
  · refine ⟨{ s with
      blocks := fun b' => if b' = p' then none else s.blocks b'
      objs := fun i => if i = b then none else if i = a then some o' else s.objs i }, ?_, ?_⟩
    · simp only [CppArrays.destroy, if_neg (Ne.symm hne), ho', hw', if_pos, h3', CppArrays.free, h4', Res.bind_ok]
    · simp only [CppArrays.destroy, if_neg hne, if_pos, hw', h3', CppArrays.free]; rfl

example : sampleArrays.get 0 2 = .ok 7 ∧ sampleArrays.get 1 1 = .ok 2 ∧ sampleArrays.get 2 1 = .ok 2 := ⟨rfl, rfl, rfl⟩

example : ∃ o, sampleArrays.objs 0 = some o ∧ o.owner = true ∧ ∃ s1, sampleArrays.copy 0 = .ok (s1, 3) :=
  ⟨_, rfl, rfl, _, rfl⟩

example : ∃ o, sampleArrays.objs 1 = some o ∧ o.owner = false := ⟨_, rfl, rfl⟩

example : ∃ o o' s1, sampleArrays.objs 0 = some o ∧ sampleArrays.objs 2 = some o' ∧ o.owner = true ∧
    o'.owner = true ∧ sampleArrays.assign 0 2 = .ok s1 := ⟨_, _, _, rfl, rfl, rfl, rfl, rfl⟩

example : ∃ s', sampleArrays.set 0 1 9 = .ok s' ∧ s'.get 0 1 = .ok 9 ∧ s'.get 2 1 = .ok 2 := ⟨_, rfl, rfl, rfl⟩

example : ∃ s' a, sampleArrays.ofPointer (some ⟨0, 1⟩) 2 true = .ok (s', a) ∧ s'.get a 1 = .ok 7 := ⟨_, _, rfl, rfl⟩

example : ∃ o s', sampleArrays.objs 2 = some o ∧ o.owner = true ∧ o.data = some ⟨2, 0⟩ ∧
    sampleArrays.Careful (.free ⟨1, 0⟩) ∧ sampleArrays.step (.free ⟨1, 0⟩) = .ok s' ∧
    (CppArrayOp.free ⟨1, 0⟩ : CppArrayOp Nat).stores sampleArrays 2 = false ∧
    s'.get 2 0 = .ok 1 ∧ s'.get 1 0 = .ub .dangling := ⟨_, _, rfl, rfl, rfl, rfl, rfl, rfl, rfl, rfl⟩

end Jnivm
