import Verif.Model.CppArrays
/-! Lemmas about the memory of array objects in C++. -/
namespace Jnivm

variable {α : Type}

theorem toJsize_small {n : Nat} (h : n < 2147483648) : toJsize n = n := by
  unfold toJsize; rw [Int.bmod_def]; omega

theorem toJsize_le {n : Nat} : toJsize n ≤ n := by
  unfold toJsize; rw [Int.bmod_def]; split <;> omega

/-- What holds of arrays of which only those that own nothing are copied. -/
structure CppArrays.Inv (s : CppArrays α) : Prop where
  objLt : ∀ a o, s.objs a = some o → a < s.nextObj
  blockLt : ∀ b l, s.blocks b = some l → b < s.nextBlock
  owner : ∀ a o, s.objs a = some o → o.owner = true →
    ∃ b l, o.data = some ⟨b, 0⟩ ∧ s.blocks b = some l ∧ s.callers b = false ∧ o.length ≤ l.length
  sole : ∀ a a' o o' b, s.objs a = some o → s.objs a' = some o' → o.owner = true → o'.owner = true →
    o.data = some ⟨b, 0⟩ → o'.data = some ⟨b, 0⟩ → a = a'
  held : ∀ b l, s.blocks b = some l → s.callers b = false →
    ∃ a o, s.objs a = some o ∧ o.owner = true ∧ o.data = some ⟨b, 0⟩

theorem CppArrays.inv_initial (j : α) : (CppArrays.initial j).Inv := by
  constructor <;> intro a o <;> simp [CppArrays.initial]

theorem CppArrays.Inv.make_plain {s : CppArrays α} (h : s.Inv) {o : CppArray} (ho : o.owner = false) :
    (s.make o).1.Inv := by
  have key : ∀ a o', (s.make o).1.objs a = some o' → o'.owner = true → s.objs a = some o' ∧ a ≠ s.nextObj := by
    intro a o' h1 h2
    simp only [CppArrays.make] at h1
    split at h1
    · cases h1; rw [ho] at h2; cases h2
    · exact ⟨h1, by assumption⟩
  constructor
  · intro a o' h1
    simp only [CppArrays.make] at h1 ⊢
    split at h1
    · omega
    · have := h.objLt a o' h1; omega
  · exact h.blockLt
  · intro a o' h1 h2
    exact h.owner a o' (key a o' h1 h2).1 h2
  · intro a a' o1 o2 b h1 h2 h3 h4
    exact h.sole a a' o1 o2 b (key a o1 h1 h3).1 (key a' o2 h2 h4).1 h3 h4
  · intro b l h1 h2
    obtain ⟨a, o', h3, h4, h5⟩ := h.held b l h1 h2
    refine ⟨a, o', ?_, h4, h5⟩
    have := h.objLt a o' h3
    simp only [CppArrays.make]
    rw [if_neg (by omega)]; exact h3

theorem CppArrays.Inv.make_owner {s : CppArrays α} (h : s.Inv) {l : List α} {n : Int} (hn : n ≤ l.length) :
    ((s.alloc l false).1.make ⟨some ⟨s.nextBlock, 0⟩, n, true⟩).1.Inv := by
  generalize ht : ((s.alloc l false).1.make ⟨some ⟨s.nextBlock, 0⟩, n, true⟩).1 = t
  have e1 : ∀ a, t.objs a = if a = s.nextObj then some ⟨some ⟨s.nextBlock, 0⟩, n, true⟩ else s.objs a := by
    intro a; subst ht; rfl
  have e2 : ∀ b, t.blocks b = if b = s.nextBlock then some l else s.blocks b := by intro b; subst ht; rfl
  have e3 : ∀ b, t.callers b = if b = s.nextBlock then false else s.callers b := by intro b; subst ht; rfl
  have e4 : t.nextObj = s.nextObj + 1 := by subst ht; rfl
  have e5 : t.nextBlock = s.nextBlock + 1 := by subst ht; rfl
  clear ht
  constructor
  · intro a o' h1
    simp only [e1, e4] at h1 ⊢
    split at h1
    · omega
    · have := h.objLt a o' h1; omega
  · intro b l' h1
    simp only [e2, e5] at h1 ⊢
    split at h1
    · omega
    · have := h.blockLt b l' h1; omega
  · intro a o' h1 h2
    simp only [e1, e2, e3] at h1 ⊢
    split at h1
    · cases h1
      exact ⟨_, l, rfl, by simp, by simp, hn⟩
    · obtain ⟨b, l', h3, h4, h5, h6⟩ := h.owner a o' h1 h2
      have := h.blockLt b l' h4
      refine ⟨b, l', h3, ?_, ?_, h6⟩
      · rw [if_neg (by omega)]; exact h4
      · rw [if_neg (by omega)]; exact h5
  · intro a a' o1 o2 b h1 h2 h3 h4 h5 h6
    simp only [e1] at h1 h2
    have hb : ∀ x o, s.objs x = some o → o.owner = true → o.data = some ⟨s.nextBlock, 0⟩ → False := by
      intro x o g1 g2 g3
      obtain ⟨b', l', g4, g5, -⟩ := h.owner x o g1 g2
      rw [g3] at g4; cases g4
      have := h.blockLt _ _ g5; omega
    split at h1 <;> split at h2
    · omega
    · cases h1; cases h5
      exact absurd h6 (fun g => hb _ _ h2 h4 g)
    · cases h2; cases h6
      exact absurd h5 (fun g => hb _ _ h1 h3 g)
    · exact h.sole a a' o1 o2 b h1 h2 h3 h4 h5 h6
  · intro b l' h1 h2
    simp only [e1, e2, e3] at h1 h2 ⊢
    by_cases hb : b = s.nextBlock
    · subst hb
      exact ⟨s.nextObj, ⟨some ⟨s.nextBlock, 0⟩, n, true⟩, by simp, rfl, rfl⟩
    · rw [if_neg hb] at h1 h2
      obtain ⟨a, o', h3, h4, h5⟩ := h.held b l' h1 h2
      have := h.objLt a o' h3
      exact ⟨a, o', by rw [if_neg (by omega)]; exact h3, h4, h5⟩

theorem CppArrays.Inv.alloc_caller {s : CppArrays α} (h : s.Inv) (l : List α) : (s.alloc l true).1.Inv := by
  constructor
  · exact h.objLt
  · intro b l' h1
    simp only [CppArrays.alloc] at h1 ⊢
    split at h1
    · omega
    · have := h.blockLt b l' h1; omega
  · intro a o' h1 h2
    obtain ⟨b, l', h3, h4, h5, h6⟩ := h.owner a o' h1 h2
    have := h.blockLt b l' h4
    refine ⟨b, l', h3, ?_, ?_, h6⟩
    · simp only [CppArrays.alloc]; rw [if_neg (by omega)]; exact h4
    · simp only [CppArrays.alloc]; rw [if_neg (by omega)]; exact h5
  · exact h.sole
  · intro b l' h1 h2
    simp only [CppArrays.alloc] at h1 h2
    by_cases hb : b = s.nextBlock
    · rw [if_pos hb] at h2; cases h2
    · rw [if_neg hb] at h1 h2
      exact h.held b l' h1 h2

theorem CppArrays.free_some {s s' : CppArrays α} {p : Ptr} (h : s.free (some p) = .ok s') :
    (∃ l, s.blocks p.block = some l) ∧ p.off = 0 ∧
      s' = { s with blocks := fun b => if b = p.block then none else s.blocks b } := by
  unfold CppArrays.free at h
  dsimp only at h
  cases hb : s.blocks p.block with
  | none => rw [hb] at h; cases h
  | some l =>
    rw [hb] at h
    dsimp only at h
    split at h
    · cases h; exact ⟨⟨l, rfl⟩, by assumption, rfl⟩
    · cases h

theorem CppArrays.Inv.free_caller {s s' : CppArrays α} (h : s.Inv) {p : Ptr} (hp : s.callers p.block = true)
    (hs : s.free (some p) = .ok s') : s'.Inv := by
  obtain ⟨-, -, rfl⟩ := free_some hs
  constructor
  · exact h.objLt
  · intro b l h1
    simp only at h1
    split at h1
    · cases h1
    · exact h.blockLt b l h1
  · intro a o h1 h2
    obtain ⟨b, l, h3, h4, h5, h6⟩ := h.owner a o h1 h2
    refine ⟨b, l, h3, ?_, h5, h6⟩
    have : b ≠ p.block := by rintro rfl; rw [hp] at h5; cases h5
    simp only; rw [if_neg this]; exact h4
  · exact h.sole
  · intro b l h1 h2
    simp only at h1
    split at h1
    · cases h1
    · exact h.held b l h1 h2

theorem CppArrays.write_ok {s s' : CppArrays α} {p : Option Ptr} {i : Int} {x : α} (h : s.write p i x = .ok s') :
    ∃ q l, p = some q ∧ s.blocks q.block = some l ∧ 0 ≤ q.off + i ∧ q.off + i < l.length ∧
      s' = { s with blocks := fun b => if b = q.block then some (l.set (q.off + i).toNat x) else s.blocks b } := by
  unfold CppArrays.write at h
  cases p with
  | none => cases h
  | some q =>
    dsimp only at h
    cases hb : s.blocks q.block with
    | none => rw [hb] at h; cases h
    | some l =>
      rw [hb] at h; dsimp only at h
      split at h
      · rename_i hc
        cases h; exact ⟨q, l, rfl, hb, hc.1, hc.2, rfl⟩
      · cases h

theorem CppArrays.Inv.write {s s' : CppArrays α} (h : s.Inv) {p : Option Ptr} {i : Int} {x : α}
    (hs : s.write p i x = .ok s') : s'.Inv := by
  obtain ⟨q, l, -, hl, -, -, rfl⟩ := write_ok hs
  constructor
  · exact h.objLt
  · intro b l' h1
    simp only at h1
    split at h1
    · rename_i hb; subst hb; exact h.blockLt _ l hl
    · exact h.blockLt b l' h1
  · intro a o h1 h2
    obtain ⟨b, l', h3, h4, h5, h6⟩ := h.owner a o h1 h2
    by_cases hb : b = q.block
    · subst hb
      rw [hl] at h4; cases h4
      refine ⟨_, l.set (q.off + i).toNat x, h3, by simp, h5, ?_⟩
      rw [List.length_set]; exact h6
    · exact ⟨b, l', h3, by simp only; rw [if_neg hb]; exact h4, h5, h6⟩
  · exact h.sole
  · intro b l' h1 h2
    simp only at h1
    split at h1
    · rename_i hb; subst hb; exact h.held _ l hl h2
    · exact h.held b l' h1 h2

theorem CppArrays.destroy_ok {s s' : CppArrays α} {a : Nat} (h : s.destroy a = .ok s') :
    ∃ o t, s.objs a = some o ∧ (if o.owner then s.free o.data else .ok s) = .ok t ∧
      s' = { t with objs := fun i => if i = a then none else t.objs i } := by
  unfold CppArrays.destroy at h
  cases ho : s.objs a with
  | none => rw [ho] at h; cases h
  | some o =>
    rw [ho] at h; dsimp only at h
    obtain ⟨t, h1, h2⟩ := Res.bind_eq_ok.1 h
    cases h2
    exact ⟨o, t, rfl, h1, rfl⟩

/-- Destruction of an array that the rules were kept for: exactly its own memory goes. -/
theorem CppArrays.Inv.destroy_run {s : CppArrays α} (h : s.Inv) {a : Nat} {o : CppArray} (ho : s.objs a = some o) :
    s.destroy a = .ok { s with
      objs := fun i => if i = a then none else s.objs i
      blocks := fun b => if o.owner = true ∧ o.data = some ⟨b, 0⟩ then none else s.blocks b } := by
  unfold CppArrays.destroy
  rw [ho]; dsimp only
  cases hw : o.owner with
  | false => simp [Res.bind_ok]
  | true =>
    obtain ⟨b, l, h3, h4, h5, h6⟩ := h.owner a o ho hw
    rw [if_pos rfl, h3]
    unfold CppArrays.free
    simp only [h4, if_pos, Res.bind_ok, true_and, Option.some.injEq, Ptr.mk.injEq, and_true]
    congr 2
    funext b'
    by_cases hb : b' = b
    · subst hb; simp
    · rw [if_neg hb, if_neg (fun g => hb g.symm)]

theorem CppArrays.Inv.destroy {s s' : CppArrays α} (h : s.Inv) {a : Nat} (hs : s.destroy a = .ok s') : s'.Inv := by
  obtain ⟨o, -, ho, -, -⟩ := destroy_ok hs
  rw [h.destroy_run ho] at hs
  cases hs
  constructor
  · intro a' o' h1
    simp only at h1
    split at h1
    · cases h1
    · exact h.objLt a' o' h1
  · intro b l h1
    simp only at h1
    split at h1
    · cases h1
    · exact h.blockLt b l h1
  · intro a' o' h1 h2
    simp only at h1
    split at h1
    · cases h1
    · rename_i hne
      obtain ⟨b, l, h3, h4, h5, h6⟩ := h.owner a' o' h1 h2
      refine ⟨b, l, h3, ?_, h5, h6⟩
      simp only
      rw [if_neg, h4]
      intro ⟨g1, g2⟩
      exact hne (h.sole a' a o' o b h1 ho h2 g1 h3 g2)
  · intro a1 a2 o1 o2 b h1 h2
    simp only at h1 h2
    split at h1
    · cases h1
    · split at h2
      · cases h2
      · exact h.sole a1 a2 o1 o2 b h1 h2
  · intro b l h1 h2
    simp only at h1 h2
    split at h1
    · cases h1
    · rename_i hne
      obtain ⟨a', o', h3, h4, h5⟩ := h.held b l h1 h2
      refine ⟨a', o', ?_, h4, h5⟩
      simp only
      rw [if_neg, h3]
      rintro rfl
      rw [ho] at h3; cases h3
      exact hne ⟨h4, h5⟩

theorem CppArrays.Inv.assign {s s' : CppArrays α} (h : s.Inv) {a b : Nat}
    (ha : ∀ o, s.objs a = some o → o.owner = false) (hb : ∀ o, s.objs b = some o → o.owner = false)
    (hs : s.assign a b = .ok s') : s'.Inv := by
  unfold CppArrays.assign at hs
  cases h1 : s.objs a with
  | none => rw [h1] at hs; cases hs
  | some o1 =>
    cases h2 : s.objs b with
    | none => rw [h1, h2] at hs; cases hs
    | some o2 =>
      rw [h1, h2] at hs
      cases hs
      have key : ∀ x o, (if x = a then some o2 else s.objs x) = some o → o.owner = true →
          s.objs x = some o ∧ x ≠ a := by
        intro x o g1 g2
        split at g1
        · cases g1; rw [hb _ h2] at g2; cases g2
        · exact ⟨g1, by assumption⟩
      constructor
      · intro x o g1
        simp only at g1
        split at g1
        · subst x; exact h.objLt a o1 h1
        · exact h.objLt x o g1
      · exact h.blockLt
      · intro x o g1 g2
        exact h.owner x o (key x o g1 g2).1 g2
      · intro x x' o o' c g1 g2 g3 g4
        exact h.sole x x' o o' c (key x o g1 g3).1 (key x' o' g2 g4).1 g3 g4
      · intro c l g1 g2
        obtain ⟨x, o, g3, g4, g5⟩ := h.held c l g1 g2
        refine ⟨x, o, ?_, g4, g5⟩
        simp only
        rw [if_neg, g3]
        rintro rfl
        rw [ha _ g3] at g4; cases g4

theorem CppArrays.readAll_length {s : CppArrays α} {p : Option Ptr} {n : Nat} {l : List α}
    (h : s.readAll p n = .ok l) : l.length = n := by
  unfold CppArrays.readAll at h
  cases p with
  | none => cases h
  | some q =>
    dsimp only at h
    cases hb : s.blocks q.block with
    | none => rw [hb] at h; cases h
    | some c =>
      rw [hb] at h; dsimp only at h
      split at h
      · cases h; simp; omega
      · cases h

theorem CppArrays.Inv.step {s s' : CppArrays α} (h : s.Inv) {op : CppArrayOp α} (hc : s.Careful op)
    (hs : s.step op = .ok s') : s'.Inv := by
  cases op with
  | ofLength n =>
    obtain ⟨r, h1, h2⟩ := Res.bind_eq_ok.1 hs
    cases h2
    unfold CppArrays.ofLength at h1
    split at h1
    · cases h1
    · cases h1
      exact h.make_owner (by simp; omega)
  | empty => cases hs; exact h.make_plain rfl
  | ofVector v => cases hs; exact h.make_owner toJsize_le
  | ofPointer p n c =>
    obtain ⟨r, h1, h2⟩ := Res.bind_eq_ok.1 hs
    cases h2
    unfold CppArrays.ofPointer at h1
    cases c with
    | false => cases h1; exact h.make_plain rfl
    | true =>
      rw [if_pos rfl] at h1
      split at h1
      · cases h1
      · obtain ⟨l, h3, h4⟩ := Res.bind_eq_ok.1 h1
        cases h4
        have := readAll_length h3
        exact h.make_owner (by omega)
  | copy a =>
    obtain ⟨r, h1, h2⟩ := Res.bind_eq_ok.1 hs
    cases h2
    unfold CppArrays.copy at h1
    cases ho : s.objs a with
    | none => rw [ho] at h1; cases h1
    | some o =>
      rw [ho] at h1; cases h1
      exact h.make_plain (hc o ho)
  | assign a b => exact h.assign hc.1 hc.2 hs
  | set a i x =>
    simp only [CppArrays.step, CppArrays.set] at hs
    cases ho : s.objs a with
    | none => rw [ho] at hs; cases hs
    | some o => rw [ho] at hs; exact h.write hs
  | destroy a => exact h.destroy hs
  | malloc l => cases hs; exact h.alloc_caller l
  | free p => exact h.free_caller hc hs
  | write p i x => exact h.write hs

end Jnivm
