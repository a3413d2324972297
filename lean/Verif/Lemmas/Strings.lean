import Verif.Lemmas.Utf
/-! Helper lemmas about the string loops. -/
namespace Jnivm
open Spec.Mutf8

/-- `gs` are well-formed groups standing for the chars `cs`. -/
inductive Grouped : List Bytes → List JChar → Prop
  | nil : Grouped [] []
  | cons {g : Bytes} {c : JChar} {gs : List Bytes} {cs : List JChar} :
      Group (g.map BitVec.toNat) c.toNat → Grouped gs cs → Grouped (g :: gs) (c :: cs)

theorem Grouped.length {gs : List Bytes} {cs : List JChar} (h : Grouped gs cs) :
    gs.length = cs.length := by
  induction h with
  | nil => rfl
  | cons _ _ ih => simp [ih]

theorem group_lt {m : List Nat} {c : Nat} (h : Group m c) : c < 65536 := by
  cases h <;> omega

theorem group_pos {g : Bytes} {c : Nat} (h : Group (g.map BitVec.toNat) c) : 1 ≤ g.length := by
  generalize hm : g.map BitVec.toNat = m at h
  have : g.length = m.length := by rw [← hm, List.length_map]
  rw [this]
  cases h <;> simp

theorem Grouped.flatten_length {gs : List Bytes} {cs : List JChar} (h : Grouped gs cs) :
    gs.length ≤ gs.flatten.length := by
  induction h with
  | nil => simp
  | cons hg _ ih =>
    have := group_pos hg
    simp only [List.length_cons, List.flatten_cons, List.length_append]
    omega

theorem decodes_of_grouped {gs : List Bytes} {cs : List JChar} (h : Grouped gs cs) :
    Decodes (gs.flatten.map BitVec.toNat) (cs.map BitVec.toNat) := by
  induction h with
  | nil => exact Decodes.nil
  | cons hg _ ih =>
    rw [List.flatten_cons, List.map_append]
    exact Decodes.cons hg ih

theorem map_toNat_append {s : Bytes} {a b : List Nat} (h : s.map BitVec.toNat = a ++ b) :
    ∃ x y : Bytes, s = x ++ y ∧ x.map BitVec.toNat = a ∧ y.map BitVec.toNat = b := by
  refine ⟨s.take a.length, s.drop a.length, (List.take_append_drop _ _).symm, ?_, ?_⟩
  · rw [List.map_take, h, List.take_left']
    rfl
  · rw [List.map_drop, h, List.drop_left']
    rfl

theorem grouped_of_decodes {m : List Nat} {ns : List Nat} (h : Decodes m ns) :
    ∀ {s : Bytes}, s.map BitVec.toNat = m →
      ∃ gs cs, Grouped gs cs ∧ s = gs.flatten ∧ cs.map BitVec.toNat = ns := by
  induction h with
  | nil =>
    intro s hs
    refine ⟨[], [], Grouped.nil, ?_, rfl⟩
    simpa using hs
  | @cons g rest c cs hg _ ih =>
    intro s hs
    obtain ⟨x, y, rfl, hx, hy⟩ := map_toNat_append hs
    obtain ⟨gs, cs', hG, rfl, hcs⟩ := ih hy
    refine ⟨x :: gs, BitVec.ofNat 16 c :: cs', ?_, ?_, ?_⟩
    · refine Grouped.cons ?_ hG
      rw [hx, BitVec.toNat_ofNat, Nat.mod_eq_of_lt (by have := group_lt hg; omega)]
      exact hg
    · simp
    · rw [List.map_cons, BitVec.toNat_ofNat, Nat.mod_eq_of_lt (by have := group_lt hg; omega), hcs]

/-! ### NewString -/

theorem newStringLoop_ok (cs : List JChar) :
    ∃ gs, Grouped gs cs ∧ newStringLoop cs cs.length = .ok gs.flatten ∧
      gs.map (·.map BitVec.toNat) = cs.map (fun c => encode c.toNat) := by
  induction cs with
  | nil => exact ⟨[], Grouped.nil, rfl, rfl⟩
  | cons c cs ih =>
    obtain ⟨gs, h1, h2, h3⟩ := ih
    obtain ⟨g, hg1, hg2⟩ := jcharToUTF_spec c
    refine ⟨g :: gs, Grouped.cons ?_ h1, ?_, ?_⟩
    · rw [hg2]
      exact encode_group c.isLt
    · simp only [List.length_cons, newStringLoop, hg1, h2, Res.ok_bind, Res.pure_eq,
        List.flatten_cons]
    · rw [List.map_cons, List.map_cons, hg2, h3]

theorem newStringLoop_take (cs : List JChar) (k : Nat) (hk : k ≤ cs.length) :
    newStringLoop cs k = newStringLoop (cs.take k) k := by
  induction k generalizing cs with
  | zero => cases cs <;> rfl
  | succ k ih =>
    cases cs with
    | nil => simp at hk
    | cons c cs =>
      simp only [List.length_cons, Nat.add_le_add_iff_right] at hk
      simp only [newStringLoop, List.take_succ_cons]
      rw [ih cs hk]

/-! ### Loops over groups -/

theorem lengthLoop_grouped {gs : List Bytes} {cs : List JChar} (h : Grouped gs cs) :
    ∀ (pre : Bytes) (l : Nat), l + cs.length ≤ jsizeMax →
      getStringLengthLoop (pre ++ gs.flatten) pre.length l = .ok (l + cs.length) := by
  induction h with
  | nil =>
    intro pre l _
    unfold getStringLengthLoop
    simp
  | @cons g c gs cs hg hG ih =>
    intro pre l hl
    have hp := group_pos hg
    have hu := (utf_of_group (pre := pre) (post := gs.flatten) hg).1
    rw [List.append_assoc] at hu
    rw [getStringLengthLoop]
    simp only [List.length_cons] at hl
    rw [if_neg (by simp only [List.flatten_cons, List.length_append]; omega)]
    simp only [List.flatten_cons]
    split
    · rename_i n hn
      rw [hu, Res.ok.injEq] at hn
      subst hn
      rw [if_neg (by omega)]
      have := ih (pre ++ g) (l + 1) (by omega)
      rw [List.append_assoc, List.length_append] at this
      rw [this, List.length_cons]
      congr 1
      omega
    all_goals (rename_i hn; rw [hu] at hn; cases hn)

/-- More chars than the largest `jsize`, whatever follows: `length++` overflows. -/
theorem lengthLoop_long {gs : List Bytes} {cs : List JChar} (h : Grouped gs cs) (post : Bytes) :
    ∀ (pre : Bytes) (l : Nat), l ≤ jsizeMax → jsizeMax < l + cs.length →
      getStringLengthLoop (pre ++ (gs.flatten ++ post)) pre.length l = .ub .signedOverflow := by
  induction h with
  | nil =>
    intro pre l h1 h2
    simp only [List.length_nil] at h2
    omega
  | @cons g c gs cs hg hG ih =>
    intro pre l h1 h2
    have hp := group_pos hg
    have hu := (utf_of_group (pre := pre) (post := gs.flatten ++ post) hg).1
    rw [List.append_assoc] at hu
    have e : pre ++ ((g :: gs).flatten ++ post) = pre ++ (g ++ (gs.flatten ++ post)) := by simp
    rw [e, getStringLengthLoop]
    simp only [List.length_cons] at h2
    rw [if_neg (by simp only [List.length_append]; omega)]
    split
    · rename_i n hn
      rw [hu, Res.ok.injEq] at hn
      subst hn
      by_cases hl : l = jsizeMax
      · rw [if_pos hl]
      · rw [if_neg hl]
        have := ih (pre ++ g) (l + 1) (by omega) (by omega)
        rw [List.append_assoc, List.length_append] at this
        rw [this]
    all_goals (rename_i hn; rw [hu] at hn; cases hn)

/-- Without any assumption on the content: the loop succeeds, throws the format error, or
counts past the largest `jsize`. -/
theorem lengthLoop_cases (n : Nat) : ∀ (rest pre : Bytes) (l : Nat), rest.length ≤ n →
    l ≤ jsizeMax →
    (∃ gs cs, Grouped gs cs ∧ rest = gs.flatten ∧ l + cs.length ≤ jsizeMax) ∨
    ((¬ ∃ gs cs, Grouped gs cs ∧ rest = gs.flatten) ∧
      getStringLengthLoop (pre ++ rest) pre.length l = .throws .utfDataFormat) ∨
    (∃ gs cs post, Grouped gs cs ∧ rest = gs.flatten ++ post ∧ jsizeMax < l + cs.length) := by
  induction n with
  | zero =>
    intro rest pre l hn _
    left
    have : rest = [] := List.length_eq_zero_iff.1 (by omega)
    exact ⟨[], [], Grouped.nil, by simp [this], by simpa using ‹l ≤ jsizeMax›⟩
  | succ n ih =>
    intro rest pre l hn hl
    match rest with
    | [] => exact Or.inl ⟨[], [], Grouped.nil, rfl, by simpa using hl⟩
    | b0 :: rest =>
      rcases utf_inside pre b0 rest with ⟨g, post, c, hgp, hg, hp⟩ | ⟨hno, hlen, _⟩
      · have hu := (utf_of_group (pre := pre) (post := post) hg).1
        rw [List.append_assoc, ← hgp] at hu
        have hlen : (b0 :: rest).length = g.length + post.length := by rw [hgp, List.length_append]
        have hgc : Group (g.map BitVec.toNat) (BitVec.ofNat 16 c).toNat := by
          rw [BitVec.toNat_ofNat, Nat.mod_eq_of_lt (by have := group_lt hg; omega)]
          exact hg
        by_cases hmax : l = jsizeMax
        · right; right
          refine ⟨[g], [BitVec.ofNat 16 c], post, Grouped.cons hgc Grouped.nil, ?_, ?_⟩
          · rw [hgp, List.flatten_cons, List.flatten_nil, List.append_nil]
          · simp only [List.length_cons, List.length_nil]; omega
        rcases ih post (pre ++ g) (l + 1) (by omega) (by omega) with
          ⟨gs, cs, h1, h2, h3⟩ | ⟨h1, h2⟩ | ⟨gs, cs, post', h1, h2, h3⟩
        · left
          refine ⟨g :: gs, BitVec.ofNat 16 c :: cs, Grouped.cons hgc h1, ?_, ?_⟩
          · rw [hgp, h2, List.flatten_cons]
          · simp only [List.length_cons]; omega
        rotate_left
        · right; right
          refine ⟨g :: gs, BitVec.ofNat 16 c :: cs, post', Grouped.cons hgc h1, ?_, ?_⟩
          · rw [hgp, h2, List.flatten_cons, List.append_assoc]
          · simp only [List.length_cons]; omega
        · right; left
          constructor
          · rintro ⟨gs, cs, hG, he⟩
            cases hG with
            | nil => cases he
            | @cons g' c' gs' cs' hg' hG' =>
              apply h1
              refine ⟨gs', cs', hG', ?_⟩
              have hu' := (utf_of_group (pre := pre) (post := gs'.flatten) hg').1
              rw [List.append_assoc, ← List.flatten_cons, ← he, hu, Res.ok.injEq] at hu'
              rw [hgp, List.flatten_cons] at he
              exact (List.append_inj he hu').2
          · rw [getStringLengthLoop]
            rw [if_neg (by simp)]
            split
            · rename_i m hm
              rw [hu, Res.ok.injEq] at hm
              subst hm
              rw [if_neg (by omega)]
              rw [List.append_assoc, ← hgp, List.length_append] at h2
              exact h2
            all_goals (rename_i hm; rw [hu] at hm; cases hm)
      · right; left
        constructor
        · rintro ⟨gs, cs, hG, he⟩
          cases hG with
          | nil => cases he
          | @cons g' c' gs' cs' hg' hG' =>
            exact hno ⟨g', gs'.flatten, c'.toNat, by rw [he, List.flatten_cons], hg'⟩
        · rw [getStringLengthLoop]
          rw [if_neg (by simp)]
          split
          · rename_i m hm
            rw [hlen] at hm
            cases hm
          all_goals (rename_i hm; rw [hlen] at hm; cases hm)
          rfl

theorem skip_grouped {gs : List Bytes} {cs : List JChar} (h : Grouped gs cs) :
    ∀ (pre post : Bytes), skipChars (pre ++ gs.flatten ++ post) pre.length gs.length
      = .ok (pre.length + gs.flatten.length) := by
  induction h with
  | nil =>
    intro pre post
    unfold skipChars
    simp
  | @cons g c gs cs hg hG ih =>
    intro pre post
    have hu := (utf_of_group (pre := pre) (post := gs.flatten ++ post) hg).1
    have e : pre ++ (g :: gs).flatten ++ post = pre ++ g ++ (gs.flatten ++ post) := by simp
    rw [e, skipChars, if_neg (by simp only [List.length_cons]; omega)]
    split
    · rename_i n hn
      rw [hu, Res.ok.injEq] at hn
      subst hn
      have := ih (pre ++ g) post
      rw [List.append_assoc (pre ++ g), List.length_append] at this
      rw [show ((g :: gs).length : Int) - 1 = gs.length by simp only [List.length_cons]; omega,
        this]
      congr 1
      simp only [List.flatten_cons, List.length_append]
      omega
    all_goals (rename_i hn; rw [hu] at hn; cases hn)

theorem region_grouped {gs : List Bytes} {cs : List JChar} (h : Grouped gs cs) :
    ∀ (pre post : Bytes) (out : List JChar),
      regionLoop (pre ++ gs.flatten ++ post) pre.length out ((out.length + gs.length : Nat) : Int)
        = .ok (out ++ cs) := by
  induction h with
  | nil =>
    intro pre post out
    unfold regionLoop
    simp
  | @cons g c gs cs hg hG ih =>
    intro pre post out
    obtain ⟨j, hu, hj⟩ := (utf_of_group (pre := pre) (post := gs.flatten ++ post) hg).2
    have hjc : j = c := by rw [← BitVec.toNat_inj]; exact hj
    subst hjc
    have e : pre ++ (g :: gs).flatten ++ post = pre ++ g ++ (gs.flatten ++ post) := by simp
    rw [e, regionLoop, if_neg (by simp only [List.length_cons]; omega), if_neg (by omega),
      if_pos (by simp only [List.length_cons]; omega)]
    rw [hu]
    simp only
    have := ih (pre ++ g) post (out ++ [j])
    rw [List.append_assoc (pre ++ g), List.length_append, List.length_append] at this
    rw [show out.length + (g :: gs).length = out.length + [j].length + gs.length by
      simp only [List.length_cons, List.length_nil]; omega, this]
    simp

theorem readBytes_append (g : Bytes) : ∀ (pre post : Bytes),
    readBytes (pre ++ g ++ post) pre.length g.length = .ok g := by
  induction g with
  | nil => intros; rfl
  | cons b g ih =>
    intro pre post
    have e0 := cstrAt_append (pre := pre) (g := b :: g) (post := post) (i := 0) (by simp)
    simp only [Nat.add_zero, List.getElem_cons_zero] at e0
    have := ih (pre ++ [b]) post
    rw [List.length_append] at this
    simp only [List.length_cons, List.length_nil, List.append_assoc, List.cons_append,
      List.nil_append, Nat.zero_add] at this
    simp only [List.length_cons, readBytes, e0, Res.ok_bind]
    rw [List.append_assoc, List.cons_append, this]
    rfl

theorem utfRegion_grouped {gs : List Bytes} {cs : List JChar} (h : Grouped gs cs) :
    ∀ (pre post : Bytes), utfRegionLoop (pre ++ gs.flatten ++ post) pre.length gs.length
      = .ok (gs.flatten ++ [0#8]) := by
  induction h with
  | nil =>
    intro pre post
    unfold utfRegionLoop
    simp
  | @cons g c gs cs hg hG ih =>
    intro pre post
    have hu := (utf_of_group (pre := pre) (post := gs.flatten ++ post) hg).1
    have e : pre ++ (g :: gs).flatten ++ post = pre ++ g ++ (gs.flatten ++ post) := by simp
    rw [e, utfRegionLoop, if_neg (by simp only [List.length_cons]; omega)]
    split
    · rename_i n hn
      rw [hu, Res.ok.injEq] at hn
      subst hn
      rw [readBytes_append]
      have := ih (pre ++ g) post
      rw [List.append_assoc (pre ++ g), List.length_append] at this
      simp only
      rw [show ((g :: gs).length : Int) - 1 = gs.length by simp only [List.length_cons]; omega,
        this]
      simp
    all_goals (rename_i hn; rw [hu] at hn; cases hn)

theorem Grouped.append_inv {gs : List Bytes} {cs : List JChar} (h : Grouped gs cs) (k : Nat) :
    Grouped (gs.take k) (cs.take k) ∧ Grouped (gs.drop k) (cs.drop k) := by
  induction h generalizing k with
  | nil => simp [Grouped.nil]
  | cons hg hG ih =>
    cases k with
    | zero => exact ⟨by simpa using Grouped.nil, by simpa using Grouped.cons hg hG⟩
    | succ k => exact ⟨by simpa using Grouped.cons hg (ih k).1, by simpa using (ih k).2⟩

/-- The skip loop runs off the string if it is asked for a negative number of chars or
for more chars than there are, plus one for the NUL. -/
theorem skip_past {gs : List Bytes} {cs : List JChar} (h : Grouped gs cs) :
    ∀ (pre : Bytes) (start : Int), (start < 0 ∨ (gs.length : Int) + 1 < start) →
      skipChars (pre ++ gs.flatten) pre.length start = .ub .outOfBounds := by
  induction h with
  | nil =>
    intro pre start hs
    simp only [List.flatten_nil, List.append_nil, List.length_nil] at hs ⊢
    rw [skipChars, if_neg (by omega)]
    split
    · rename_i n hn
      rw [(utf_at_end pre).1, Res.ok.injEq] at hn
      subst hn
      rw [skipChars, if_neg (by omega)]
      have hp := (utf_past_end (s := pre) (cur := pre.length + 1) (by omega)).1
      split <;> rename_i hn <;> rw [hp] at hn <;> cases hn
      rfl
    all_goals (rename_i hn; rw [(utf_at_end pre).1] at hn; cases hn)
  | @cons g c gs cs hg hG ih =>
    intro pre start hs
    have hu := (utf_of_group (pre := pre) (post := gs.flatten) hg).1
    have e : pre ++ (g :: gs).flatten = pre ++ g ++ gs.flatten := by simp
    simp only [List.length_cons] at hs
    rw [e, skipChars, if_neg (by omega)]
    split
    · rename_i n hn
      rw [hu, Res.ok.injEq] at hn
      subst hn
      have := ih (pre ++ g) (start - 1) (by omega)
      rw [List.length_append] at this
      exact this
    all_goals (rename_i hn; rw [hu] at hn; cases hn)

/-- Skipping over all chars and the NUL. -/
theorem skip_nul {gs : List Bytes} {cs : List JChar} (hG : Grouped gs cs) : ∀ pre : Bytes,
    skipChars (pre ++ gs.flatten) pre.length ((gs.length : Int) + 1)
      = .ok (pre.length + gs.flatten.length + 1) := by
  induction hG with
  | nil =>
    intro pre
    simp only [List.flatten_nil, List.append_nil, List.length_nil]
    rw [skipChars, if_neg (by omega)]
    split
    · rename_i n hn
      rw [(utf_at_end pre).1, Res.ok.injEq] at hn
      subst hn
      rw [skipChars, if_pos (by omega)]
    all_goals (rename_i hn; rw [(utf_at_end pre).1] at hn; cases hn)
  | @cons g c gs cs hg hG ih =>
    intro pre
    have hu := (utf_of_group (pre := pre) (post := gs.flatten) hg).1
    have e : pre ++ (g :: gs).flatten = pre ++ g ++ gs.flatten := by simp
    rw [e, skipChars, if_neg (by omega)]
    split
    · rename_i n hn
      rw [hu, Res.ok.injEq] at hn
      subst hn
      have := ih (pre ++ g)
      rw [List.length_append] at this
      rw [show (((g :: gs).length : Nat) : Int) + 1 - 1 = ((gs.length : Nat) : Int) + 1 by
        simp only [List.length_cons]; omega, this]
      congr 1
      simp only [List.flatten_cons, List.length_append]
      omega
    all_goals (rename_i hn; rw [hu] at hn; cases hn)

/-- Reading chars up to and over the end of a string. -/
theorem region_past {gs : List Bytes} {cs : List JChar} (h : Grouped gs cs) :
    ∀ (pre : Bytes) (out : List JChar) (length : Int),
      (length < 0 ∨ (out.length + gs.length : Int) + 1 < length) →
      regionLoop (pre ++ gs.flatten) pre.length out length = .ub .outOfBounds := by
  induction h with
  | nil =>
    intro pre out length hs
    simp only [List.flatten_nil, List.append_nil, List.length_nil] at hs ⊢
    rw [regionLoop, if_neg (by omega)]
    by_cases hneg : length < 0
    · rw [if_pos hneg, (utf_at_end pre).2]
    · rw [if_neg hneg, if_pos (by omega), (utf_at_end pre).2]
      simp only
      rw [regionLoop, if_neg (by simp only [List.length_append, List.length_cons, List.length_nil]; omega),
        if_neg hneg, if_pos (by simp only [List.length_append, List.length_cons, List.length_nil]; omega),
        (utf_past_end (s := pre) (cur := pre.length + 1) (by omega)).2]
  | @cons g c gs cs hg hG ih =>
    intro pre out length hs
    obtain ⟨j, hu, hj⟩ := (utf_of_group (pre := pre) (post := gs.flatten) hg).2
    have e : pre ++ (g :: gs).flatten = pre ++ g ++ gs.flatten := by simp
    simp only [List.length_cons] at hs
    rw [e, regionLoop, if_neg (by omega)]
    by_cases hneg : length < 0
    · rw [if_pos hneg, hu]
    · rw [if_neg hneg, if_pos (by omega), hu]
      simp only
      have := ih (pre ++ g) (out ++ [j]) length (by
        simp only [List.length_append, List.length_cons, List.length_nil]; omega)
      rw [List.length_append] at this
      exact this

/-- Reading chars exactly one past the end sees the NUL. -/
theorem region_nul {gs : List Bytes} {cs : List JChar} (h : Grouped gs cs) :
    ∀ (pre : Bytes) (out : List JChar),
      regionLoop (pre ++ gs.flatten) pre.length out ((out.length + gs.length + 1 : Nat) : Int)
        = .ok (out ++ cs ++ [0#16]) := by
  induction h with
  | nil =>
    intro pre out
    simp only [List.flatten_nil, List.append_nil, List.length_nil]
    rw [regionLoop, if_neg (by omega), if_neg (by omega), if_pos (by omega), (utf_at_end pre).2]
    simp only
    rw [regionLoop, if_pos (by simp only [List.length_append, List.length_cons, List.length_nil])]
  | @cons g c gs cs hg hG ih =>
    intro pre out
    obtain ⟨j, hu, hj⟩ := (utf_of_group (pre := pre) (post := gs.flatten) hg).2
    have hjc : j = c := by rw [← BitVec.toNat_inj]; exact hj
    subst hjc
    have e : pre ++ (g :: gs).flatten = pre ++ g ++ gs.flatten := by simp
    rw [e, regionLoop, if_neg (by omega), if_neg (by omega), if_pos (by omega), hu]
    simp only
    have := ih (pre ++ g) (out ++ [j])
    rw [List.length_append, List.length_append] at this
    rw [show out.length + (g :: gs).length + 1 = out.length + [j].length + gs.length + 1 by
      simp only [List.length_cons, List.length_nil]; omega, this]
    simp

end Jnivm
