import Verif.Lemmas.Strings
/-!
Properties of JNI strings (C01–C06).

A `String` object is its byte content; `some s` is a non-null `jstring`.
-/
namespace Jnivm
open Spec.Mutf8

/-- The three-char string used by the examples: `A`, `\u0000`, a lone high surrogate. -/
def demoChars : List JChar := [0x41#16, 0x0000#16, 0xD83D#16]

/-! ### C01 -/

/-- C01. Whatever jchars a string is made from, its length and its chars are reported
unchanged, both by `GetStringRegion` over the whole string and by `GetStringChars`.
`jsizeMax` is the largest length JNI can express. -/
theorem string_roundtrip (cs : List JChar) (hlen : cs.length ≤ jsizeMax) :
    ∃ s, newString cs cs.length = .ok s ∧
      getStringLength (some s) = .ok cs.length ∧
      getStringRegion (some s) 0 cs.length = .ok cs ∧
      getStringChars (some s) = .ok cs := by
  obtain ⟨gs, hG, hns, -⟩ := newStringLoop_ok cs
  have hgl := hG.length
  have h1 : getStringLength (some gs.flatten) = .ok cs.length := by
    have := lengthLoop_grouped hG [] 0 (by omega)
    simpa [getStringLength] using this
  have h2 : getStringRegion (some gs.flatten) 0 cs.length = .ok cs := by
    have := region_grouped hG [] [] []
    simp only [getStringRegion]
    rw [show skipChars gs.flatten 0 0 = .ok 0 by rw [skipChars]; simp]
    simpa [hgl] using this
  refine ⟨gs.flatten, ?_, h1, h2, ?_⟩
  · simpa [newString] using hns
  · simp only [getStringChars, h1]
    exact h2

example : demoChars.length ≤ jsizeMax ∧
    newString demoChars 3 = .ok [0x41#8, 0xC0#8, 0x80#8, 0xED#8, 0xA0#8, 0xBD#8] := by
  decide

/-- C01, for a caller that passes only a prefix of its buffer, or a negative size. -/
theorem newString_prefix (cs : List JChar) (size : Int) (h : size ≤ cs.length) :
    newString cs size = newString (cs.take size.toNat) size.toNat := by
  unfold newString
  rw [newStringLoop_take cs size.toNat (by omega)]
  rfl

example : (2 : Int) ≤ demoChars.length ∧ newString demoChars 2 = .ok [0x41#8, 0xC0#8, 0x80#8] := by
  decide

/-! ### C02 -/

/-- C02. The stored bytes are the modified UTF-8 encoding of the chars. -/
theorem newString_encodes (cs : List JChar) :
    ∃ s, newString cs cs.length = .ok s ∧
      s.map BitVec.toNat = encodeAll (cs.map BitVec.toNat) := by
  obtain ⟨gs, -, hns, hm⟩ := newStringLoop_ok cs
  refine ⟨gs.flatten, by simpa [newString] using hns, ?_⟩
  rw [List.map_flatten, hm, encodeAll, List.flatMap_map, List.flatMap_def]

/-- C02. No stored byte is zero, so C code sees the whole string; the C string seen
through `GetStringUTFChars` is the content and `GetStringUTFLength` counts it. -/
theorem newString_no_nul (cs : List JChar) (s : Bytes) (h : newString cs cs.length = .ok s) :
    (∀ b ∈ s, b ≠ 0#8) ∧ cString (getStringUTFChars (some s)) = s ∧
      (s.length ≤ jsizeMax → getStringUTFLength (some s) = .ok s.length) := by
  obtain ⟨s', h', hm⟩ := newString_encodes cs
  rw [h, Res.ok.injEq] at h'
  subst h'
  have hz : ∀ b ∈ s, b ≠ 0#8 := by
    intro b hb h0
    have : b.toNat ∈ s.map BitVec.toNat := List.mem_map_of_mem hb
    rw [hm, encodeAll, List.mem_flatMap] at this
    obtain ⟨c, -, hc⟩ := this
    exact encode_ne_zero c _ hc (by rw [h0]; rfl)
  refine ⟨hz, ?_, ?_⟩
  · simp only [cString, getStringUTFChars]
    rw [List.takeWhile_append_of_pos (by simpa using hz)]
    simp
  · intro hl
    simp only [getStringUTFLength]
    rw [if_neg (by omega)]

example : newString demoChars demoChars.length = .ok [0x41#8, 0xC0#8, 0x80#8, 0xED#8, 0xA0#8, 0xBD#8] := by
  decide

/-- C02. Different char sequences are stored differently. -/
theorem newString_injective (cs ds : List JChar) (s : Bytes)
    (hc : newString cs cs.length = .ok s) (hd : newString ds ds.length = .ok s) : cs = ds := by
  obtain ⟨gs, hG, hgs, -⟩ := newStringLoop_ok cs
  obtain ⟨hs, hH, hhs, -⟩ := newStringLoop_ok ds
  have e1 : gs.flatten = s := by
    simp only [newString, Int.toNat_natCast] at hc
    rw [hgs, Res.ok.injEq] at hc; exact hc
  have e2 : hs.flatten = s := by
    simp only [newString, Int.toNat_natCast] at hd
    rw [hhs, Res.ok.injEq] at hd; exact hd
  have key : ∀ {gs : List Bytes} {cs : List JChar}, Grouped gs cs →
      ∀ {hs : List Bytes} {ds : List JChar}, Grouped hs ds → gs.flatten = hs.flatten → cs = ds := by
    intro gs cs hG
    induction hG with
    | nil =>
      intro hs ds hH he
      have := hH.flatten_length
      rw [← he] at this
      cases hH with
      | nil => rfl
      | cons _ _ => simp at this
    | @cons g c gs cs hg hG ih =>
      intro hs ds hH he
      cases hH with
      | nil =>
        have := group_pos hg
        have h0 := congrArg List.length he
        simp only [List.flatten_cons, List.length_append, List.flatten_nil, List.length_nil] at h0
        omega
      | @cons g' d hs ds hg' hH =>
        obtain ⟨u1, j, u2, u3⟩ := utf_of_group (pre := []) (post := gs.flatten) hg
        obtain ⟨v1, k, v2, v3⟩ := utf_of_group (pre := []) (post := hs.flatten) hg'
        simp only [List.flatten_cons] at he
        simp only [List.nil_append] at u1 u2 v1 v2
        rw [he] at u1 u2
        rw [v1, Res.ok.injEq] at u1
        rw [v2, Res.ok.injEq, Prod.mk.injEq] at u2
        have hcd : c = d := by
          rw [← BitVec.toNat_inj, ← u3, ← v3, u2.1]
        rw [hcd, ih hH (List.append_inj he u1.symm).2]
  exact key hG hH (e1.trans e2.symm)

example : newString [0x80#16] 1 = .ok [0xC2#8, 0x80#8] ∧ newString [0xC2#16, 0x80#16] 2 ≠ .ok [0xC2#8, 0x80#8] := by
  decide

/-! ### C03 -/

/-- C03. A C string comes back up to its first NUL, with its `strlen`. -/
theorem newStringUTF_roundtrip (content rest : Bytes) (hnul : ∀ b ∈ content, b ≠ 0#8)
    (hlen : content.length ≤ jsizeMax) :
    let s := newStringUTF (some (content ++ 0#8 :: rest))
    s = content ∧
    getStringUTFChars (some s) = content ++ [0#8] ∧
    getStringUTFLength (some s) = .ok content.length := by
  have e : newStringUTF (some (content ++ 0#8 :: rest)) = content := by
    simp only [newStringUTF, cString]
    rw [List.takeWhile_append_of_pos (by simpa using hnul)]
    simp
  simp only [e]
  refine ⟨trivial, rfl, ?_⟩
  simp only [getStringUTFLength]
  rw [if_neg (by omega)]

example : (∀ b ∈ [0xFF#8, 0x41#8], b ≠ 0#8) ∧
    newStringUTF (some [0xFF#8, 0x41#8, 0#8, 0x42#8]) = [0xFF#8, 0x41#8] := by decide

/-- C03. The null pointer is the empty string. -/
theorem newStringUTF_null :
    getStringUTFChars (some (newStringUTF none)) = [0#8] ∧
    getStringUTFLength (some (newStringUTF none)) = .ok 0 ∧
    getStringLength (some (newStringUTF none)) = .ok 0 := by
  refine ⟨rfl, rfl, ?_⟩
  simp only [newStringUTF, getStringLength]
  rw [getStringLengthLoop]
  simp

/-- C03. A null string has no chars: its length is zero in both encodings, its text is terminated at
once, and its chars are a single zero.  Both region functions dereference null, whatever is asked for. -/
theorem string_null (start len : Int) :
    getStringUTFChars none = [0#8] ∧ getStringUTFLength none = .ok 0 ∧ getStringLength none = .ok 0 ∧
    getStringChars none = .ok [0#16] ∧
    getStringRegion none start len = .ub .nullDeref ∧ getStringUTFRegion none start len = .ub .nullDeref :=
  ⟨rfl, rfl, rfl, rfl, rfl, rfl⟩

/-! ### C04 -/

/-- C04. For every content: if it is well formed and its chars can be counted by a `jsize`, length and chars
are those it decodes to; if it is not well formed, the data format error is thrown; only if it begins with more
well formed groups than a `jsize` can count, the count overflows, which is undefined. -/
theorem string_decode_exact (s : Bytes) :
    (∃ cs : List JChar, Decodes (s.map BitVec.toNat) (cs.map BitVec.toNat) ∧ cs.length ≤ jsizeMax ∧
        getStringLength (some s) = .ok cs.length ∧ getStringChars (some s) = .ok cs) ∨
    (¬ WellFormed (s.map BitVec.toNat) ∧
        getStringLength (some s) = .throws .utfDataFormat ∧
        getStringChars (some s) = .throws .utfDataFormat) ∨
    ((∃ (p q : Bytes) (cs : List JChar), s = p ++ q ∧ Decodes (p.map BitVec.toNat) (cs.map BitVec.toNat) ∧
        jsizeMax < cs.length) ∧
      getStringLength (some s) = .ub .signedOverflow ∧ getStringChars (some s) = .ub .signedOverflow) := by
  rcases lengthLoop_cases s.length s [] 0 (Nat.le_refl _) (by omega) with
    ⟨gs, cs, hG, rfl, hcs⟩ | ⟨hno, hthrow⟩ | ⟨gs, cs, post, hG, rfl, hcs⟩
  · left
    have h1 : getStringLength (some gs.flatten) = .ok cs.length := by
      have := lengthLoop_grouped hG [] 0 (by omega)
      simpa [getStringLength] using this
    refine ⟨cs, decodes_of_grouped hG, by omega, h1, ?_⟩
    simp only [getStringChars, h1]
    simp only [Res.ok_bind, getStringRegion]
    rw [show skipChars gs.flatten 0 0 = .ok 0 by rw [skipChars]; simp]
    have := region_grouped hG [] [] []
    simpa [hG.length] using this
  · right; left
    have h1 : getStringLength (some s) = .throws .utfDataFormat := by
      simpa [getStringLength] using hthrow
    refine ⟨?_, h1, ?_⟩
    · rintro ⟨ns, hd⟩
      obtain ⟨gs, cs, hG, he, -⟩ := grouped_of_decodes hd rfl
      exact hno ⟨gs, cs, hG, he⟩
    · simp only [getStringChars, h1]
      rfl
  · right; right
    have h1 : getStringLength (some (gs.flatten ++ post)) = .ub .signedOverflow := by
      have := lengthLoop_long hG post [] 0 (by omega) (by omega)
      simpa [getStringLength] using this
    refine ⟨⟨_, _, cs, rfl, decodes_of_grouped hG, by omega⟩, h1, ?_⟩
    simp only [getStringChars, h1]
    rfl

/-- A content decodes to at most as many chars as it has bytes. -/
theorem decodes_length {bs ns : List Nat} (h : Decodes bs ns) : ns.length ≤ bs.length := by
  induction h with
  | nil => exact Nat.le_refl _
  | cons hg _ ih =>
    rw [List.length_append, List.length_cons]
    cases hg <;> simp only [List.length_cons, List.length_nil] <;> omega

/-- C04. For every content of a length JNI can express reading the length and the chars is
free of undefined behaviour; it succeeds with the decoded chars if the content is well
formed and throws the data format error if it is not. -/
theorem string_decode_total (s : Bytes) (hlen : s.length ≤ jsizeMax) :
    (∃ cs : List JChar, Decodes (s.map BitVec.toNat) (cs.map BitVec.toNat) ∧
        getStringLength (some s) = .ok cs.length ∧ getStringChars (some s) = .ok cs) ∨
    (¬ WellFormed (s.map BitVec.toNat) ∧
        getStringLength (some s) = .throws .utfDataFormat ∧
        getStringChars (some s) = .throws .utfDataFormat) := by
  rcases string_decode_exact s with ⟨cs, h1, -, h2⟩ | h | ⟨⟨p, q, cs, rfl, hd, hl⟩, -⟩
  · exact Or.inl ⟨cs, h1, h2⟩
  · exact Or.inr h
  · have := decodes_length hd
    rw [List.length_map, List.length_map] at this
    rw [List.length_append] at hlen
    omega

/-- C04, safety alone. -/
theorem string_decode_safe (s : Bytes) (hlen : s.length ≤ jsizeMax) :
    (getStringLength (some s)).Safe ∧ (getStringChars (some s)).Safe := by
  rcases string_decode_total s hlen with ⟨cs, -, h1, h2⟩ | ⟨-, h1, h2⟩ <;> rw [h1, h2] <;>
    exact ⟨trivial, trivial⟩

-- a truncated three-byte group is rejected, not read past its end
example : (getStringLength (some [0x41#8, 0xE2#8, 0x82#8])) = .throws .utfDataFormat := by
  rcases string_decode_total [0x41#8, 0xE2#8, 0x82#8] (by decide) with ⟨cs, h, -⟩ | ⟨-, h, -⟩
  · exfalso
    generalize hm : List.map BitVec.toNat [0x41#8, 0xE2#8, 0x82#8] = m at h
    generalize hn : List.map BitVec.toNat cs = n at h
    cases h with
    | nil => cases hm
    | cons hg hr =>
      cases hg <;> simp at hm
      obtain ⟨h1, h2⟩ := hm
      subst h2
      generalize hm2 : [226, 130] = m2 at hr
      cases hr with
      | nil => cases hm2
      | cons hg hr => cases hg <;> simp at hm2 <;> omega
      all_goals omega
  · exact h
-- a two-byte group is accepted
example : utfToJChar [0x41#8, 0xC3#8, 0xA9#8] 1 = .ok (0xE9#16, 2) := by decide

/-- C04. A content that begins with more well formed groups than a `jsize` can count: `GetStringLength` and
`GetStringChars` overflow it, which is undefined, instead of throwing as they mean to; `GetStringUTFLength`
throws. -/
theorem string_too_long (s q : Bytes) (cs : List JChar)
    (hs : Decodes (s.map BitVec.toNat) (cs.map BitVec.toNat)) (hlen : jsizeMax < cs.length) :
    getStringLength (some (s ++ q)) = .ub .signedOverflow ∧
    getStringChars (some (s ++ q)) = .ub .signedOverflow ∧
    getStringUTFLength (some (s ++ q)) = .throws .stringTooLong := by
  have hl := decodes_length hs
  rw [List.length_map, List.length_map] at hl
  obtain ⟨gs, cs', hG, rfl, hcs⟩ := grouped_of_decodes hs rfl
  have : cs' = cs := by
    apply List.map_inj_right (fun _ _ h => BitVec.eq_of_toNat_eq h) |>.1 hcs
  subst this
  have h1 : getStringLength (some (gs.flatten ++ q)) = .ub .signedOverflow := by
    have := lengthLoop_long hG q [] 0 (by omega) (by omega)
    simpa [getStringLength] using this
  refine ⟨h1, ?_, ?_⟩
  · simp only [getStringChars, h1]
    rfl
  · simp only [getStringUTFLength]
    rw [if_pos (by rw [List.length_append]; omega)]

-- 2^31 letters
example : ∃ (s : Bytes) (cs : List JChar),
    Decodes (s.map BitVec.toNat) (cs.map BitVec.toNat) ∧ jsizeMax < cs.length := by
  refine ⟨List.replicate (jsizeMax + 1) 0x41#8, List.replicate (jsizeMax + 1) 0x41#16, ?_, ?_⟩
  · rw [List.map_replicate, List.map_replicate]
    generalize jsizeMax + 1 = n
    induction n with
    | zero => exact Decodes.nil
    | succ n ih => exact Decodes.cons (g := [0x41]) (Group.one 0x41 (by decide)) ih
  · rw [List.length_replicate]
    omega

/-! ### C05 -/

/-- C05. For a string holding the chars `cs`, `GetStringRegion` stores exactly the
requested slice for every in-range request. -/
theorem getStringRegion_slice (s : Bytes) (cs : List JChar)
    (hs : Decodes (s.map BitVec.toNat) (cs.map BitVec.toNat))
    (start len : Nat) (hin : start + len ≤ cs.length) :
    getStringRegion (some s) start len = .ok ((cs.drop start).take len) := by
  obtain ⟨gs, cs', hG, rfl, hcs⟩ := grouped_of_decodes hs rfl
  have : cs' = cs := by
    apply List.map_inj_right (fun _ _ h => BitVec.eq_of_toNat_eq h) |>.1 hcs
  subst this
  have hgl := hG.length
  have hA := (hG.append_inv start).1
  have hB := ((hG.append_inv start).2.append_inv len).1
  have e1 : gs.flatten = [] ++ (gs.take start).flatten ++ (gs.drop start).flatten := by
    rw [List.nil_append, ← List.flatten_append, List.take_append_drop]
  have e2 : gs.flatten = (gs.take start).flatten ++ ((gs.drop start).take len).flatten
      ++ ((gs.drop start).drop len).flatten := by
    rw [List.append_assoc, ← List.flatten_append, ← List.flatten_append, List.take_append_drop,
      List.take_append_drop]
  simp only [getStringRegion]
  have h1 := skip_grouped hA [] (gs.drop start).flatten
  rw [← e1] at h1
  have hl1 : (gs.take start).length = start := by rw [List.length_take]; omega
  rw [hl1] at h1
  simp only [List.length_nil, Nat.zero_add] at h1
  rw [h1]
  simp only [Res.ok_bind]
  have h2 := region_grouped hB (gs.take start).flatten ((gs.drop start).drop len).flatten []
  rw [← e2] at h2
  have hl2 : ((gs.drop start).take len).length = len := by
    rw [List.length_take, List.length_drop]; omega
  rw [hl2] at h2
  simpa using h2

/-- C05, what happens for every request, also out of range: the code behaves as if the
string were `cs` followed by one `\u0000`, and outside of that it has undefined behaviour.
JNI demands `StringIndexOutOfBoundsException` instead. -/
theorem getStringRegion_exact_partial (s : Bytes) (cs : List JChar)
    (hs : Decodes (s.map BitVec.toNat) (cs.map BitVec.toNat)) (start len : Int) :
    getStringRegion (some s) start len =
      if 0 ≤ start ∧ 0 ≤ len ∧ start + len ≤ cs.length + 1 then
        .ok (((cs ++ [0#16]).drop start.toNat).take len.toNat)
      else .ub .outOfBounds := by
  split
  · rename_i h
    obtain ⟨h1, h2, h3⟩ := h
    obtain ⟨a, rfl⟩ := Int.eq_ofNat_of_zero_le h1
    obtain ⟨b, rfl⟩ := Int.eq_ofNat_of_zero_le h2
    simp only [Int.toNat_natCast]
    by_cases hin : a + b ≤ cs.length
    · rw [getStringRegion_slice s cs hs a b hin, List.drop_append_of_le_length (by omega),
        List.take_append_of_le_length (by simp; omega)]
    · have hab : a + b = cs.length + 1 := by omega
      obtain ⟨gs, cs', hG, rfl, hcs⟩ := grouped_of_decodes hs rfl
      have : cs' = cs := List.map_inj_right (fun _ _ h => BitVec.eq_of_toNat_eq h) |>.1 hcs
      subst this
      have hgl := hG.length
      by_cases hb : b = 0
      · subst hb
        have ha : a = gs.length + 1 := by omega
        have hsk : skipChars gs.flatten 0 a = .ok (gs.flatten.length + 1) := by
          subst ha
          have := skip_nul hG []
          simpa using this
        simp only [getStringRegion]
        rw [hsk]
        simp only [Res.ok_bind]
        rw [regionLoop]
        simp
      · have ha : a ≤ gs.length := by omega
        have hA := (hG.append_inv a).1
        have hB := (hG.append_inv a).2
        have e1 : gs.flatten = [] ++ (gs.take a).flatten ++ (gs.drop a).flatten := by
          rw [List.nil_append, ← List.flatten_append, List.take_append_drop]
        have hsk := skip_grouped hA [] (gs.drop a).flatten
        rw [← e1] at hsk
        have hl1 : (gs.take a).length = a := by rw [List.length_take]; omega
        rw [hl1] at hsk
        simp only [List.length_nil, Nat.zero_add] at hsk
        simp only [getStringRegion]
        rw [hsk]
        simp only [Res.ok_bind]
        have hr := region_nul hB (gs.take a).flatten []
        rw [← List.nil_append ((gs.take a).flatten ++ _), ← List.append_assoc, ← e1] at hr
        rw [show ([] : List JChar).length + (gs.drop a).length + 1 = b by
          rw [List.length_drop, List.length_nil]; omega] at hr
        rw [hr, List.drop_append_of_le_length (by omega), List.take_of_length_le]
        · simp
        · simp only [List.length_append, List.length_drop, List.length_cons, List.length_nil]
          omega
  · rename_i h
    obtain ⟨gs, cs', hG, rfl, hcs⟩ := grouped_of_decodes hs rfl
    have : cs' = cs := List.map_inj_right (fun _ _ h => BitVec.eq_of_toNat_eq h) |>.1 hcs
    subst this
    have hgl := hG.length
    simp only [getStringRegion]
    by_cases hst : start < 0 ∨ (gs.length : Int) + 1 < start
    · have := skip_past hG [] start hst
      simp only [List.nil_append, List.length_nil] at this
      rw [this]
      rfl
    · by_cases hend : start = gs.length + 1
      · -- the cursor is behind the NUL and at least one char is requested
        have hlen : len ≠ 0 := by omega
        have hA := hG
        have hsk : skipChars gs.flatten 0 start = .ok (gs.flatten.length + 1) := by
          subst hend
          have := skip_nul hG []
          simpa using this
        rw [hsk]
        simp only [Res.ok_bind]
        have hp := (utf_past_end (s := gs.flatten) (cur := gs.flatten.length + 1) (by omega)).2
        rw [regionLoop, if_neg (by simp only [List.length_nil]; omega)]
        by_cases hneg : len < 0
        · rw [if_pos hneg, hp]
        · rw [if_neg hneg, if_pos (by simp only [List.length_nil]; omega), hp]
      · obtain ⟨a, rfl⟩ := Int.eq_ofNat_of_zero_le (show 0 ≤ start by omega)
        have ha : a ≤ gs.length := by omega
        have hA := (hG.append_inv a).1
        have hB := (hG.append_inv a).2
        have e1 : gs.flatten = [] ++ (gs.take a).flatten ++ (gs.drop a).flatten := by
          rw [List.nil_append, ← List.flatten_append, List.take_append_drop]
        have hsk := skip_grouped hA [] (gs.drop a).flatten
        rw [← e1] at hsk
        have hl1 : (gs.take a).length = a := by rw [List.length_take]; omega
        rw [hl1] at hsk
        simp only [List.length_nil, Nat.zero_add] at hsk
        rw [hsk]
        simp only [Res.ok_bind]
        have hr := region_past hB (gs.take a).flatten [] len (by
          simp only [List.length_nil, List.length_drop]; omega)
        rw [← List.nil_append ((gs.take a).flatten ++ _), ← List.append_assoc, ← e1] at hr
        exact hr

/-- C05 does not hold in full: an out-of-range request on a one-char string is undefined. -/
theorem getStringRegion_not_safe :
    ¬ ∀ (s : Bytes) (start len : Int), (getStringRegion (some s) start len).Safe := by
  intro h
  have := h [0x41#8] 0 3
  rw [getStringRegion_exact_partial [0x41#8] [0x41#16]
    (Decodes.cons (Group.one 0x41 (by decide)) Decodes.nil) 0 3] at this
  simp at this

example : Decodes ([0x41#8, 0xC0#8, 0x80#8].map BitVec.toNat) ([0x41#16, 0#16].map BitVec.toNat) :=
  Decodes.cons (Group.one 0x41 (by decide)) (Decodes.cons (Group.two 0xC0 0x80 (by decide) (by decide) (by decide) (by decide)) Decodes.nil)

/-! ### C06 -/

/-- C06. For a string made from `cs`, `GetStringUTFRegion` stores exactly the encoding of the
requested slice and a terminating NUL. -/
theorem getStringUTFRegion_slice (cs : List JChar) (s : Bytes)
    (hs : newString cs cs.length = .ok s) (start len : Nat) (hin : start + len ≤ cs.length) :
    ∃ out, getStringUTFRegion (some s) start len = .ok (out ++ [0#8]) ∧
      out.map BitVec.toNat = encodeAll (((cs.drop start).take len).map BitVec.toNat) := by
  obtain ⟨gs, hG, hns, hm⟩ := newStringLoop_ok cs
  have : gs.flatten = s := by
    simp only [newString, Int.toNat_natCast] at hs
    rw [hns, Res.ok.injEq] at hs; exact hs
  subst this
  have hgl := hG.length
  have hA := (hG.append_inv start).1
  have hB := ((hG.append_inv start).2.append_inv len).1
  have e1 : gs.flatten = [] ++ (gs.take start).flatten ++ (gs.drop start).flatten := by
    rw [List.nil_append, ← List.flatten_append, List.take_append_drop]
  have e2 : gs.flatten = (gs.take start).flatten ++ ((gs.drop start).take len).flatten
      ++ ((gs.drop start).drop len).flatten := by
    rw [List.append_assoc, ← List.flatten_append, ← List.flatten_append, List.take_append_drop,
      List.take_append_drop]
  refine ⟨((gs.drop start).take len).flatten, ?_, ?_⟩
  · simp only [getStringUTFRegion]
    have h1 := skip_grouped hA [] (gs.drop start).flatten
    rw [← e1] at h1
    have hl1 : (gs.take start).length = start := by rw [List.length_take]; omega
    rw [hl1] at h1
    simp only [List.length_nil, Nat.zero_add] at h1
    rw [h1]
    simp only [Res.ok_bind]
    have h2 := utfRegion_grouped hB (gs.take start).flatten ((gs.drop start).drop len).flatten
    rw [← e2] at h2
    have hl2 : ((gs.drop start).take len).length = len := by
      rw [List.length_take, List.length_drop]; omega
    rw [hl2] at h2
    exact h2
  · rw [List.map_flatten, List.map_take, List.map_drop, hm, encodeAll, List.flatMap_map,
      List.flatMap_def, List.map_take, List.map_drop]

example : newString demoChars demoChars.length = .ok [0x41#8, 0xC0#8, 0x80#8, 0xED#8, 0xA0#8, 0xBD#8]
    ∧ 1 + 2 ≤ demoChars.length := by decide

/-- C02. The length in bytes is returned exactly when it fits into a `jsize`, a signed 32 bit number; otherwise the
call throws. -/
theorem utf_length_fits (s : Bytes) :
    (getStringUTFLength (some s) = .ok s.length ↔ (BitVec.ofNat 32 s.length).toInt = s.length ∧ s.length < 2 ^ 32) ∧
      (¬ s.length < 2 ^ 31 → getStringUTFLength (some s) = .throws .stringTooLong) := by
  constructor
  · by_cases h : s.length > jsizeMax
    · simp only [getStringUTFLength, h, if_true, reduceCtorEq, false_iff]
      simp only [jsizeMax] at h
      rintro ⟨h1, h2⟩
      rw [BitVec.toInt_eq_toNat_cond, BitVec.toNat_ofNat] at h1
      split at h1 <;> omega
    · simp only [getStringUTFLength, h, if_false, true_iff]
      simp only [jsizeMax] at h
      refine ⟨?_, by omega⟩
      rw [BitVec.toInt_eq_toNat_cond, BitVec.toNat_ofNat]
      split <;> omega
  · intro h
    have : s.length > jsizeMax := by simp only [jsizeMax]; omega
    simp only [getStringUTFLength, this, if_true]

/-- Sample for `utf_length_fits`: both cases occur. -/
example : getStringUTFLength (some [65#8, 66#8]) = .ok 2 ∧
    ¬ (List.replicate (2 ^ 31) 65#8).length < 2 ^ 31 :=
  ⟨rfl, by rw [List.length_replicate]; omega⟩

end Jnivm
