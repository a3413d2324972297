import Verif.Model.Strings
import Verif.Spec.Mutf8
/-! Helper lemmas about the per-char coder. -/
namespace Jnivm
open Spec.Mutf8

theorem mask80 (b : Byte) : b &&& 0b10000000#8 = 0#8 ↔ b.toNat < 0x80 := by
  revert b; decide +kernel
theorem maskE0 (b : Byte) : b &&& 0b11100000#8 = 0b11000000#8 ↔ 0xC0 ≤ b.toNat ∧ b.toNat < 0xE0 := by
  revert b; decide +kernel
theorem maskF0 (b : Byte) : b &&& 0b11110000#8 = 0b11100000#8 ↔ 0xE0 ≤ b.toNat ∧ b.toNat < 0xF0 := by
  revert b; decide +kernel
theorem maskC0 (b : Byte) : b &&& 0b11000000#8 = 0b10000000#8 ↔ 0x80 ≤ b.toNat ∧ b.toNat < 0xC0 := by
  revert b; decide +kernel

theorem and3F (b : Byte) : (b.zeroExtend 16 &&& 0x3F#16).toNat = b.toNat % 64 := by
  revert b; decide +kernel
theorem and1F (b : Byte) : (b.zeroExtend 16 &&& 0x1F#16).toNat = b.toNat % 32 := by
  revert b; decide +kernel
theorem and0F (b : Byte) : (b.zeroExtend 16 &&& 0x0F#16).toNat = b.toNat % 16 := by
  revert b; decide +kernel

theorem or_shl (a b k : Nat) (h : b < 2 ^ k) : (a <<< k) ||| b = a * 2 ^ k + b := by
  rw [← Nat.shiftLeft_add_eq_or_of_lt h, Nat.shiftLeft_eq]

theorem dec2 (a b : Byte) :
    (((a.zeroExtend 16 &&& 0x1F#16) <<< 6) ||| (b.zeroExtend 16 &&& 0x3F#16)).toNat
      = a.toNat % 32 * 64 + b.toNat % 64 := by
  rw [BitVec.toNat_or, BitVec.toNat_shiftLeft, and1F, and3F]
  have h1 : (a.toNat % 32) <<< 6 % 2 ^ 16 = (a.toNat % 32) <<< 6 := by
    rw [Nat.shiftLeft_eq]; omega
  rw [h1, or_shl _ _ _ (by omega)]

theorem dec3 (a b c : Byte) :
    (((a.zeroExtend 16 &&& 0x0F#16) <<< 12) ||| ((b.zeroExtend 16 &&& 0x3F#16) <<< 6)
      ||| (c.zeroExtend 16 &&& 0x3F#16)).toNat
      = a.toNat % 16 * 4096 + b.toNat % 64 * 64 + c.toNat % 64 := by
  rw [BitVec.toNat_or, BitVec.toNat_or, BitVec.toNat_shiftLeft, BitVec.toNat_shiftLeft, and0F,
    and3F, and3F]
  have h1 : (a.toNat % 16) <<< 12 % 2 ^ 16 = (a.toNat % 16) <<< 12 := by
    rw [Nat.shiftLeft_eq]; omega
  have h2 : (b.toNat % 64) <<< 6 % 2 ^ 16 = (b.toNat % 64) <<< 6 := by
    rw [Nat.shiftLeft_eq]; omega
  rw [h1, h2, Nat.or_assoc, or_shl _ _ 6 (by omega), or_shl _ _ 12 (by omega)]
  omega

theorem cstrAt_of_lt {s : Bytes} {i : Nat} (h : i < s.length) : cstrAt s i = .ok s[i] := by
  simp [cstrAt, h]

theorem cstrAt_append {pre g post : Bytes} {i : Nat} (h : i < g.length) :
    cstrAt (pre ++ g ++ post) (pre.length + i) = .ok g[i] := by
  rw [cstrAt_of_lt (by simp; omega)]
  simp [h]

theorem cstrAt_safe {s : Bytes} {i : Nat} (h : i ≤ s.length) : ∃ b, cstrAt s i = .ok b := by
  unfold cstrAt
  split
  · exact ⟨_, rfl⟩
  · split
    · exact ⟨_, rfl⟩
    · omega

/-- One well-formed group at the current position is measured and decoded. -/
theorem utf_of_group {pre g post : Bytes} {c : Nat} (h : Group (g.map BitVec.toNat) c) :
    utfToJCharLength (pre ++ g ++ post) pre.length = .ok g.length ∧
    ∃ j : JChar, utfToJChar (pre ++ g ++ post) pre.length = .ok (j, g.length) ∧ j.toNat = c := by
  generalize hm : g.map BitVec.toNat = m at h
  cases h with
  | one a ha =>
    match g, hm with
    | [b0], hm =>
      simp only [List.map_cons, List.map_nil, List.cons.injEq, and_true] at hm
      subst hm
      have e0 := cstrAt_append (pre := pre) (g := [b0]) (post := post) (i := 0) (by simp)
      simp only [Nat.add_zero, List.getElem_cons_zero] at e0
      have hl : utfToJCharLength (pre ++ [b0] ++ post) pre.length = .ok 1 := by
        unfold utfToJCharLength
        rw [e0]
        simp only [Res.ok_bind]
        rw [if_pos ((mask80 _).2 ha)]
        rfl
      refine ⟨hl, b0.zeroExtend 16, ?_, ?_⟩
      · unfold utfToJChar
        rw [hl]
        simp only [Res.ok_bind, e0, Res.pure_eq]
        rfl
      · simp only [BitVec.truncate_eq_setWidth, BitVec.toNat_setWidth]
        have := b0.isLt
        omega
  | two a b h1 h2 h3 h4 =>
    match g, hm with
    | [b0, b1], hm =>
      simp only [List.map_cons, List.map_nil, List.cons.injEq, and_true] at hm
      obtain ⟨rfl, rfl⟩ := hm
      have e0 := cstrAt_append (pre := pre) (g := [b0, b1]) (post := post) (i := 0) (by simp)
      have e1 := cstrAt_append (pre := pre) (g := [b0, b1]) (post := post) (i := 1) (by simp)
      simp only [Nat.add_zero, List.getElem_cons_zero, List.getElem_cons_succ] at e0 e1
      have hl : utfToJCharLength (pre ++ [b0, b1] ++ post) pre.length = .ok 2 := by
        unfold utfToJCharLength
        rw [e0]
        simp only [Res.ok_bind]
        rw [if_neg (by rw [mask80]; omega), if_pos (by rw [maskE0]; omega), e1]
        simp only [Res.ok_bind]
        rw [if_neg (by rw [ne_eq, maskC0]; omega)]
        rfl
      refine ⟨hl, ((b0.zeroExtend 16 &&& 0x1F#16) <<< 6) ||| (b1.zeroExtend 16 &&& 0x3F#16),
        ?_, ?_⟩
      · unfold utfToJChar
        rw [hl]
        simp only [Res.ok_bind, e0, e1, Res.pure_eq]
        rfl
      · rw [dec2]
        omega
  | three a b c h1 h2 h3 h4 h5 h6 =>
    match g, hm with
    | [b0, b1, b2], hm =>
      simp only [List.map_cons, List.map_nil, List.cons.injEq, and_true] at hm
      obtain ⟨rfl, rfl, rfl⟩ := hm
      have e0 := cstrAt_append (pre := pre) (g := [b0, b1, b2]) (post := post) (i := 0) (by simp)
      have e1 := cstrAt_append (pre := pre) (g := [b0, b1, b2]) (post := post) (i := 1) (by simp)
      have e2 := cstrAt_append (pre := pre) (g := [b0, b1, b2]) (post := post) (i := 2) (by simp)
      simp only [Nat.add_zero, List.getElem_cons_zero, List.getElem_cons_succ] at e0 e1 e2
      have hl : utfToJCharLength (pre ++ [b0, b1, b2] ++ post) pre.length = .ok 3 := by
        unfold utfToJCharLength
        rw [e0]
        simp only [Res.ok_bind]
        rw [if_neg (by rw [mask80]; omega), if_neg (by rw [maskE0]; omega),
          if_pos (by rw [maskF0]; omega), e1]
        simp only [Res.ok_bind]
        rw [if_neg (by rw [ne_eq, maskC0]; omega), e2]
        simp only [Res.ok_bind]
        rw [if_neg (by rw [ne_eq, maskC0]; omega)]
        rfl
      refine ⟨hl, ((b0.zeroExtend 16 &&& 0x0F#16) <<< 12) |||
          ((b1.zeroExtend 16 &&& 0x3F#16) <<< 6) ||| (b2.zeroExtend 16 &&& 0x3F#16), ?_, ?_⟩
      · unfold utfToJChar
        rw [hl]
        simp only [Res.ok_bind, e0, e1, e2, Res.pure_eq]
        rfl
      · rw [dec3]
        omega

/-- At the terminating NUL exactly one char (`\u0000`) is read. -/
theorem utf_at_end (s : Bytes) :
    utfToJCharLength s s.length = .ok 1 ∧ utfToJChar s s.length = .ok (0#16, 1) := by
  have e : cstrAt s s.length = .ok 0#8 := by simp [cstrAt]
  have hl : utfToJCharLength s s.length = .ok 1 := by
    unfold utfToJCharLength
    rw [e]
    simp
  refine ⟨hl, ?_⟩
  unfold utfToJChar
  rw [hl]
  simp [e]

/-- Behind the terminating NUL reading is undefined. -/
theorem utf_past_end {s : Bytes} {cur : Nat} (h : s.length < cur) :
    utfToJCharLength s cur = .ub .outOfBounds ∧ utfToJChar s cur = .ub .outOfBounds := by
  have e : cstrAt s cur = .ub .outOfBounds := by
    unfold cstrAt
    rw [dif_neg (by omega), if_neg (by omega)]
  have hl : utfToJCharLength s cur = .ub .outOfBounds := by
    unfold utfToJCharLength
    rw [e]
    rfl
  refine ⟨hl, ?_⟩
  unfold utfToJChar
  rw [hl]
  rfl

/-- Inside a string a char is read successfully exactly when a well-formed group starts
there; otherwise the data format error is thrown. -/
theorem utf_inside (pre : Bytes) (b0 : Byte) (rest : Bytes) :
    (∃ g post c, b0 :: rest = g ++ post ∧ Group (g.map BitVec.toNat) c ∧ 1 ≤ g.length) ∨
    ((¬ ∃ g post c, b0 :: rest = g ++ post ∧ Group (g.map BitVec.toNat) c) ∧
      utfToJCharLength (pre ++ b0 :: rest) pre.length = .throws .utfDataFormat ∧
      utfToJChar (pre ++ b0 :: rest) pre.length = .throws .utfDataFormat) := by
  by_cases hg : ∃ g post c, b0 :: rest = g ++ post ∧ Group (g.map BitVec.toNat) c
  · left
    obtain ⟨g, post, c, h1, h2⟩ := hg
    refine ⟨g, post, c, h1, h2, ?_⟩
    generalize hm : g.map BitVec.toNat = m at h2
    have : g.length = m.length := by rw [← hm, List.length_map]
    rw [this]
    cases h2 <;> simp
  · right
    refine ⟨hg, ?_⟩
    have key : utfToJCharLength (pre ++ b0 :: rest) pre.length = .throws .utfDataFormat := by
      have e0 : cstrAt (pre ++ b0 :: rest) pre.length = .ok b0 := by
        have := cstrAt_append (pre := pre) (g := [b0]) (post := rest) (i := 0) (by simp)
        simpa using this
      unfold utfToJCharLength
      rw [e0]
      simp only [Res.ok_bind]
      by_cases h0 : b0.toNat < 0x80
      · exact absurd ⟨[b0], rest, b0.toNat, rfl, Group.one _ h0⟩ hg
      rw [if_neg (by rw [mask80]; exact h0)]
      match hrest : rest with
      | [] =>
        have e1 : cstrAt (pre ++ [b0]) (pre.length + 1) = .ok 0#8 := by simp [cstrAt]
        rw [e1]
        simp only [Res.ok_bind]
        split
        · rfl
        · split <;> rfl
      | b1 :: rest1 =>
        have e1 : cstrAt (pre ++ b0 :: b1 :: rest1) (pre.length + 1) = .ok b1 := by
          have := cstrAt_append (pre := pre) (g := [b0, b1]) (post := rest1) (i := 1) (by simp)
          simpa using this
        rw [e1]
        simp only [Res.ok_bind]
        by_cases h1 : 0x80 ≤ b1.toNat ∧ b1.toNat < 0xC0
        · have n1 : ¬ (b1 &&& 0b11000000#8 ≠ 0b10000000#8) := by rw [ne_eq, maskC0]; omega
          by_cases h2 : 0xC0 ≤ b0.toNat ∧ b0.toNat < 0xE0
          · exact absurd ⟨[b0, b1], rest1, _, rfl, Group.two _ _ h2.1 h2.2 h1.1 h1.2⟩ hg
          rw [if_neg (by rw [maskE0]; exact h2)]
          by_cases h3 : 0xE0 ≤ b0.toNat ∧ b0.toNat < 0xF0
          · rw [if_pos (by rw [maskF0]; exact h3), if_neg n1]
            match hrest1 : rest1 with
            | [] =>
              have e2 : cstrAt (pre ++ [b0, b1]) (pre.length + 2) = .ok 0#8 := by simp [cstrAt]
              rw [e2]
              rfl
            | b2 :: rest2 =>
              have e2 : cstrAt (pre ++ b0 :: b1 :: b2 :: rest2) (pre.length + 2) = .ok b2 := by
                have := cstrAt_append (pre := pre) (g := [b0, b1, b2]) (post := rest2) (i := 2)
                  (by simp)
                simpa using this
              rw [e2]
              simp only [Res.ok_bind]
              by_cases h4 : 0x80 ≤ b2.toNat ∧ b2.toNat < 0xC0
              · exact absurd ⟨[b0, b1, b2], rest2, _, rfl,
                  Group.three _ _ _ h3.1 h3.2 h1.1 h1.2 h4.1 h4.2⟩ hg
              · rw [if_pos (by rw [ne_eq, maskC0]; exact h4)]
          · rw [if_neg (by rw [maskF0]; exact h3)]
        · have n1 : b1 &&& 0b11000000#8 ≠ 0b10000000#8 := by rw [ne_eq, maskC0]; exact h1
          rw [if_pos n1, if_pos n1]
          split
          · rfl
          · split <;> rfl
    refine ⟨key, ?_⟩
    unfold utfToJChar
    rw [key]
    rfl

/-! ### Encoder -/

theorem jchar_and7F (c : JChar) : (c &&& 0x7F#16) = c ↔ c.toNat ≤ 0x7F := by
  rw [← BitVec.toNat_inj, BitVec.toNat_and]
  have : (0x7F#16).toNat = 2 ^ 7 - 1 := rfl
  rw [this, Nat.and_two_pow_sub_one_eq_mod]
  omega

theorem jchar_and7FF (c : JChar) : (c &&& 0x7FF#16) = c ↔ c.toNat ≤ 0x7FF := by
  rw [← BitVec.toNat_inj, BitVec.toNat_and]
  have : (0x7FF#16).toNat = 2 ^ 11 - 1 := rfl
  rw [this, Nat.and_two_pow_sub_one_eq_mod]
  omega

theorem enc_lead2 (x : Nat) (h : x < 32) : 0b11000000 ||| x = 0xC0 + x := by
  have := or_shl 6 x 5 (by omega)
  simpa using this
theorem enc_lead3 (x : Nat) (h : x < 16) : 0b11100000 ||| x = 0xE0 + x := by
  have := or_shl 14 x 4 (by omega)
  simpa using this
theorem enc_cont (x : Nat) (h : x < 64) : 0b10000000 ||| x = 0x80 + x := by
  have := or_shl 2 x 6 (by omega)
  simpa using this

theorem toNat_lead2 (c : JChar) :
    (0b11000000#8 ||| ((c >>> 6) &&& 0x1F#16).truncate 8).toNat = 0xC0 + c.toNat / 64 % 32 := by
  have h1 : (0x1F#16).toNat = 2 ^ 5 - 1 := rfl
  simp only [BitVec.toNat_or, BitVec.truncate_eq_setWidth, BitVec.toNat_setWidth, BitVec.toNat_and,
    BitVec.toNat_ushiftRight, h1, Nat.and_two_pow_sub_one_eq_mod, Nat.shiftRight_eq_div_pow]
  rw [show (192#8).toNat = 0b11000000 from rfl, enc_lead2 _ (by omega)]
  omega

theorem toNat_lead3 (c : JChar) :
    (0b11100000#8 ||| ((c >>> 12) &&& 0x0F#16).truncate 8).toNat = 0xE0 + c.toNat / 4096 := by
  have h1 : (0x0F#16).toNat = 2 ^ 4 - 1 := rfl
  have := c.isLt
  simp only [BitVec.toNat_or, BitVec.truncate_eq_setWidth, BitVec.toNat_setWidth, BitVec.toNat_and,
    BitVec.toNat_ushiftRight, h1, Nat.and_two_pow_sub_one_eq_mod, Nat.shiftRight_eq_div_pow]
  rw [show (224#8).toNat = 0b11100000 from rfl, enc_lead3 _ (by omega)]
  omega

theorem toNat_cont6 (c : JChar) :
    (0b10000000#8 ||| ((c >>> 6) &&& 0x3F#16).truncate 8).toNat = 0x80 + c.toNat / 64 % 64 := by
  have h1 : (0x3F#16).toNat = 2 ^ 6 - 1 := rfl
  simp only [BitVec.toNat_or, BitVec.truncate_eq_setWidth, BitVec.toNat_setWidth, BitVec.toNat_and,
    BitVec.toNat_ushiftRight, h1, Nat.and_two_pow_sub_one_eq_mod, Nat.shiftRight_eq_div_pow]
  rw [show (128#8).toNat = 0b10000000 from rfl, enc_cont _ (by omega)]
  omega

theorem toNat_cont0 (c : JChar) :
    (0b10000000#8 ||| (c &&& 0x3F#16).truncate 8).toNat = 0x80 + c.toNat % 64 := by
  have h1 : (0x3F#16).toNat = 2 ^ 6 - 1 := rfl
  simp only [BitVec.toNat_or, BitVec.truncate_eq_setWidth, BitVec.toNat_setWidth, BitVec.toNat_and,
    h1, Nat.and_two_pow_sub_one_eq_mod]
  rw [show (128#8).toNat = 0b10000000 from rfl, enc_cont _ (by omega)]
  omega

/-- The encoder produces the specified bytes and fits a three byte buffer. -/
theorem jcharToUTF_spec (c : JChar) :
    ∃ g, jcharToUTF c 3 = .ok g ∧ g.map BitVec.toNat = encode c.toNat := by
  have hlt := c.isLt
  by_cases h0 : c = 0#16
  · subst h0
    exact ⟨_, rfl, rfl⟩
  have h0' : c.toNat ≠ 0 := by
    intro h; apply h0; rw [← BitVec.toNat_inj]; simpa using h
  by_cases h1 : c.toNat ≤ 0x7F
  · have hl : jcharToUTFLength c = 1 := by
      unfold jcharToUTFLength
      rw [if_neg h0, if_pos ((jchar_and7F c).2 h1)]
    unfold jcharToUTF
    rw [hl]
    refine ⟨_, rfl, ?_⟩
    unfold encode
    rw [if_pos (by omega)]
    simp only [List.map_cons, List.map_nil, BitVec.truncate_eq_setWidth, BitVec.toNat_setWidth]
    congr 1
    omega
  have n1 : ¬ (c &&& 0x7F#16 = c) := by rw [jchar_and7F]; exact h1
  by_cases h2 : c.toNat ≤ 0x7FF
  · have hl : jcharToUTFLength c = 2 := by
      unfold jcharToUTFLength
      rw [if_neg h0, if_neg n1, if_pos ((jchar_and7FF c).2 h2)]
    unfold jcharToUTF
    rw [hl]
    refine ⟨_, rfl, ?_⟩
    unfold encode
    rw [if_neg (by omega), if_pos h2]
    simp only [List.map_cons, List.map_nil, toNat_lead2, toNat_cont0]
    congr 2
    omega
  · have n2 : ¬ (c &&& 0x7FF#16 = c) := by rw [jchar_and7FF]; exact h2
    have hl : jcharToUTFLength c = 3 := by
      unfold jcharToUTFLength
      rw [if_neg h0, if_neg n1, if_neg n2]
    unfold jcharToUTF
    rw [hl]
    refine ⟨_, rfl, ?_⟩
    unfold encode
    rw [if_neg (by omega), if_neg h2]
    simp only [List.map_cons, List.map_nil, toNat_lead3, toNat_cont0,
      BitVec.toNat_ushiftRight, Nat.shiftRight_eq_div_pow]

/-- The specified encoding of a char is a well-formed group for that char. -/
theorem encode_group {c : Nat} (h : c < 65536) : Group (encode c) c := by
  unfold encode
  split
  · exact Group.one _ (by omega)
  · split
    · have := Group.two (0xC0 + c / 64) (0x80 + c % 64) (by omega) (by omega) (by omega) (by omega)
      have e : (0xC0 + c / 64 - 0xC0) * 64 + (0x80 + c % 64 - 0x80) = c := by omega
      rwa [e] at this
    · have := Group.three (0xE0 + c / 4096) (0x80 + c / 64 % 64) (0x80 + c % 64)
        (by omega) (by omega) (by omega) (by omega) (by omega) (by omega)
      have e : (0xE0 + c / 4096 - 0xE0) * 4096 + (0x80 + c / 64 % 64 - 0x80) * 64
        + (0x80 + c % 64 - 0x80) = c := by omega
      rwa [e] at this

theorem encode_pos (c : Nat) : 1 ≤ (encode c).length := by
  unfold encode; split <;> (try split) <;> simp

theorem encode_ne_zero (c : Nat) : ∀ b ∈ encode c, b ≠ 0 := by
  unfold encode
  split
  · simp; omega
  · split <;> simp

theorem encode_lt (c : Nat) (h : c < 65536) : ∀ b ∈ encode c, b < 256 := by
  unfold encode
  split
  · simp; omega
  · split
    · simp; omega
    · simp; omega

end Jnivm
