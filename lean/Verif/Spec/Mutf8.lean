/-!
Modified UTF-8 as fixed by the Java specifications, on plain numbers.
Independent of the model.
-/
namespace Spec.Mutf8

/-- Encoding of one 16-bit char: `\u0001`–`\u007F` one byte, `\u0000` and
`\u0080`–`\u07FF` two bytes, the rest (surrogates included) three bytes. -/
def encode (c : Nat) : List Nat :=
  if 1 ≤ c ∧ c ≤ 0x7F then [c]
  else if c ≤ 0x7FF then [0xC0 + c / 64, 0x80 + c % 64]
  else [0xE0 + c / 4096, 0x80 + c / 64 % 64, 0x80 + c % 64]

/-- Encoding of a char sequence. -/
def encodeAll (cs : List Nat) : List Nat := cs.flatMap encode

/-- `Group bytes c`: `bytes` is one well-formed group that stands for char `c`.
Over-long forms are well-formed groups, as in `DataInput.readUTF`. -/
inductive Group : List Nat → Nat → Prop
  | one (a : Nat) : a < 0x80 → Group [a] a
  | two (a b : Nat) : 0xC0 ≤ a → a < 0xE0 → 0x80 ≤ b → b < 0xC0 →
      Group [a, b] ((a - 0xC0) * 64 + (b - 0x80))
  | three (a b c : Nat) : 0xE0 ≤ a → a < 0xF0 → 0x80 ≤ b → b < 0xC0 → 0x80 ≤ c → c < 0xC0 →
      Group [a, b, c] ((a - 0xE0) * 4096 + (b - 0x80) * 64 + (c - 0x80))

/-- `Decodes bytes cs`: `bytes` is a concatenation of groups standing for `cs`. -/
inductive Decodes : List Nat → List Nat → Prop
  | nil : Decodes [] []
  | cons {g rest : List Nat} {c : Nat} {cs : List Nat} :
      Group g c → Decodes rest cs → Decodes (g ++ rest) (c :: cs)

/-- A byte sequence is well formed if it decodes to something. -/
def WellFormed (bytes : List Nat) : Prop := ∃ cs, Decodes bytes cs

end Spec.Mutf8
