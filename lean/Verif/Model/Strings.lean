import Verif.Model.Basic
/-!
Model of src/jnivm/internal/stringUtil.cpp and src/jnivm/internal/string.cpp.

`jnivm::String` derives from `std::string`; its content is a byte list and
`data()[length()]` is a readable NUL.  `char` is a byte; the C++ code only masks and
compares low eight bits, so signedness of `char` is irrelevant.
-/
namespace Jnivm

abbrev Byte := BitVec 8
abbrev JChar := BitVec 16
abbrev Bytes := List Byte

/-- Largest `jsize` (`typedef jint jsize`, include/jni.h). -/
def jsizeMax : Nat := 2147483647

/-- Reading `data()[i]` of a `std::string`: the terminating NUL is readable,
anything behind it is not. -/
def cstrAt (s : Bytes) (i : Nat) : Res Byte :=
  if h : i < s.length then .ok s[i]
  else if i = s.length then .ok 0#8
  else .ub .outOfBounds

/-- `UTFToJCharLength(data() + cur)`, src/jnivm/internal/stringUtil.cpp:6-31.
The null pointer test (line 7) is omitted: all callers pass `data() + cur`. -/
def utfToJCharLength (s : Bytes) (cur : Nat) : Res Nat := do
  let b0 ← cstrAt s cur
  if b0 &&& 0b10000000#8 = 0#8 then
    pure 1
  else if b0 &&& 0b11100000#8 = 0b11000000#8 then do
    let b1 ← cstrAt s (cur + 1)
    if b1 &&& 0b11000000#8 ≠ 0b10000000#8 then .throws .utfDataFormat
    else pure 2
  else if b0 &&& 0b11110000#8 = 0b11100000#8 then do
    let b1 ← cstrAt s (cur + 1)
    if b1 &&& 0b11000000#8 ≠ 0b10000000#8 then .throws .utfDataFormat
    else do
      let b2 ← cstrAt s (cur + 2)
      if b2 &&& 0b11000000#8 ≠ 0b10000000#8 then .throws .utfDataFormat
      else pure 3
  else .throws .utfDataFormat

/-- `UTFToJChar(data() + cur, size)`, src/jnivm/internal/stringUtil.cpp:33-46;
returns the char and `size`. -/
def utfToJChar (s : Bytes) (cur : Nat) : Res (JChar × Nat) := do
  let size ← utfToJCharLength s cur
  match size with
  | 1 => do
    let b0 ← cstrAt s cur
    pure (b0.zeroExtend 16, size)
  | 2 => do
    let b0 ← cstrAt s cur
    let b1 ← cstrAt s (cur + 1)
    pure (((b0.zeroExtend 16 &&& 0x1F#16) <<< 6) ||| (b1.zeroExtend 16 &&& 0x3F#16), size)
  | 3 => do
    let b0 ← cstrAt s cur
    let b1 ← cstrAt s (cur + 1)
    let b2 ← cstrAt s (cur + 2)
    pure (((b0.zeroExtend 16 &&& 0x0F#16) <<< 12) |||
          ((b1.zeroExtend 16 &&& 0x3F#16) <<< 6) ||| (b2.zeroExtend 16 &&& 0x3F#16), size)
  | _ => .throws .utfDataFormat

/-- `JCharToUTFLength`, src/jnivm/internal/stringUtil.cpp:48-58. -/
def jcharToUTFLength (c : JChar) : Nat :=
  if c = 0#16 then 2
  else if c &&& 0x7F#16 = c then 1
  else if c &&& 0x7FF#16 = c then 2
  else 3

/-- `JCharToUTF(c, cur, len)`, src/jnivm/internal/stringUtil.cpp:60-81; returns the
bytes stored at `cur[0..size)` (the C++ return value is their number). -/
def jcharToUTF (c : JChar) (len : Nat) : Res Bytes :=
  if jcharToUTFLength c > len then .throws .endOfString
  else match jcharToUTFLength c with
  | 1 => .ok [c.truncate 8]
  | 2 => .ok [0b11000000#8 ||| ((c >>> 6) &&& 0x1F#16).truncate 8,
              0b10000000#8 ||| (c &&& 0x3F#16).truncate 8]
  | 3 => .ok [0b11100000#8 ||| ((c >>> 12) &&& 0x0F#16).truncate 8,
              0b10000000#8 ||| ((c >>> 6) &&& 0x3F#16).truncate 8,
              0b10000000#8 ||| (c &&& 0x3F#16).truncate 8]
  | _ => .ok []

/-- The loop of `NewString`, src/jnivm/internal/string.cpp:11-13, with `k` chars left
to convert and `rest` the caller's buffer from the current position on. -/
def newStringLoop : (rest : List JChar) → (k : Nat) → Res Bytes
  | _, 0 => .ok []
  | [], _ + 1 => .ub .outOfBounds
  | c :: rest, k + 1 => do
    let out ← jcharToUTF c 3
    let tail ← newStringLoop rest k
    pure (out ++ tail)

/-- `NewString(str, size)`, src/jnivm/internal/string.cpp:8-15.  `str` is the content of
the caller's buffer; the result is the content of the new `String`.  A negative
`size` runs the loop zero times.  Allocation and the local reference are modelled
in `Model/Heap`. -/
def newString (str : List JChar) (size : Int) : Res Bytes :=
  newStringLoop str size.toNat

/-- Bytes of a C string: everything before the first NUL (`std::string(const char*)`). -/
def cString (mem : Bytes) : Bytes := mem.takeWhile (· ≠ 0#8)

/-- `NewStringUTF(str)`, src/jnivm/internal/string.cpp:53-55.  `mem` is the memory at
`str` up to at least its first NUL, `none` is the null pointer. -/
def newStringUTF (mem : Option Bytes) : Bytes :=
  match mem with
  | none => []
  | some m => cString m

/-- `GetStringUTFLength`, src/jnivm/internal/string.cpp:56-66; `none` is a null `jstring`. -/
def getStringUTFLength (str : Option Bytes) : Res Nat :=
  match str with
  | none => .ok 0
  | some s => if s.length > jsizeMax then .throws .stringTooLong else .ok s.length

/-- Memory visible through the pointer returned by `GetStringUTFChars`,
src/jnivm/internal/string.cpp:67-71: the content followed by NUL. -/
def getStringUTFChars (str : Option Bytes) : Bytes :=
  match str with
  | none => [0#8]
  | some s => s ++ [0#8]

theorem utfToJCharLength_bounds {s : Bytes} {cur n : Nat}
    (h : utfToJCharLength s cur = .ok n) : cur ≤ s.length ∧ 1 ≤ n := by
  unfold utfToJCharLength at h
  rw [Res.bind_eq_ok] at h
  obtain ⟨b0, h0, h⟩ := h
  have hc : cur ≤ s.length := by
    unfold cstrAt at h0
    split at h0
    · omega
    · split at h0
      · omega
      · cases h0
  refine ⟨hc, ?_⟩
  repeat' (first | (split at h) | (rw [Res.bind_eq_ok] at h; obtain ⟨_, _, h⟩ := h))
  all_goals first
    | (cases h; done)
    | (simp only [Res.pure_eq, Res.ok.injEq] at h; omega)

/-- The loop of `GetStringLength`, src/jnivm/internal/string.cpp:23-26.  `length++`
past the largest `jsize` is signed overflow. -/
def getStringLengthLoop (s : Bytes) (cur : Nat) (length : Nat) : Res Nat :=
  if cur = s.length then .ok length
  else
    match h : utfToJCharLength s cur with
    | .ok n => if length = jsizeMax then .ub .signedOverflow
               else getStringLengthLoop s (cur + n) (length + 1)
    | .throws e => .throws e
    | .ub u => .ub u
    | .diverges => .diverges
termination_by s.length + 1 - cur
decreasing_by
  have := utfToJCharLength_bounds h
  omega

/-- `GetStringLength`, src/jnivm/internal/string.cpp:16-34; `none` is a null `jstring`.
The test of lines 27-29 cannot be reached without the overflow above. -/
def getStringLength (str : Option Bytes) : Res Nat :=
  match str with
  | none => .ok 0
  | some s => getStringLengthLoop s 0 0

/-- `while(start) { cur += UTFToJCharLength(cur); start--; }`,
src/jnivm/internal/string.cpp:80-83 and 96-99.  `start` may be negative: the loop then
only ends by an exception or undefined behaviour. -/
def skipChars (s : Bytes) (cur : Nat) (start : Int) : Res Nat :=
  if start = 0 then .ok cur
  else
    match h : utfToJCharLength s cur with
    | .ok n => skipChars s (cur + n) (start - 1)
    | .throws e => .throws e
    | .ub u => .ub u
    | .diverges => .diverges
termination_by s.length + 1 - cur
decreasing_by
  have := utfToJCharLength_bounds h
  omega

/-- `while(buf != bend) { *buf = UTFToJChar(cur, size); cur += size; buf++; }`,
src/jnivm/internal/string.cpp:84-89.  `out` are the chars stored so far and
`length` is `bend - buf` at the beginning; the caller's buffer has room for `length`
chars, so with a negative `length` the first store is out of bounds. -/
def regionLoop (s : Bytes) (cur : Nat) (out : List JChar) (length : Int) : Res (List JChar) :=
  if (out.length : Int) = length then .ok out
  else if length < 0 then
    match utfToJChar s cur with
    | .throws e => .throws e
    | _ => .ub .outOfBounds
  else if out.length < length.toNat then
    match utfToJChar s cur with
    | .ok (c, size) => regionLoop s (cur + size) (out ++ [c]) length
    | .throws e => .throws e
    | .ub u => .ub u
    | .diverges => .diverges
  else .ub .outOfBounds
termination_by length.toNat - out.length
decreasing_by
  simp only [List.length_append, List.length_cons, List.length_nil]
  omega

/-- `GetStringRegion(str, start, length, buf)`, src/jnivm/internal/string.cpp:76-90;
returns the chars stored to `buf`.  The null `jstring` is a null dereference. -/
def getStringRegion (str : Option Bytes) (start length : Int) : Res (List JChar) :=
  match str with
  | none => .ub .nullDeref
  | some s => do
    let cur ← skipChars s 0 start
    regionLoop s cur [] length

/-- `GetStringChars`, src/jnivm/internal/string.cpp:35-48: the content of the returned
buffer.  Note that no terminating NUL is added for a non-null string. -/
def getStringChars (str : Option Bytes) : Res (List JChar) :=
  match str with
  | none => .ok [0#16]
  | some s => do
    let length ← getStringLength (some s)
    getStringRegion (some s) 0 length

/-- `memcpy(buf, cur, size)` reading `size` bytes of a string at `cur`. -/
def readBytes (s : Bytes) (cur : Nat) : (size : Nat) → Res Bytes
  | 0 => .ok []
  | k + 1 => do
    let b ← cstrAt s cur
    let tail ← readBytes s (cur + 1) k
    pure (b :: tail)

/-- `while(len) { … memcpy … len--; }`, src/jnivm/internal/string.cpp:100-106, ending
with the NUL of line 107; returns all bytes stored.  A negative `len` only ends by an
exception or undefined behaviour. -/
def utfRegionLoop (s : Bytes) (cur : Nat) (len : Int) : Res Bytes :=
  if len = 0 then .ok [0#8]
  else
    match _h : utfToJCharLength s cur with
    | .ok size =>
      match readBytes s cur size with
      | .ok out =>
        match utfRegionLoop s (cur + size) (len - 1) with
        | .ok tail => .ok (out ++ tail)
        | .throws e => .throws e
        | .ub u => .ub u
        | .diverges => .diverges
      | .throws e => .throws e
      | .ub u => .ub u
      | .diverges => .diverges
    | .throws e => .throws e
    | .ub u => .ub u
    | .diverges => .diverges
termination_by s.length + 1 - cur
decreasing_by
  have := utfToJCharLength_bounds _h
  omega

/-- `GetStringUTFRegion(str, start, len, buf)`, src/jnivm/internal/string.cpp:92-108;
returns the bytes stored to `buf`.  Whether the caller's buffer is large enough is the
caller's obligation (JNI gives no capacity). -/
def getStringUTFRegion (str : Option Bytes) (start len : Int) : Res Bytes :=
  match str with
  | none => .ub .nullDeref
  | some s => do
    let cur ← skipChars s 0 start
    utfRegionLoop s cur len

end Jnivm
