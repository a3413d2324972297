import Verif.Model.Basic
import Verif.Spec.Descriptor
/-!
Model of the signature scanners: src/jnivm/internal/skipJNIType.cpp,
src/jnivm/internal/jValuesfromValist.cpp and Method::jinvoke of src/jnivm/method.cpp.

A C string is the list of its chars before the NUL; a `const char*` into it is an index.
-/
namespace Jnivm
open Spec (CArg)

/-- Reading `*cur` of a C string: its NUL is readable, anything behind it is not. -/
def chAt (s : List Char) (i : Nat) : Res Char :=
  if h : i < s.length then .ok s[i]
  else if i = s.length then .ok '\x00'
  else .ub .outOfBounds

/-- `std::find(cur, end, ch)` on a C string, for `cur ≤ end`. -/
def findFrom (s : List Char) (cur : Nat) (ch : Char) : Nat :=
  cur + (s.drop cur).findIdx (· == ch)

theorem chAt_le {s : List Char} {i : Nat} {c : Char} (h : chAt s i = .ok c) : i ≤ s.length := by
  unfold chAt at h
  split at h
  · omega
  · split at h
    · omega
    · cases h

theorem findFrom_ge (s : List Char) (cur : Nat) (ch : Char) : cur ≤ findFrom s cur ch := by
  unfold findFrom; omega

/-- `SkipJNIType(cur, end)`, src/jnivm/internal/skipJNIType.cpp:4-28. -/
def skipJNIType (s : List Char) (cur : Nat) : Res Nat :=
  match _h : chAt s cur with
  | .ok c =>
    if c = '[' then
      match skipJNIType s (cur + 1) with
      | .ok r => .ok (r - 1 + 1)
      | e => e
    else if c = 'L' then .ok (findFrom s cur ';' + 1)
    else if c = '(' then skipJNIType s (cur + 1)
    else .ok (cur + 1)
  | .throws e => .throws e
  | .ub u => .ub u
  | .diverges => .diverges
termination_by s.length + 1 - cur
decreasing_by
  all_goals
    have := chAt_le _h
    omega

theorem skipJNIType_gt (s : List Char) (cur : Nat) :
    ∀ r, skipJNIType s cur = .ok r → cur < r := by
  fun_induction skipJNIType s cur <;> intro r' h'
  all_goals first
    | (cases h'; done)
    | skip
  · rename_i hr _ ih
    cases h'
    have := ih _ hr
    omega
  · rename_i hne _
    exact absurd h' (hne r')
  · cases h'
    rename_i cur _ _
    have := findFrom_ge s cur ';'
    omega
  · rename_i ih
    have := ih r' h'
    omega
  · cases h'
    omega

/-- `va_arg(list, int)`; a mismatched or missing argument is undefined. -/
def vaInt : List CArg → Res (BitVec 32 × List CArg)
  | .int v :: rest => .ok (v, rest)
  | _ => .ub .badVaArg
/-- `va_arg(list, jlong)` -/
def vaLong : List CArg → Res (BitVec 64 × List CArg)
  | .long v :: rest => .ok (v, rest)
  | _ => .ub .badVaArg
/-- `va_arg(list, jdouble)` -/
def vaDouble : List CArg → Res (BitVec 64 × List CArg)
  | .dbl v :: rest => .ok (v, rest)
  | _ => .ub .badVaArg
/-- `va_arg(list, jobject)` -/
def vaObject : List CArg → Res (BitVec 64 × List CArg)
  | .obj p :: rest => .ok (p, rest)
  | _ => .ub .badVaArg

/-- One iteration of the loop of `JValuesfromValist`,
src/jnivm/internal/jValuesfromValist.cpp:17-62, at a position that is not the end:
the pushed `jvalue` (little endian, as 64 bits; `emplace_back()` zero-initialises it), the
remaining arguments and the next position. -/
def jvalueStep (d2f : BitVec 64 → BitVec 32) (sig : List Char) (cur : Nat) (c : Char)
    (args : List CArg) : Res (BitVec 64 × List CArg × Nat) :=
  match c with
  | 'V' => .ok (0, args, cur + 1)
  | 'Z' => do
    let a ← vaInt args
    pure ((a.1.truncate 8).zeroExtend 64, a.2, cur + 1)
  | 'B' => do
    let a ← vaInt args
    pure ((a.1.truncate 8).zeroExtend 64, a.2, cur + 1)
  | 'S' => do
    let a ← vaInt args
    pure ((a.1.truncate 16).zeroExtend 64, a.2, cur + 1)
  | 'C' => do
    let a ← vaInt args
    pure ((a.1.truncate 16).zeroExtend 64, a.2, cur + 1)
  | 'I' => do
    let a ← vaInt args
    pure (a.1.zeroExtend 64, a.2, cur + 1)
  | 'J' => do
    let a ← vaLong args
    pure (a.1, a.2, cur + 1)
  | 'F' => do
    let a ← vaDouble args
    pure ((d2f a.1).zeroExtend 64, a.2, cur + 1)
  | 'D' => do
    let a ← vaDouble args
    pure (a.1, a.2, cur + 1)
  | '[' => do
    let r ← skipJNIType sig (cur + 1)
    let a ← vaObject args
    pure (a.1, a.2, r - 1 + 1)
  | 'L' =>
    if findFrom sig cur ';' = sig.length then .throws .invalidSignature
    else do
      let a ← vaObject args
      pure (a.1, a.2, findFrom sig cur ';' + 1)
  | _ => .ok (0, args, cur + 1)

theorem jvalueStep_gt {d2f : BitVec 64 → BitVec 32} {sig : List Char} {cur : Nat} {c : Char}
    {args rest : List CArg} {v : BitVec 64} {next : Nat}
    (h : jvalueStep d2f sig cur c args = .ok (v, rest, next)) : cur < next := by
  unfold jvalueStep at h
  have hf := findFrom_ge sig cur ';'
  split at h
  all_goals try (simp only [Res.ok.injEq, Prod.mk.injEq] at h; omega)
  all_goals try
    (rw [Res.bind_eq_ok] at h
     obtain ⟨_, _, h⟩ := h
     simp only [Res.pure_eq, Res.ok.injEq, Prod.mk.injEq] at h
     omega)
  · rw [Res.bind_eq_ok] at h
    obtain ⟨r, hr, h⟩ := h
    have := skipJNIType_gt _ _ _ hr
    rw [Res.bind_eq_ok] at h
    obtain ⟨_, _, h⟩ := h
    simp only [Res.pure_eq, Res.ok.injEq, Prod.mk.injEq] at h
    omega
  · split at h
    · cases h
    · rw [Res.bind_eq_ok] at h
      obtain ⟨_, _, h⟩ := h
      simp only [Res.pure_eq, Res.ok.injEq, Prod.mk.injEq] at h
      omega

/-- The loop of `JValuesfromValist`, src/jnivm/internal/jValuesfromValist.cpp:16-63; `*cur`
is read before `cur` is compared with `end`. -/
def jvaluesLoop (d2f : BitVec 64 → BitVec 32) (sig : List Char) (cur : Nat) (args : List CArg)
    (out : List (BitVec 64)) : Res (List (BitVec 64) × List CArg) :=
  match _hc : chAt sig cur with
  | .ok c =>
    if c = ')' then .ok (out, args)
    else if cur = sig.length then .ok (out, args)
    else
      match _h : jvalueStep d2f sig cur c args with
      | .ok (v, rest, next) => jvaluesLoop d2f sig next rest (out ++ [v])
      | .throws e => .throws e
      | .ub u => .ub u
      | .diverges => .diverges
  | .throws e => .throws e
  | .ub u => .ub u
  | .diverges => .diverges
termination_by sig.length + 1 - cur
decreasing_by
  have := jvalueStep_gt _h
  have := chAt_le _hc
  omega

/-- `JValuesfromValist(list, signature)`, src/jnivm/internal/jValuesfromValist.cpp:8-65;
returns the values and the arguments left in the list. -/
def jvaluesFromValist (d2f : BitVec 64 → BitVec 32) (sig : List Char) (args : List CArg) :
    Res (List (BitVec 64) × List CArg) := do
  let c ← chAt sig 0
  if c ≠ '(' then .throws .invalidSignature
  else jvaluesLoop d2f sig 1 args []

/-- The result type through which a method is called. -/
inductive CallKind where
  | void | boolean | byte | short | char | int | long | float | double | object
deriving DecidableEq, Repr

/-- Index of the last `ch`, or `none` (`std::string::find_last_of` with one char). -/
def findLast (s : List Char) (ch : Char) : Option Nat :=
  match s.reverse.findIdx? (· == ch) with
  | none => none
  | some k => some (s.length - 1 - k)

/-- The dispatch of `Method::jinvoke`, src/jnivm/method.cpp:15-58 (static) and 60-103
(instance): which `Call…MethodA` is used.  `npos + 1` is 0 and `signature[length]` is NUL. -/
def jinvokeKind (sig : List Char) : Res CallKind :=
  if sig = [] then .throws (.user 0)
  else do
    let pos := match findLast sig ')' with
      | some i => i + 1
      | none => 0
    let type ← chAt sig pos
    if type = 'V' then pure .void
    else if type = 'Z' then pure .boolean
    else if type = 'B' then pure .byte
    else if type = 'S' then pure .short
    else if type = 'C' then pure .char
    else if type = 'I' then pure .int
    else if type = 'J' then pure .long
    else if type = 'F' then pure .float
    else if type = 'D' then pure .double
    else if type = '[' then pure .object
    else if type = 'L' then pure .object
    else .throws (.user 1)

end Jnivm
