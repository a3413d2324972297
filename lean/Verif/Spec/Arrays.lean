import Verif.Model.Arrays
/-! What primitive arrays should do. -/
namespace Spec
open Jnivm

/-- The `i`-th element of size `w` in memory. -/
def element (w : Nat) (bytes : List MemByte) (i : Nat) : List MemByte := (bytes.drop (i * w)).take w

/-- Array `a` has `n` elements of type `ty`, and its memory contains `bytes`. -/
structure Holds (s : Arrays) (a : Nat) (ty : ElemType) (n : Nat) (bytes : List MemByte) : Prop where
  obj : ∃ p, s.objs a = some ⟨ty, some p, n, true⟩ ∧ p.off = 0 ∧ s.mem.blocks p.block = some bytes
  size : bytes.length = ty.size * n

/-- `bytes` are at `p` and the `n` bytes from there on are inside the allocation. -/
def At (m : Mem) (p : Ptr) (n : Nat) (bytes : List MemByte) : Prop :=
  ∃ c, m.blocks p.block = some c ∧ p.off + n ≤ c.length ∧ bytes = (c.drop p.off).take n

/-- Slice assignment. -/
def Assigned (old new : Nat → List MemByte) (src : Nat → List MemByte) (start len : Nat) : Prop :=
  ∀ i, new i = if start ≤ i ∧ i < start + len then src (i - start) else old i

/-- Reached by any history that did nothing undefined. -/
def ArraysReached (s : Arrays) : Prop := ∃ junk ops, (Arrays.initial junk).run ops = .ok s

/-- A region inside an array of `n` elements. -/
def InRange (n : Nat) (start len : Int) : Prop := 0 ≤ start ∧ 0 ≤ len ∧ start + len ≤ n

/-- The widths of the Java types. -/
def javaBits : ElemType → Nat
  | .boolean => 8
  | .byte => 8
  | .char => 16
  | .short => 16
  | .int => 32
  | .float => 32
  | .long => 64
  | .double => 64

end Spec
