import Verif.Model.Heap
import Verif.Model.Strings
/-!
Strings and direct buffers as objects, and the memory that native code gets pointers to:
src/jnivm/internal/string.cpp and src/jnivm/internal/bytebuffer.cpp on top of `Heap`, which has the lifetime
of the objects, and `Strings`, which has the functions on their content.

Simplifications: a call is one step (strings never change, so nothing can happen in between); pointers are
not moved, a position is given separately; native code does not write through the `const` pointers.
-/
namespace Jnivm

/-- The members that an object has beyond those of `Object`. -/
inductive Payload where
  /-- a `String`, include/jnivm/string.h: the `std::string` it derives from -/
  | string (s : Bytes)
  /-- a `ByteBuffer`, include/jnivm/bytebuffer.h; null or an address chosen by native code -/
  | buffer (address : Option Nat) (capacity : Int)
deriving DecidableEq, Repr

/-- A pointer to characters. -/
inductive CharPtr where
  | null
  /-- a `jchar` array made with `new` -/
  | block (k : Nat)
  /-- `data()` of the string object `i` -/
  | text (i : Nat)
  /-- the literal `""`, src/jnivm/internal/string.cpp:70 -/
  | empty
deriving DecidableEq, Repr

/-- The objects, what they contain, and the arrays made with `new jchar[]` that exist. -/
structure Store where
  heap : Heap
  data : Nat → Option Payload
  blocks : Nat → Option (List JChar)
  nextBlock : Nat

/-- One call made by native code. -/
inductive BufOp where
  | heap (op : HeapOp)
  | newString (str : List JChar) (size : Int)
  | newStringUTF (mem : Option Bytes)
  | length (r : Option Nat)
  | utfLength (r : Option Nat)
  | region (r : Option Nat) (start len : Int)
  | utfRegion (r : Option Nat) (start len : Int)
  | getChars (r : Option Nat)
  | releaseChars (r : Option Nat) (p : CharPtr)
  | getUTFChars (r : Option Nat)
  | releaseUTFChars (r : Option Nat) (p : CharPtr)
  | newBuffer (address : Option Nat) (capacity : Int)
  | bufferAddress (r : Option Nat)
  | bufferCapacity (r : Option Nat)
deriving DecidableEq, Repr

/-- What it returns; for characters also what is stored to `*isCopy`, if anything. -/
inductive BufOut where
  | unit
  | heap (out : Out)
  | ref (r : Option Nat)
  | num (n : Int)
  | chars (cs : List JChar)
  | bytes (b : Bytes)
  | ptr (p : CharPtr) (isCopy : Option Bool)
  | address (a : Option Nat)
deriving DecidableEq, Repr

namespace Store

/-- Failure leaves the state as it is. -/
def keep {α β : Type} (s : Store) (x : Res α) (f : α → Store × Res β) : Store × Res β :=
  match x with
  | .ok a => f a
  | .throws e => (s, .throws e)
  | .ub u => (s, .ub u)
  | .diverges => (s, .diverges)

/-- `JNITypes<std::shared_ptr<String>>::JNICast`, include/jnivm/jnitypes.h:317-337, followed by `->`. -/
def string (s : Store) (r : Option Nat) : Res (Nat × Bytes) :=
  (s.heap.denote r).bind fun
    | none => .ub .nullDeref
    | some i => match s.data i with
      | some (.string b) => .ok (i, b)
      | _ => .throws .badCast

/-- `JNITypes<std::shared_ptr<ByteBuffer>>::JNICast(…)->`, src/jnivm/internal/bytebuffer.cpp:11-16. -/
def buffer (s : Store) (r : Option Nat) : Res (Option Nat × Int) :=
  (s.heap.denote r).bind fun
    | none => .ub .nullDeref
    | some i => match s.data i with
      | some (.buffer a c) => .ok (a, c)
      | _ => .throws .badCast

/-- The functions that test their argument for null, `str ? … : …`, src/jnivm/internal/string.cpp:17, 57. -/
def string? (s : Store) : Option Nat → Res (Option Bytes)
  | none => .ok none
  | some r => (s.string (some r)).bind fun (_, b) => .ok (some b)

/-- `ToJNIType(env, std::make_shared<T>(…))`, src/jnivm/internal/string.cpp:14, 54 and bytebuffer.cpp:9. -/
def make (s : Store) (t : Nat) (ty : Str) (p : Payload) : Store × Res BufOut :=
  s.keep (s.heap.newObject t (some ty)) fun (h, r) =>
    ({ s with heap := h.collect, data := fun i => if r = some i then some p else s.data i }, .ok (.ref r))

/-- `new jchar[…]` with the given content. -/
def newBlock (s : Store) (cs : List JChar) : Store :=
  { s with blocks := fun k => if k = s.nextBlock then some cs else s.blocks k, nextBlock := s.nextBlock + 1 }

/-- `GetStringChars` and `GetStringCritical`, src/jnivm/internal/string.cpp:35-48, src/jnivm/vm.cpp:415,
439.  If reading the characters throws, the array has been made already. -/
def getChars (s : Store) : Option Nat → Store × Res BufOut
  | none => (s.newBlock [0#16], .ok (.ptr (.block s.nextBlock) none))
  | some r =>
    s.keep (s.string (some r)) fun (_, b) =>
    s.keep (getStringLength (some b)) fun n =>
    (s.newBlock (List.replicate n 0#16)).keep (getStringRegion (some b) 0 n) fun cs =>
      (s.newBlock cs, .ok (.ptr (.block s.nextBlock) (some true)))

/-- `ReleaseStringChars` and `ReleaseStringCritical`: `delete[] cstr`, src/jnivm/internal/string.cpp:49-52. -/
def releaseChars (s : Store) : CharPtr → Store × Res BufOut
  | .null => (s, .ok .unit)
  | .block k => match s.blocks k with
    | none => (s, .ub .dangling)
    | some _ => ({ s with blocks := fun j => if j = k then none else s.blocks j }, .ok .unit)
  | _ => (s, .ub .notOwner)

/-- `GetStringUTFChars`, src/jnivm/internal/string.cpp:67-71. -/
def getUTFChars (s : Store) : Option Nat → Store × Res BufOut
  | none => (s, .ok (.ptr .empty (some false)))
  | some r => s.keep (s.string (some r)) fun (i, _) => (s, .ok (.ptr (.text i) (some false)))

/-- One call on thread `t`.  `ReleaseStringUTFChars` does nothing (src/jnivm/internal/string.cpp:72-74). -/
def exec (s : Store) (t : Nat) : BufOp → Store × Res BufOut
  | .heap op => s.keep (op.run s.heap t) fun (h, out) => ({ s with heap := h }, .ok (.heap out))
  | .newString str size => s.keep (newString str size) fun b =>
      s.make t "java/lang/String".toList (.string b)
  | .newStringUTF mem => s.make t "java/lang/String".toList (.string (newStringUTF mem))
  | .length r => s.keep (s.string? r) fun b => s.keep (getStringLength b) fun n => (s, .ok (.num n))
  | .utfLength r => s.keep (s.string? r) fun b => s.keep (getStringUTFLength b) fun n => (s, .ok (.num n))
  | .region r start len => s.keep (s.string r) fun (_, b) =>
      s.keep (getStringRegion (some b) start len) fun cs => (s, .ok (.chars cs))
  | .utfRegion r start len => s.keep (s.string r) fun (_, b) =>
      s.keep (getStringUTFRegion (some b) start len) fun cs => (s, .ok (.bytes cs))
  | .getChars r => s.getChars r
  | .releaseChars _ p => s.releaseChars p
  | .getUTFChars r => s.getUTFChars r
  | .releaseUTFChars _ _ => (s, .ok .unit)
  | .newBuffer a c => s.make t "java/nio/ByteBuffer".toList (.buffer a c)
  | .bufferAddress r => s.keep (s.buffer r) fun (a, _) => (s, .ok (.address a))
  | .bufferCapacity r => s.keep (s.buffer r) fun (_, c) => (s, .ok (.num c))

/-- Native code reads `p[n]` through a pointer to `jchar`. -/
def readChar (s : Store) (p : CharPtr) (n : Nat) : Res JChar :=
  match p with
  | .null => .ub .nullDeref
  | .block k => match s.blocks k with
    | none => .ub .dangling
    | some cs => match cs[n]? with
      | none => .ub .outOfBounds
      | some c => .ok c
  | _ => .ub .typePun

/-- Native code reads `p[n]` through a pointer to `char`; a `std::string` ends with a NUL, and its memory
goes away with the object. -/
def readByte (s : Store) (p : CharPtr) (n : Nat) : Res Byte :=
  match p with
  | .null => .ub .nullDeref
  | .block _ => .ub .typePun
  | .text i => match s.heap.objs i, s.data i with
    | some _, some (.string b) => match (b ++ [0#8])[n]? with
      | none => .ub .outOfBounds
      | some c => .ok c
    | some _, _ => .ub .typePun
    | none, _ => .ub .dangling
  | .empty => match [0#8][n]? with
      | none => .ub .outOfBounds
      | some c => .ok c

/-- A new VM. -/
def initial : Store := ⟨.initial, fun _ => none, fun _ => none, 0⟩

end Store
end Jnivm
