import Verif.Model.Basic
/-!
Primitive arrays on a memory of bytes: src/jnivm/internal/array.cpp:6-8, 30-59 and
include/jnivm/array.h:18-88.

Native code has pointers into the same memory.  Array objects are named by numbers; how references of
different kinds lead to an object is in Model/Heap.lean, when an object dies is an operation of the history
here.  A `jsize` is an unbounded integer, so numbers of bytes do not overflow; with 32 bits and at most eight
bytes for each element they fit into `size_t`.
-/
namespace Jnivm

abbrev MemByte := BitVec 8

/-- A pointer into an allocation; one past the end is allowed. -/
structure Ptr where
  block : Nat
  off : Nat
deriving DecidableEq, Repr

/-- Allocations that were not freed.  `junk` is what uninitialised memory contains. -/
structure Mem where
  blocks : Nat → Option (List MemByte)
  next : Nat
  junk : MemByte

/-- `new T[n]`. -/
def Mem.alloc (m : Mem) (content : List MemByte) : Mem × Ptr :=
  ({ m with blocks := fun b => if b = m.next then some content else m.blocks b, next := m.next + 1 },
    ⟨m.next, 0⟩)

/-- `delete[]`. -/
def Mem.free (m : Mem) (p : Ptr) : Mem :=
  { m with blocks := fun b => if b = p.block then none else m.blocks b }

/-- `p + n` in bytes: defined inside the allocation and one past it. -/
def Mem.add (m : Mem) (p : Option Ptr) (n : Int) : Res (Option Ptr) :=
  match p with
  | none => if n = 0 then .ok none else .ub .nullDeref
  | some p => match m.blocks p.block with
    | none => .ub .dangling
    | some c =>
      if 0 ≤ p.off + n ∧ p.off + n ≤ c.length then .ok (some ⟨p.block, (p.off + n).toNat⟩)
      else .ub .outOfBounds

/-- The `n` bytes at `p`. -/
def Mem.load (m : Mem) (p : Option Ptr) (n : Nat) : Res (List MemByte) :=
  match p with
  | none => .ub .nullDeref
  | some p => match m.blocks p.block with
    | none => .ub .dangling
    | some c => if p.off + n ≤ c.length then .ok ((c.drop p.off).take n) else .ub .outOfBounds

/-- Bytes are written at `p`. -/
def Mem.store (m : Mem) (p : Option Ptr) (v : List MemByte) : Res Mem :=
  match p with
  | none => .ub .nullDeref
  | some p => match m.blocks p.block with
    | none => .ub .dangling
    | some c =>
      if p.off + v.length ≤ c.length then
        .ok { m with blocks := fun b =>
                if b = p.block then some (c.take p.off ++ v ++ c.drop (p.off + v.length)) else m.blocks b }
      else .ub .outOfBounds

/-- The two ranges of `memcpy` have a byte in common. -/
def overlapping (p q : Option Ptr) (n : Nat) : Bool :=
  match p, q with
  | some p, some q => p.block == q.block && decide (p.off < q.off + n) && decide (q.off < p.off + n)
  | _, _ => false

/-- `memcpy(dst, src, n)`. -/
def Mem.memcpy (m : Mem) (dst src : Option Ptr) (n : Nat) : Res Mem :=
  (m.load src n).bind fun v =>
  (m.load dst n).bind fun _ =>
  if overlapping dst src n then .ub .overlap else m.store dst v

/-- The element types for which the templates are instantiated, src/jnivm/internal/array.cpp:61-112. -/
inductive ElemType where
  | boolean | byte | char | short | int | long | float | double
deriving DecidableEq, Repr

/-- `sizeof(T)`. -/
def ElemType.size : ElemType → Nat
  | .boolean => 1
  | .byte => 1
  | .char => 2
  | .short => 2
  | .int => 4
  | .long => 8
  | .float => 4
  | .double => 8

/-- `Array<T>`, include/jnivm/array.h:18-50: `data`, `length`, `owner`. -/
structure PArray where
  type : ElemType
  data : Option Ptr
  length : Nat
  owner : Bool
deriving DecidableEq, Repr

structure Arrays where
  mem : Mem
  objs : Nat → Option PArray
  next : Nat

/-- A new object. -/
def Arrays.make (s : Arrays) (m : Mem) (a : PArray) : Arrays × Nat :=
  ({ mem := m, objs := fun i => if i = s.next then some a else s.objs i, next := s.next + 1 }, s.next)

/-- `Array(T* data, jsize length)`, include/jnivm/array.h:60-68: always copies. -/
def Arrays.copying (s : Arrays) (m : Mem) (type : ElemType) (data : Ptr) (length : Nat) :
    Res (Arrays × Nat) :=
  let n := type.size * length
  let (m, p) := m.alloc (List.replicate n m.junk)
  (m.memcpy (some p) (some data) n).bind fun m => .ok (s.make m ⟨type, some p, length, true⟩)

/-- `NewArray<T>`, src/jnivm/internal/array.cpp:30-34, without the class and the local reference.
`new T[length] {0}` throws `std::bad_array_new_length` for a negative length.  Its memory is given to the
copying constructor. -/
def Arrays.newArray (s : Arrays) (type : ElemType) (length : Int) : Res (Arrays × Nat) :=
  if length < 0 then .throws .lengthError
  else if length = 0 then
    let (m, p) := s.mem.alloc []
    .ok (s.make m ⟨type, some p, 0, true⟩)
  else
    let (m, p) := s.mem.alloc (List.replicate (type.size * length.toNat) 0)
    s.copying m type p length.toNat

/-- `JNICast` to `Array<T>`, include/jnivm/jnitypes.h:319-357; `none` for `T` is `void`: any array. -/
def Arrays.cast (s : Arrays) (type : Option ElemType) (a : Nat) : Res PArray :=
  match s.objs a with
  | none => .ub .dangling
  | some o => if type.all (· = o.type) then .ok o else .throws .badCast

/-- `GetArrayLength`, src/jnivm/internal/array.cpp:6-8. -/
def Arrays.getLength (s : Arrays) : Option Nat → Res Nat
  | none => .ok 0
  | some a => (s.cast none a).bind fun o => .ok o.length

/-- `GetArrayElements<T>`, src/jnivm/internal/array.cpp:36-42, and `GetPrimitiveArrayCritical`
(src/jnivm/vm.cpp:437, `T` is `void`): the pointer and `*iscopy`. -/
def Arrays.getElements (s : Arrays) (type : Option ElemType) : Option Nat → Res (Option Ptr × Bool)
  | none => .ok (none, false)
  | some a => (s.cast type a).bind fun o => .ok (o.data, false)

/-- `ReleaseArrayElements<T>`, src/jnivm/internal/array.cpp:44-47, whatever the mode. -/
def Arrays.releaseElements (s : Arrays) (_a : Option Nat) (_p : Option Ptr) (_mode : Int) : Arrays := s

/-- `ja->getArray() + start`, and the number of bytes; a negative `len` becomes a number of bytes larger than
every allocation. -/
def Arrays.region (s : Arrays) (type : ElemType) (a : Option Nat) (start len : Int) :
    Res (Option Ptr × Nat) :=
  match a with
  | none => .ub .nullDeref
  | some a => (s.cast (some type) a).bind fun o =>
    (s.mem.add o.data (type.size * start)).bind fun p =>
      if len < 0 then .ub .outOfBounds else .ok (p, type.size * len.toNat)

/-- `GetArrayRegion<T>`, src/jnivm/internal/array.cpp:49-53. -/
def Arrays.getRegion (s : Arrays) (type : ElemType) (a : Option Nat) (start len : Int) (buf : Option Ptr) :
    Res Arrays :=
  (s.region type a start len).bind fun (p, n) =>
    (s.mem.memcpy buf p n).bind fun m => .ok { s with mem := m }

/-- `SetArrayRegion<T>`, src/jnivm/internal/array.cpp:55-59. -/
def Arrays.setRegion (s : Arrays) (type : ElemType) (a : Option Nat) (start len : Int) (buf : Option Ptr) :
    Res Arrays :=
  (s.region type a start len).bind fun (p, n) =>
    (s.mem.memcpy p buf n).bind fun m => .ok { s with mem := m }

/-- `~Array`, include/jnivm/array.h:70-74, when the last reference is gone. -/
def Arrays.destroy (s : Arrays) (a : Nat) : Res Arrays :=
  match s.objs a with
  | none => .ub .dangling
  | some o =>
    let m := match o.data with
      | some p => if o.owner then s.mem.free p else s.mem
      | none => s.mem
    .ok { s with mem := m, objs := fun i => if i = a then none else s.objs i }

/-- What native code can do with arrays and memory of its own. -/
inductive ArrayOp where
  | newArray (type : ElemType) (length : Int)
  | getRegion (type : ElemType) (a : Option Nat) (start len : Int) (buf : Option Ptr)
  | setRegion (type : ElemType) (a : Option Nat) (start len : Int) (buf : Option Ptr)
  | release (a : Option Nat) (p : Option Ptr) (mode : Int)
  | destroy (a : Nat)
  /-- memory of the caller's own -/
  | malloc (content : List MemByte)
  /-- the caller writes through a pointer -/
  | write (p : Option Ptr) (v : List MemByte)

/-- One of them. -/
def Arrays.step (s : Arrays) : ArrayOp → Res Arrays
  | .newArray ty n => (s.newArray ty n).bind fun r => .ok r.1
  | .getRegion ty a st n b => s.getRegion ty a st n b
  | .setRegion ty a st n b => s.setRegion ty a st n b
  | .release a p m => .ok (s.releaseElements a p m)
  | .destroy a => s.destroy a
  | .malloc c => .ok { s with mem := (s.mem.alloc c).1 }
  | .write p v => (s.mem.store p v).bind fun m => .ok { s with mem := m }

/-- A history.  The calls that throw have changed nothing by then, the caller may catch the exception. -/
def Arrays.run (s : Arrays) : List ArrayOp → Res Arrays
  | [] => .ok s
  | o :: rest => match s.step o with
    | .ok s => s.run rest
    | .throws _ => s.run rest
    | .ub u => .ub u
    | .diverges => .diverges

/-- Before the first array is made. -/
def Arrays.initial (junk : MemByte) : Arrays := ⟨⟨fun _ => none, 0, junk⟩, fun _ => none, 0⟩

end Jnivm
