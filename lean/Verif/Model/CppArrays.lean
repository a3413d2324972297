import Verif.Model.Arrays
/-!
The memory of array objects in C++: constructors, implicit copies, indexing and destruction of
`impl::Array<T>` (include/jnivm/array.h:18-88, 167-220).

Memory is a set of allocations of elements here: `operator[]` and the constructors only handle whole
elements (Model/Arrays.lean has the bytes).  For primitive types an element is a number, for arrays of objects
it is a `std::shared_ptr`; these have the constructors `length`, `empty` and `copy` only, and their destructor
tests the pointer instead of `owner`, which is the same.
-/
namespace Jnivm

/-- `length`, `data` and `owner` of an array object; offsets count elements. -/
structure CppArray where
  data : Option Ptr
  length : Int
  owner : Bool
deriving DecidableEq, Repr

/-- Allocations, array objects, and what `new T[n]` leaves in memory.  `callers` are the allocations that
were not made by an array. -/
structure CppArrays (α : Type) where
  blocks : Nat → Option (List α)
  nextBlock : Nat
  objs : Nat → Option CppArray
  nextObj : Nat
  callers : Nat → Bool
  junk : α

variable {α : Type}

def CppArrays.initial (junk : α) : CppArrays α := ⟨fun _ => none, 0, fun _ => none, 0, fun _ => false, junk⟩

/-- `new T[n]` with the elements given. -/
def CppArrays.alloc (s : CppArrays α) (l : List α) (callers : Bool) : CppArrays α × Ptr :=
  ({ s with blocks := fun b => if b = s.nextBlock then some l else s.blocks b, nextBlock := s.nextBlock + 1,
            callers := fun b => if b = s.nextBlock then callers else s.callers b }, ⟨s.nextBlock, 0⟩)

/-- `delete[] p`: deleting twice, or not at the start, is undefined; null is ignored. -/
def CppArrays.free (s : CppArrays α) : Option Ptr → Res (CppArrays α)
  | none => .ok s
  | some p => match s.blocks p.block with
    | none => .ub .dangling
    | some _ =>
      if p.off = 0 then .ok { s with blocks := fun b => if b = p.block then none else s.blocks b }
      else .ub .dangling

/-- `p[i]`. -/
def CppArrays.read (s : CppArrays α) (p : Option Ptr) (i : Int) : Res α :=
  match p with
  | none => .ub .nullDeref
  | some p => match s.blocks p.block with
    | none => .ub .dangling
    | some l => if p.off + i < 0 then .ub .outOfBounds else
      match l[(p.off + i).toNat]? with
      | none => .ub .outOfBounds
      | some x => .ok x

/-- `p[i] = x`. -/
def CppArrays.write (s : CppArrays α) (p : Option Ptr) (i : Int) (x : α) : Res (CppArrays α) :=
  match p with
  | none => .ub .nullDeref
  | some p => match s.blocks p.block with
    | none => .ub .dangling
    | some l =>
      if 0 ≤ p.off + i ∧ p.off + i < l.length then
        .ok { s with blocks := fun b => if b = p.block then some (l.set (p.off + i).toNat x) else s.blocks b }
      else .ub .outOfBounds

/-- A new object. -/
def CppArrays.make (s : CppArrays α) (a : CppArray) : CppArrays α × Nat :=
  ({ s with objs := fun i => if i = s.nextObj then some a else s.objs i, nextObj := s.nextObj + 1 }, s.nextObj)

/-- `Array(jsize length)`, include/jnivm/array.h:50, 178, 205: `new T[length]` throws
`std::bad_array_new_length` for a negative length. -/
def CppArrays.ofLength (s : CppArrays α) (n : Int) : Res (CppArrays α × Nat) :=
  if n < 0 then .throws .lengthError
  else
    let (s, p) := s.alloc (List.replicate n.toNat s.junk) false
    .ok (s.make ⟨some p, n, true⟩)

/-- `Array()`, include/jnivm/array.h:51-53, 177, 206. -/
def CppArrays.empty (s : CppArrays α) : CppArrays α × Nat := s.make ⟨none, 0, false⟩

/-- The conversion of `size_t` to `jsize`: the low 32 bits, as a signed number. -/
def toJsize (n : Nat) : Int := (n : Int).bmod 4294967296

/-- `Array(const std::vector<T>&)`, include/jnivm/array.h:54-58. -/
def CppArrays.ofVector (s : CppArrays α) (v : List α) : CppArrays α × Nat :=
  let (s, p) := s.alloc v false
  s.make ⟨some p, toJsize v.length, true⟩

/-- The `n` elements at `p`. -/
def CppArrays.readAll (s : CppArrays α) (p : Option Ptr) (n : Nat) : Res (List α) :=
  match p with
  | none => .ub .nullDeref
  | some p => match s.blocks p.block with
    | none => .ub .dangling
    | some l => if p.off + n ≤ l.length then .ok ((l.drop p.off).take n) else .ub .outOfBounds

/-- `Array(T* data, jsize length, bool copy)`, include/jnivm/array.h:60-66; without the flag (line 68) it
copies. -/
def CppArrays.ofPointer (s : CppArrays α) (p : Option Ptr) (n : Int) (copy : Bool) : Res (CppArrays α × Nat) :=
  if copy then
    if n < 0 then .throws .lengthError
    else (s.readAll p n.toNat).bind fun l =>
      let (s, q) := s.alloc l false
      .ok (s.make ⟨some q, n, true⟩)
  else .ok (s.make ⟨p, n, false⟩)

/-- The implicit copy constructor, used by `std::make_shared<Z>(*p)` (include/jnivm/array.h:124-126, 138-140;
include/jnivm/jnitypes.h:59-75): all members are copied. -/
def CppArrays.copy (s : CppArrays α) (a : Nat) : Res (CppArrays α × Nat) :=
  match s.objs a with
  | none => .ub .dangling
  | some o => .ok (s.make o)

/-- The implicit copy assignment `*a = *b`. -/
def CppArrays.assign (s : CppArrays α) (a b : Nat) : Res (CppArrays α) :=
  match s.objs a, s.objs b with
  | some _, some o => .ok { s with objs := fun i => if i = a then some o else s.objs i }
  | _, _ => .ub .dangling

/-- `operator[]`, include/jnivm/array.h:82-87, read. -/
def CppArrays.get (s : CppArrays α) (a : Nat) (i : Int) : Res α :=
  match s.objs a with
  | none => .ub .dangling
  | some o => s.read o.data i

/-- `operator[]`, written. -/
def CppArrays.set (s : CppArrays α) (a : Nat) (i : Int) (x : α) : Res (CppArrays α) :=
  match s.objs a with
  | none => .ub .dangling
  | some o => s.write o.data i x

/-- `~Array`, include/jnivm/array.h:70-74, 185-190, 214-219. -/
def CppArrays.destroy (s : CppArrays α) (a : Nat) : Res (CppArrays α) :=
  match s.objs a with
  | none => .ub .dangling
  | some o =>
    (if o.owner then s.free o.data else .ok s).bind fun s =>
      .ok { s with objs := fun i => if i = a then none else s.objs i }

/-- What C++ code does with arrays. -/
inductive CppArrayOp (α : Type) where
  | ofLength (n : Int)
  | empty
  | ofVector (v : List α)
  | ofPointer (p : Option Ptr) (n : Int) (copy : Bool)
  | copy (a : Nat)
  | assign (a b : Nat)
  | set (a : Nat) (i : Int) (x : α)
  | destroy (a : Nat)
  /-- memory of the caller's own -/
  | malloc (l : List α)
  | free (p : Ptr)
  | write (p : Option Ptr) (i : Int) (x : α)

def CppArrays.step (s : CppArrays α) : CppArrayOp α → Res (CppArrays α)
  | .ofLength n => (s.ofLength n).bind fun r => .ok r.1
  | .empty => .ok s.empty.1
  | .ofVector v => .ok (s.ofVector v).1
  | .ofPointer p n c => (s.ofPointer p n c).bind fun r => .ok r.1
  | .copy a => (s.copy a).bind fun r => .ok r.1
  | .assign a b => s.assign a b
  | .set a i x => s.set a i x
  | .destroy a => s.destroy a
  | .malloc l => .ok (s.alloc l true).1
  | .free p => s.free (some p)
  | .write p i x => s.write p i x

/-- C++ code that keeps the rules: it copies only arrays that own nothing, and deletes only its own memory. -/
def CppArrays.Careful (s : CppArrays α) : CppArrayOp α → Prop
  | .copy a => ∀ o, s.objs a = some o → o.owner = false
  | .assign a b => (∀ o, s.objs a = some o → o.owner = false) ∧ ∀ o, s.objs b = some o → o.owner = false
  | .free p => s.callers p.block = true
  | _ => True

/-- States that code which keeps the rules can bring about. -/
inductive CppArrays.Reached (junk : α) : CppArrays α → Prop
  | initial : Reached junk (CppArrays.initial junk)
  | step {s s' op} : Reached junk s → s.Careful op → s.step op = .ok s' → Reached junk s'

end Jnivm
