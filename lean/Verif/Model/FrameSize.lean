import Verif.Model.LocalFrame
/-!
The sizes that `PushLocalFrame`, `EnsureLocalCapacity` and `LocalFrame` are given.

`Model/Heap.lean` and `Model/LocalFrame.lean` leave the sizes out: reserving memory has no effect on what a
frame holds.  But `std::vector::reserve` may throw, and here that is modelled.  A size is a `jint`; `reserve`
takes a `size_t` of `w` bits, so that a negative size becomes a large one.  Which requests the allocator can
serve is a parameter.
-/
namespace Jnivm

/-- What the platform provides: the width of `size_t`, and for how many elements memory can be had. -/
structure Memory where
  wide : Bool
  room : Nat → Bool

/-- The bits of a `size_t`. -/
def Memory.bits (m : Memory) : Nat := if m.wide then 64 else 32

/-- The conversion of a `jint` to `size_t`. -/
def Memory.toSize (m : Memory) (n : BitVec 32) : Nat := (n.signExtend m.bits).toNat

/-- `max_size()` of a vector of `std::shared_ptr`s, which are two pointers each: `PTRDIFF_MAX` bytes. -/
def Memory.maxSize (m : Memory) : Nat := (2 ^ (m.bits - 1) - 1) / (m.bits / 4)

/-- `reserve` on a frame, src/jnivm/vm.cpp:130, 232: the exception, if any. -/
def Memory.reserve (m : Memory) (n : BitVec 32) : Option Exn :=
  if m.toSize n > m.maxSize then some .lengthError
  else if m.room (m.toSize n) then none
  else some .badAlloc

/-- `if(cap)`, src/jnivm/vm.cpp:129-130. -/
def Memory.reserveNew (m : Memory) (n : BitVec 32) : Option Exn :=
  if n = 0 then none else m.reserve n

namespace Heap

/-- `PushLocalFrame`, src/jnivm/vm.cpp:119-133: first the frame is pushed, then memory is reserved.  The result
is the exception or the number returned. -/
def pushLocalFrameSized (m : Memory) (h : Heap) (t : Nat) (n : BitVec 32) : Res (Heap × Except Exn (BitVec 32)) :=
  (HeapOp.pushLocalFrame.run h t).bind fun (h, _) =>
    match m.reserveNew n with
    | some e => .ok (h, .error e)
    | none => .ok (h, .ok 0)

/-- `EnsureLocalCapacity`, src/jnivm/vm.cpp:229-235. -/
def ensureLocalCapacity (m : Memory) (h : Heap) (t : Nat) (n : BitVec 32) : Res (Heap × Except Exn (BitVec 32)) :=
  (h.env t).bind fun e =>
    match e.frames with
    | [] => .ub .outOfBounds
    | _ :: _ =>
      match m.reserve n with
      | some e => .ok (h, .error e)
      | none => .ok (h, .ok 0)

/-- The constructors with a size, include/fake-jni/fake-jni.h:133-138.  If `PushLocalFrame` throws, the
destructor of `LocalFrame` is not run, but that of its base class is, src/fake-jni/fake-jni.cpp:23-27. -/
def enterSized (m : Memory) (h : Heap) (t : Nat) (vm : Bool) (n : BitVec 32) : Res (Heap × Except Exn Bool) :=
  match h.enterFrame t vm with
  | .ok (h, made) =>
    match m.reserveNew n with
    | none => .ok (h, .ok made)
    | some e =>
      if made then (HeapOp.detach.run h t).bind fun (h, _) => .ok (h, .error e) else .ok (h, .error e)
  | .throws e => .ok (h, .error e)
  | .ub x => .ub x
  | .diverges => .diverges

end Heap

/-- A C++ program on one thread while other threads make calls, as `FrameStmt`. -/
inductive SizedStmt where
  | call (u : Nat) (op : HeapOp)
  | raise (e : Exn)
  | attempt (body : List SizedStmt)
  /-- `{ LocalFrame f(vm, size); body }`, and `{ LocalFrame f(size); body }` if `vm` is false -/
  | frame (vm : Bool) (size : BitVec 32) (body : List SizedStmt)

mutual

/-- One statement; the second component is the exception that leaves it. -/
def SizedStmt.run (m : Memory) (t : Nat) (h : Heap) : SizedStmt → Res (Heap × Option Exn)
  | .call u op => h.callStmt t u op
  | .raise e => .ok (h, some e)
  | .attempt body => (runSized m t h body).bind fun (h, _) => .ok (h, none)
  | .frame vm n body =>
    (h.enterSized m t vm n).bind fun
    | (h, .ok made) =>
      (runSized m t h body).bind fun (h, x) =>
      (h.leaveFrame t made).bind fun h => .ok (h, x)
    | (h, .error e) => .ok (h, some e)

/-- Statements in order; an exception skips the rest. -/
def runSized (m : Memory) (t : Nat) (h : Heap) : List SizedStmt → Res (Heap × Option Exn)
  | [] => .ok (h, none)
  | s :: l => (SizedStmt.run m t h s).bind fun
    | (h, none) => runSized m t h l
    | (h, some e) => .ok (h, some e)

end

end Jnivm
