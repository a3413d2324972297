import Verif.Model.ObjArgs
import Verif.Spec.Refs
/-! What a hooked C++ function gets for the references it is called with, said with `Denotes` only. -/
namespace Spec
open Jnivm

/-- The object a reference denotes is null or an instance of `c`. -/
def DenotesA (w : CppTypes) (h : Heap) (c : CppClass) (r o : Option Nat) : Prop :=
  Denotes h r o ∧ ∀ i, o = some i → w.isa i c = true

/-- A parameter gets the object that the reference denotes, a `jobject` the reference itself; references
and values are never null. -/
inductive Passed (w : CppTypes) (h : Heap) : ObjParam → Option Nat → ObjArg → Prop where
  | jobject {r} : Passed w h .jobject r (.handle r)
  | shared {c r o} : DenotesA w h c r o → Passed w h (.shared c) r (.shared o)
  | pointer {c r o} : DenotesA w h c r o → Passed w h (.pointer c) r (.pointer o)
  | jhandle {c r o} : DenotesA w h c r o → Passed w h (.jhandle c) r (.handle o)
  | ref {c r i} : DenotesA w h c r (some i) → Passed w h (.ref c) r (.ref i)
  | value {c r i} : DenotesA w h c r (some i) → Passed w h (.value c) r (.copy i)

/-- One value for each parameter. -/
inductive PassedAll (w : CppTypes) (h : Heap) : List (ObjParam × Option Nat) → List ObjArg → Prop where
  | nil : PassedAll w h [] []
  | cons {p r x as xs} : Passed w h p r x → PassedAll w h as xs → PassedAll w h ((p, r) :: as) (x :: xs)

/-- Why a reference is refused: it denotes an object of another type, or null where an object is needed. -/
inductive Refused (w : CppTypes) (h : Heap) : ObjParam → Option Nat → Exn → Prop where
  | type {p c r i} : p ∈ [.shared c, .pointer c, .jhandle c, .ref c, .value c] → Denotes h r (some i) →
      w.isa i c = false → Refused w h p r .badCast
  | null {p c r} : p ∈ [.ref c, .value c] → Denotes h r none → Refused w h p r .runtimeError

/-- The local references that a parameter leaves in the caller's frame: pointers and `jclass`,
`jthrowable` get one each. -/
def newLocals : ObjParam → ObjArg → List Nat
  | .pointer _, .pointer o => o.toList
  | .jhandle _, .handle o => o.toList
  | _, _ => []


/-- The local references that all parameters leave there. -/
def allLocals (as : List (ObjParam × Option Nat)) (xs : List ObjArg) : List Nat :=
  (List.zipWith (fun a x => newLocals a.1 x) as xs).flatten

/-- The states that calls of the interface and of hooked functions lead to. -/
inductive HookReachable (w : CppTypes) : Heap → Prop where
  | initial : HookReachable w Heap.initial
  | op {h h' t op out} : HookReachable w h → HeapOp.run h t op = .ok (h', out) → HookReachable w h'
  | hook {h h' t c r} : HookReachable w h → h.hookCall w t c = .ok (h', r) → HookReachable w h'

/-- A hooked function that was called in `h0` is running: it has received `xs` and meanwhile the calls
`ops` were made. -/
def Running (w : CppTypes) (h0 : Heap) (t : Nat) (this : Option (CppClass × Option Nat))
    (args : List (ObjParam × Option Nat)) (temps : List Nat) (xs : List ObjArg)
    (ops : List (Nat × HeapOp)) (h : Heap) : Prop :=
  ∃ h1, h0.hookEnter w t this args = .ok (h1, temps, xs) ∧ runHeap h1 ops = .ok h

end Spec
