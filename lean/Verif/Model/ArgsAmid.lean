import Verif.Model.ObjArgs
/-!
The conversion of the arguments of a hooked function, include/jnivm/wrap.h:66-67, 86, 113-117, while other
threads make calls: before, between and after the conversions of the single arguments.  `Model/ObjArgs.lean`
has the conversion without other threads.

Simplification: the conversion of one argument is one step.
-/
namespace Jnivm

/-- A thread makes a call, or the next argument is converted. -/
inductive AmidStep where
  | call (u : Nat) (op : HeapOp)
  | arg (p : ObjParam) (r : Option Nat)
deriving DecidableEq, Repr

/-- The objects, what temporary `shared_ptr`s own so far, and the converted arguments. -/
structure AmidState where
  heap : Heap
  temps : List Nat
  args : List ObjArg

/-- One step while thread `t` converts arguments; the `shared_ptr` made for an argument owns its object from
then on. -/
def AmidState.step (w : CppTypes) (t : Nat) (s : AmidState) : AmidStep → Res AmidState
  | .call u op => (op.run s.heap u).bind fun (h, _) => .ok { s with heap := h }
  | .arg p r => (s.heap.convert w t r p).bind fun (h, x) =>
      .ok ⟨(h.hold x.owned.toList).collect, x.owned.toList ++ s.temps, s.args ++ [x]⟩

def AmidState.run (w : CppTypes) (t : Nat) : AmidState → List AmidStep → Res AmidState
  | s, [] => .ok s
  | s, x :: xs => (s.step w t x).bind fun s => s.run w t xs

/-- A hooked function is called on thread `t`: first the receiver is converted (the order of C++17), then the
steps follow. -/
def Heap.enterAmid (w : CppTypes) (h : Heap) (t : Nat) (this : Option (CppClass × Option Nat))
    (steps : List AmidStep) : Res AmidState :=
  (h.receiver w this).bind fun self => AmidState.run w t ⟨(h.hold self).collect, self, []⟩ steps

end Jnivm
