import Verif.Model.Members
/-! Operations on classes and members, and histories of them on one thread. -/
namespace Jnivm

/-- The API operations that touch class registry or member tables.  `depth` is the stack
available to the call.  Native lookups (`allowNative`) exist only in null mode, see the
instantiations in src/jnivm/internal/method.cpp:319-324. -/
inductive MemOp where
  | findClass (returnZero : Bool) (name : Str)
  | getMethodID (depth : Nat) (isStatic returnNull allowNative : Bool) (cl : Option Nat) (name sig : Str)
  | getFieldID (depth : Nat) (isStatic returnNull : Bool) (cl : Option Nat) (name type : Str)
  | hookMethod (c : Nat) (static : Bool) (name sig : Str) (fn : Nat)
  | hookField (c : Nat) (isGetter static : Bool) (name type : Str) (fn : Nat)
  | registerNatives (cl : Option Nat) (l : List NativeMethod)
  | unregisterNatives (cl : Option Nat)
  | bindType (t : Nat) (name : Str) (bs : List (Option Nat))

def MemOp.run (w : World) : MemOp → Res World
  | .findClass z n => .ok { w with reg := (Jnivm.findClass z w.reg n).1 }
  | .getMethodID d s r a cl n sig => (w.getMethodID d s (r || a) a cl n sig).bind fun p => .ok p.1
  | .getFieldID d s r cl n t => (w.getFieldID d s r cl n t).bind fun p => .ok p.1
  | .hookMethod c s n sig fn => .ok (w.hookMethod c s n sig fn)
  | .hookField c g s n t fn => .ok (w.hookField c g s n t fn)
  | .registerNatives cl l => .ok (w.registerNatives cl l)
  | .unregisterNatives cl => .ok (w.unregisterNatives cl)
  | .bindType t n bs => .ok (w.bindType t n bs).1

/-- Run a history. -/
def runMem : World → List MemOp → Res World
  | w, [] => .ok w
  | w, op :: ops => (op.run w).bind fun w' => runMem w' ops

/-- The states a VM can get into. -/
def MemReachable (w : World) : Prop := ∃ ops, runMem World.initial ops = .ok w

/-- `FindClass(n)` returns class `c`. -/
def World.IsClass (w : World) (n : Str) (c : Nat) : Prop := (findClass true w.reg n).2 = some c

end Jnivm
