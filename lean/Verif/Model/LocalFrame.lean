import Verif.Model.Heap
/-!
`LocalFrame`, include/fake-jni/fake-jni.h:132-142: a scope that attaches the thread if necessary, pushes a
frame of local references and pops it when it ends, normally or with a C++ exception.

The state is the one of `Model/Heap.lean`, so there is one VM.  A thread that is attached to another VM uses
the environment of that VM; this is part of `Model/Context.lean`.  `env2` keeps the environment alive if the
thread is detached inside the scope; here the end of such a scope counts as undefined, and no theorem covers
it.  A call that throws leaves the state as it was.
-/
namespace Jnivm

/-- A C++ program on one thread, `t` below, while other threads make calls. -/
inductive FrameStmt where
  /-- thread `u` makes a call; an exception on another thread ends there -/
  | call (u : Nat) (op : HeapOp)
  /-- `throw` -/
  | raise (e : Exn)
  /-- `try { body } catch(...) {}` -/
  | attempt (body : List FrameStmt)
  /-- `{ LocalFrame f(vm); body }`, and `{ LocalFrame f; body }` if `vm` is false -/
  | frame (vm : Bool) (body : List FrameStmt)

namespace Heap

/-- The constructors, include/fake-jni/fake-jni.h:133-138, src/fake-jni/fake-jni.cpp:7-21, 42-47.  The result
tells whether the thread was attached, that is whether `vm` is set in the context. -/
def enterFrame (h : Heap) (t : Nat) (vm : Bool) : Res (Heap × Bool) :=
  match h.envs t with
  | some _ => (HeapOp.pushLocalFrame.run h t).bind fun (h, _) => .ok (h, false)
  | none =>
    if vm then
      (HeapOp.attach.run h t).bind fun (h, _) =>
      (HeapOp.pushLocalFrame.run h t).bind fun (h, _) => .ok (h, true)
    else .throws .runtimeError

/-- The destructors, include/fake-jni/fake-jni.h:139-141, src/fake-jni/fake-jni.cpp:23-27. -/
def leaveFrame (h : Heap) (t : Nat) (made : Bool) : Res Heap :=
  ((HeapOp.popLocalFrame none).run h t).bind fun (h, _) =>
    if made then (HeapOp.detach.run h t).bind fun (h, _) => .ok h else .ok h

end Heap

/-- A call inside a program. -/
def Heap.callStmt (h : Heap) (t u : Nat) (op : HeapOp) : Res (Heap × Option Exn) :=
  match op.run h u with
  | .ok (h, _) => .ok (h, none)
  | .throws e => .ok (h, if u = t then some e else none)
  | .ub x => .ub x
  | .diverges => .diverges

mutual

/-- One statement; the second component is the exception that leaves it.  Should a destructor throw, the
program is terminated: that would be `throws`. -/
def FrameStmt.run (t : Nat) (h : Heap) : FrameStmt → Res (Heap × Option Exn)
  | .call u op => h.callStmt t u op
  | .raise e => .ok (h, some e)
  | .attempt body => (runFrames t h body).bind fun (h, _) => .ok (h, none)
  | .frame vm body =>
    match h.enterFrame t vm with
    | .ok (h, made) =>
      (runFrames t h body).bind fun (h, x) =>
      (h.leaveFrame t made).bind fun h => .ok (h, x)
    | .throws e => .ok (h, some e)
    | .ub x => .ub x
    | .diverges => .diverges

/-- Statements in order; an exception skips the rest. -/
def runFrames (t : Nat) (h : Heap) : List FrameStmt → Res (Heap × Option Exn)
  | [] => .ok (h, none)
  | s :: l => (FrameStmt.run t h s).bind fun
    | (h, none) => runFrames t h l
    | (h, some e) => .ok (h, some e)

end

end Jnivm
