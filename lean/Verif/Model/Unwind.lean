import Verif.Model.Invoke
import Verif.Model.LocalFrame
/-!
C++ programs that call hooked C++ functions through `Method::invoke`, which do the same in turn, throw and catch
exceptions: an exception leaves the hooked function (include/jnivm/wrap.h), becomes the pending exception of the
thread (src/jnivm/internal/method.cpp:207-215), and `invoke` throws the pending exception
(include/jnivm/method.h:140-143).

Simplifications: the methods have hooked functions and signatures with a return type
(`Model/Proxy.lean` has the others), an exception makes the call itself return zero (`JNI_RETURN_NON_ZERO` is in
`Model/Defaults.lean`), and what `invoke` returns is ignored (it is in `Model/Invoke.lean`).  Passing a
released object counts as undefined, even if nobody looks at it.
-/
namespace Jnivm

/-- A C++ program on one thread, `t` below, while other threads make calls. -/
inductive ProgStmt where
  /-- thread `u` makes a call; an exception on another thread ends there -/
  | call (u : Nat) (op : HeapOp)
  /-- `throw` -/
  | raise (e : Exn)
  /-- `try { body } catch(...) {}`; with `env->ExceptionClear();` in the handler if `clear` -/
  | attempt (clear : Bool) (body : List ProgStmt)
  /-- `{ LocalFrame f(vm); body }`, and `{ LocalFrame f; body }` if `vm` is false -/
  | frame (vm : Bool) (body : List ProgStmt)
  /-- `method->invoke(env, target, args...)`, where the method is a function with these parameters that runs
  `body` and returns `returns`; `this` is its class if it is a member function -/
  | invoke (target : Recipient) (args : List InvokeArg) (this : Option CppClass) (params : List Param)
      (body : List ProgStmt) (returns : ObjRet)

namespace Heap

/-- Is `i` an object that C++ code can have a pointer to? -/
def isOrdinary (h : Heap) (i : Nat) : Bool := (h.objs i).any fun o => !o.kind.isWrapper

/-- Does what is passed exist? -/
def isGiven (h : Heap) : InvokeArg → Bool
  | .prim _ _ => true
  | .jobject r => r.all fun i => (h.objs i).isSome
  | .shared _ o => o.all h.isOrdinary
  | .pointer _ o => o.all h.isOrdinary
  | .unowned _ cls => cls.all fun k => (h.classes.map (·.2)).contains k
  | .value _ cls => cls.all fun k => (h.classes.map (·.2)).contains k

/-- The state in which the conversion of the arguments stops, include/jnivm/wrap.h:113-117: those that were
converted before keep their local references. -/
def receiveStop (w : CppTypes) (t : Nat) : Heap → List Param → List JArg → Heap
  | h, p :: ps, j :: js => match h.receiveArg w t p j with
    | .ok (h, _) => receiveStop w t h ps js
    | _ => h
  | h, _, _ => h

/-- The same if the receiver is converted first. -/
def enterStop (w : CppTypes) (h : Heap) (t : Nat) (target : Recipient) (f : HookedFn) (js : List JArg) : Heap :=
  match h.receiver w (f.this.map fun c => (c, some target.ref)) with
  | .ok _ => receiveStop w t h f.params js
  | _ => h

/-- `catch(...)` of `CallMethod`, src/jnivm/internal/method.cpp:207-215, 302-310: the temporaries of
the call are gone, and the exception becomes the pending one of the thread. -/
def catchAll (h : Heap) (t : Nat) (temps : List Nat) (e : Exn) : Res Heap :=
  ((HeapOp.raise e).run (h.letGo temps).collect t).bind fun (h, _) => .ok h

/-- The end of `j2invoke`, include/jnivm/method.h:140-143: a pending exception is thrown (it stays pending),
and in any case what `invoke` owned is released. -/
def invokeEnd (h : Heap) (t : Nat) (owned : List Nat) : Res (Heap × Option Exn) :=
  match h.envs t with
  | none => .ub .dangling
  | some env => match env.pending with
    | none => .ok ((h.letGo owned).collect, none)
    | some x => match h.objs x with
      | some ⟨.throwable (some e), _⟩ => .ok ((h.letGo owned).collect, some e)
      | some ⟨.throwable none, _⟩ => .ub .nullDeref
      | _ => .ub .dangling

end Heap

mutual

/-- One statement; the second component is the exception that leaves it. -/
def ProgStmt.run (w : CppTypes) (share : Bool) (t : Nat) (h : Heap) : ProgStmt → Res (Heap × Option Exn)
  | .call u op => h.callStmt t u op
  | .raise e => .ok (h, some e)
  | .attempt clear body => (runProg w share t h body).bind fun
    | (h, none) => .ok (h, none)
    | (h, some _) =>
      if clear then (HeapOp.exceptionClear.run h t).bind fun (h, _) => .ok (h, none) else .ok (h, none)
  | .frame vm body =>
    match h.enterFrame t vm with
    | .ok (h, made) =>
      (runProg w share t h body).bind fun (h, x) =>
      (h.leaveFrame t made).bind fun h => .ok (h, x)
    | .throws e => .ok (h, some e)
    | .ub x => .ub x
    | .diverges => .diverges
  | .invoke target args this params body returns =>
    if h.isOrdinary target.ref && args.all h.isGiven then
      (h.invokeBegin w share t target args).bind fun (h, js) =>
        match h.invokeEnter w t target ⟨this, params, [], returns⟩ js with
        | .ok (h, temps, _) =>
          (runProg w share t h body).bind fun
            | (h, none) => (h.hookLeave w t temps returns).bind fun (h, _) =>
                h.invokeEnd t (invokeOwned target args)
            | (h, some e) => (h.catchAll t temps e).bind fun h => h.invokeEnd t (invokeOwned target args)
        | .throws e =>
          ((h.enterStop w t target ⟨this, params, [], returns⟩ js).catchAll t [] e).bind fun h =>
            h.invokeEnd t (invokeOwned target args)
        | .ub x => .ub x
        | .diverges => .diverges
    else .ub .dangling

/-- Statements in order; an exception skips the rest. -/
def runProg (w : CppTypes) (share : Bool) (t : Nat) (h : Heap) : List ProgStmt → Res (Heap × Option Exn)
  | [] => .ok (h, none)
  | s :: l => (ProgStmt.run w share t h s).bind fun
    | (h, none) => runProg w share t h l
    | (h, some e) => .ok (h, some e)

end

end Jnivm
