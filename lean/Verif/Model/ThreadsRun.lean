import Verif.Model.Nested
/-!
C++ code of several threads that runs at the same time.

A thread's code is cut into steps, each of which is done in one go: a call of Model/Jni.lean; what a call of a
method, an access of a field or `Method::invoke` does before the function is entered; what is done with the
exception of a function; the test for a pending exception at the end of `Method::invoke`.  The functions themselves
are not one step.  Between two steps other threads may do theirs.  (Which of the tables are locked within a step is
said by Model/Locks.lean.)
-/
namespace Jnivm

/-- What is left of the code of a thread: it has ended, or it does a step and goes on with what it found. -/
inductive Prog where
  | ret (v : BitVec 64)
  | raise (e : Exn)
  | ub (u : UB)
  | aborts
  | diverges
  | step (f : Vm → Vm) (k : Vm → Prog)

/-- A step of the VM, and how it goes on after a result and after an exception. -/
def Prog.act {α : Type} (r : Vm → Outcome Vm α) (ok : α → Prog) (exn : Exn → Prog) : Prog :=
  .step
    (fun vm => match r vm with
      | .returns v _ => v
      | .raises v _ => v
      | _ => vm)
    (fun vm => match r vm with
      | .returns _ a => ok a
      | .raises _ e => exn e
      | .ub u => .ub u
      | .aborts => .aborts
      | .diverges => .diverges)

/-- How a call goes on: with a value at once, with a function, or with an exception of the wrapper. -/
inductive CallEntry where
  | value (v : BitVec 64)
  | enter (f : Nat) (self : Self) (args : List (BitVec 64))
  | fail (e : Exn)

/-- The virtual call on the handle, up to the function; see `Hook.invoke`. -/
def Natives.entry (fs : Natives) (f : Nat) (a : Access) (ty : JType) (self : Self) (args : List (BitVec 64)) : CallEntry :=
  if fs.type f = ty then
    match fs.kind f, a with
    | .static, .static => .enter f self args
    | .inst, .inst => .enter f self args
    | .inst, .nonVirtual => .enter f self args
    | .member, .inst => .enter f self args
    | .member, .nonVirtual => .fail .notSupported
    | _, _ => .fail .mismatchedHandle
  else .fail .mismatchedHandle

/-- The chosen method; see `Vm.invoke`. -/
def Vm.enter (fs : Natives) (ty : JType) (a : Access) (self : Self) (args : List (BitVec 64)) (vm : Vm) :
    Option MethodRec → Outcome Vm CallEntry
  | none => .ub .nullDeref
  | some m => match m.handle with
    | none => .ub .nullDeref
    | some f => .returns vm (fs.entry f a ty self args)

/-- See `Vm.withMethod`. -/
def Vm.enterMethod (vm : Vm) (id : Option Nat) (f : MethodRec → Outcome Vm CallEntry) : Outcome Vm CallEntry :=
  match id with
  | none => .returns vm (.value 0)
  | some i => match vm.world.method? i with
    | none => .ub .dangling
    | some m => if m.handle.isSome then f m else .returns vm (.value 0)

/-- src/jnivm/internal/method.cpp:191-317 up to the function; see `Vm.callA`. -/
def Vm.enterA (fs : Natives) (t : Nat) (ty : JType) (vm : Vm) (form : Form) (id : Option Nat)
    (args : List (BitVec 64)) : Outcome Vm CallEntry :=
  match form with
  | .virtual obj => vm.enterMethod id fun mid =>
      Outcome.lift vm (vm.objectClass t obj) fun (vm, c) =>
        vm.enter fs ty .inst (.obj obj) args (some (findVirtualOverload vm.world c mid))
  | .nonVirtual obj cl => vm.enterMethod id fun mid =>
      Outcome.lift vm (vm.castClass cl) fun (vm, c) =>
        vm.enter fs ty .nonVirtual (.obj obj) args (findNonVirtualOverload vm.world c mid)
  | .static cl => Outcome.lift vm (vm.castClass cl) fun (vm, c) =>
      vm.enterMethod id fun mid => vm.enter fs ty .static (.cls c) args (some mid)

/-- src/jnivm/internal/method.cpp:225-249; see `Vm.callV`. -/
def Vm.enterV (d2f : BitVec 64 → BitVec 32) (fs : Natives) (t : Nat) (ty : JType) (vm : Vm) (form : Form)
    (id : Option Nat) (va : List Spec.CArg) : Outcome Vm CallEntry :=
  match id with
  | none => .returns vm (.value 0)
  | some i => match vm.world.method? i with
    | none => .ub .dangling
    | some m => Outcome.lift vm (jvaluesFromValist d2f m.signature va) fun args =>
        vm.enterA fs t ty form id args.1

/-- The accessor of a field; see `Hook.access`. -/
def Natives.accessor (fs : Natives) (f : Nat) (static : Bool) (ty : JType) (self : Self) (args : List (BitVec 64)) :
    CallEntry :=
  if fs.type f = ty ∧ (fs.kind f = .static ↔ static = true) then .enter f self args else .fail .mismatchedHandle

/-- src/jnivm/internal/field.cpp:107-131 up to the getter; see `Vm.getField`. -/
def Vm.enterGet (fs : Natives) (ty : JType) (vm : Vm) (owner : Owner) (id : Option Nat) : Outcome Vm CallEntry :=
  match id with
  | none => .returns vm (.value 0)
  | some i => match vm.world.field? i with
    | none => .ub .dangling
    | some f => match f.getter with
      | none => .returns vm (.value 0)
      | some g =>
        if f.static = owner.isClass then
          Outcome.lift vm (vm.ownerSelf owner) fun (vm, self) => .returns vm (fs.accessor g f.static ty self [])
        else .aborts

/-- src/jnivm/internal/field.cpp:133-159 up to the setter; see `Vm.setField`. -/
def Vm.enterSet (fs : Natives) (ty : JType) (vm : Vm) (owner : Owner) (id : Option Nat) (value : BitVec 64) :
    Outcome Vm CallEntry :=
  if owner.isNull then .returns vm (.value 0) else
  match id with
  | none => .returns vm (.value 0)
  | some i => match vm.world.field? i with
    | none => .ub .dangling
    | some f => match f.setter with
      | none => .returns vm (.value 0)
      | some s =>
        if f.static = owner.isClass then
          Outcome.lift vm (vm.ownerSelf owner) fun (vm, self) => .returns vm (fs.accessor s f.static ty self [value])
        else .aborts

/-- include/jnivm/method.h:96-152 up to the function, see `Vm.invokeMethod`: the result type, and the registered
function or none. -/
def Vm.enterInvoke (t : Nat) (vm : Vm) (target : Recipient) (id : Nat) : Outcome Vm (JType × Option Nat) :=
  match vm.world.method? id with
  | none => .ub .dangling
  | some m =>
    Outcome.lift vm ((HeapOp.returnObject (some target.ref) (some target.type)).run vm.heap t) fun (h, _) =>
      let vm := { vm with heap := h }
      match m.native with
      | some p => Outcome.lift vm (nativeKind m.signature) fun k => .returns vm (k.jtype, some p)
      | none => Outcome.lift vm (jinvokeKind m.signature) fun k => .returns vm (k.jtype, none)

/-- The functions cut into steps. -/
structure Steps where
  hooked : Nat → Self → List (BitVec 64) → (BitVec 64 → Prog) → (Exn → Prog) → Prog
  registered : Nat → JType → Recipient → List (BitVec 64) → (BitVec 64 → Prog) → (Exn → Prog) → Prog

/-- `catch (...)`; see `Vm.catchAll`. -/
def Prog.caught (t : Nat) (ok : BitVec 64 → Prog) (exn : Exn → Prog) (e : Exn) : Prog :=
  .act (fun vm => Outcome.lift vm ((HeapOp.raise e).run vm.heap t) fun (h, _) => .returns { vm with heap := h } ())
    (fun _ => ok 0) exn

/-- The call of a method goes on. -/
def CallEntry.call (t : Nat) (code : Steps) (ok : BitVec 64 → Prog) (exn : Exn → Prog) : CallEntry → Prog
  | .value v => ok v
  | .enter f self args => code.hooked f self args ok (Prog.caught t ok exn)
  | .fail e => Prog.caught t ok exn e

/-- The access of a field goes on. -/
def CallEntry.access (code : Steps) (ok : BitVec 64 → Prog) (exn : Exn → Prog) : CallEntry → Prog
  | .value v => ok v
  | .enter f self args => code.hooked f self args ok exn
  | .fail e => exn e

/-- `Call<ty>MethodA` in steps. -/
def Steps.callA (code : Steps) (fs : Natives) (t : Nat) (ty : JType) (form : Form) (id : Option Nat)
    (args : List (BitVec 64)) (ok : BitVec 64 → Prog) (exn : Exn → Prog) : Prog :=
  .act (fun vm => vm.enterA fs t ty form id args) (CallEntry.call t code ok exn) exn

/-- The end of `j2invoke` in one step. -/
def Prog.rethrow (t : Nat) (ty : JType) (ok : BitVec 64 → Prog) (exn : Exn → Prog) (v : BitVec 64) : Prog :=
  .act (fun vm => vm.rethrow t (ty.toJValue v)) ok exn

/-- The script in steps. -/
def Script.prog (d2f : BitVec 64 → BitVec 32) (fs : Natives) (code : Steps) (t : Nat) :
    Script → (BitVec 64 → Prog) → (Exn → Prog) → Prog
  | .ret v, ok, _ => ok v
  | .raise e, _, exn => exn e
  | .jni op k, ok, exn =>
    .act (fun vm => Outcome.lift vm (op.run vm t) fun p => .returns p.1 p.2)
      (fun a => (k a).prog d2f fs code t ok exn) exn
  | .callA ty form id args k, ok, exn =>
    .act (fun vm => vm.attached t (vm.enterA fs t ty form id args))
      (CallEntry.call t code (fun v => (k v).prog d2f fs code t ok exn) exn) exn
  | .callV ty form id va k, ok, exn =>
    .act (fun vm => vm.attached t (vm.enterV d2f fs t ty form id va))
      (CallEntry.call t code (fun v => (k v).prog d2f fs code t ok exn) exn) exn
  | .getField ty owner id k, ok, exn =>
    .act (fun vm => vm.attached t (vm.enterGet fs ty owner id))
      (CallEntry.access code (fun v => (k v).prog d2f fs code t ok exn) exn) exn
  | .setField ty owner id v k, ok, exn =>
    .act (fun vm => vm.attached t (vm.enterSet fs ty owner id v))
      (CallEntry.access code (fun _ => k.prog d2f fs code t ok exn) exn) exn
  | .invoke target id args k, ok, exn =>
    .act (fun vm => vm.attached t (vm.enterInvoke t target id))
      (fun x =>
        let go := Prog.rethrow t x.1 (fun v => (k v).prog d2f fs code t ok exn) exn
        match x.2 with
        | some p => code.registered p x.1 target args go exn
        | none => code.callA fs t x.1 target.form (some id) args go exn) exn
  | .attempt body handler k, ok, exn =>
    body.prog d2f fs code t (fun v => (k v).prog d2f fs code t ok exn)
      fun e => (handler e).prog d2f fs code t (fun v => (k v).prog d2f fs code t ok exn) exn

/-- The functions as thread `t` runs them, in steps, when their calls may be nested `depth` times. -/
def Natives.steps (d2f : BitVec 64 → BitVec 32) (fs : Natives) (t : Nat) : Nat → Steps
  | 0 => ⟨fun _ _ _ _ _ => .diverges, fun _ _ _ _ _ _ => .diverges⟩
  | depth + 1 =>
    ⟨fun f self args ok exn => (fs.hooked f self args).prog d2f fs (fs.steps d2f t depth) t ok exn,
      fun p ty target args ok exn => (fs.registered p ty target args).prog d2f fs (fs.steps d2f t depth) t ok exn⟩

/-- The code of a thread in steps. -/
def Script.thread (d2f : BitVec 64 → BitVec 32) (fs : Natives) (depth t : Nat) (s : Script) : Prog :=
  s.prog d2f fs (fs.steps d2f t depth) t .ret .raise

/-- All threads: the state of the VM and what is left of the code of each. -/
structure Pool where
  vm : Vm
  prog : Nat → Prog

/-- Thread `t` does a step, if its code has not ended. -/
def Pool.step (p : Pool) (t : Nat) : Pool :=
  match p.prog t with
  | .step f k => ⟨f p.vm, fun u => if u = t then k p.vm else p.prog u⟩
  | _ => p

/-- The threads do steps in the order of the schedule. -/
def Pool.run (p : Pool) (schedule : List Nat) : Pool := schedule.foldl Pool.step p

end Jnivm
