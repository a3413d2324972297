import Verif.Model.Calls
import Verif.Spec.Hierarchy
import Verif.Spec.Refs
/-!
Which implementation a call has to run and what happens to its exceptions, said on the state only.
-/
namespace Spec
open Jnivm

/-- The VM can be in this state between two calls. -/
def VmReachable (vm : Vm) : Prop := MemReachable vm.world ∧ HeapReachable vm.heap

/-- The state in which a piece of code ends satisfies `P`, if it ends normally or with an exception. -/
def EndsIn {α : Type} (P : Vm → Prop) : Outcome Vm α → Prop
  | .returns vm _ => P vm
  | .raises vm _ => P vm
  | _ => True

/-- The hooked functions change the VM through its interface only. -/
def WellBehaved (code : Nat → Hook) : Prop :=
  ∀ f vm self args, VmReachable vm → EndsIn VmReachable ((code f).run vm self args)

/-- Class `c` itself implements the instance method by function `f`. -/
def Implements (w : World) (c : Nat) (name sig : Str) (f : Nat) : Prop :=
  ∃ m ∈ (w.mem c).methods, m.static = false ∧ m.name = name ∧ m.signature = sig ∧ m.handle = some f

/-- `f` implements the method for objects of class `c`: it is the implementation of the first class,
in the order of a depth-first search from `c` upwards, that has one. -/
def NearestImpl (w : World) (c : Nat) (name sig : Str) (f : Nat) : Prop :=
  ∃ pre d post, SearchOrder w.bases [some c] (pre ++ d :: post) ∧
    (∀ a ∈ pre, ∀ g, ¬ Implements w a name sig g) ∧ Implements w d name sig f

/-- `cl` is a reference to the class `c`. -/
def IsClassRef (vm : Vm) (cl : Option Nat) (c : Nat) : Prop :=
  ∃ k o n, Denotes vm.heap cl (some k) ∧ vm.heap.objs k = some o ∧ o.kind = .cls n ∧ vm.world.IsClass n c

/-- `obj` is a reference to an object of class `c`. -/
def ClassIs (vm : Vm) (obj : Option Nat) (c : Nat) : Prop :=
  ∃ i o k, Denotes vm.heap obj (some i) ∧ vm.heap.objs i = some o ∧ o.cls = some k ∧
    IsClassRef vm (some k) c

/-- The method id denotes the method `m` of some class. -/
def Names (w : World) (id : Nat) (m : MethodRec) : Prop :=
  ∃ n c, w.IsClass n c ∧ m ∈ (w.mem c).methods ∧ m.id = id

/-- The field id denotes the field `f` of some class. -/
def NamesField (w : World) (id : Nat) (f : FieldRec) : Prop :=
  ∃ n c, w.IsClass n c ∧ f ∈ (w.mem c).fields ∧ f.id = id

/-- The two states differ by a call of `GetObjectClass(obj)`: at most a local reference was added. -/
def AfterGetClass (t : Nat) (obj : Option Nat) (vm vm' : Vm) : Prop :=
  vm'.world = vm.world ∧ ∃ r, (HeapOp.getObjectClass obj).run vm.heap t = .ok (vm'.heap, .ref r)

/-- `Handled t inner outer`: a call by thread `t` that runs the code with outcome `inner` inside has
the outcome `outer`.  A normal return is passed on.  An exception becomes the pending one of the
thread, as a new exception object, and the call returns zero. -/
inductive Handled (t : Nat) : Outcome Vm (BitVec 64) → Outcome Vm (BitVec 64) → Prop where
  | returns {vm v} : Handled t (.returns vm v) (.returns vm v)
  | raises {vm vm' : Vm} {e x env o} : vm'.world = vm.world → vm.heap.envs t = some env →
      vm'.heap.envs t = some { env with pending := some x } → vm.heap.next ≤ x →
      vm'.heap.objs x = some o → o.kind = .throwable (some e) → (∀ u, u ≠ t → vm'.heap.envs u = vm.heap.envs u) →
      Handled t (.raises vm e) (.returns vm' 0)
  | detached {vm : Vm} {e} : vm.heap.envs t = none → Handled t (.raises vm e) (.ub .dangling)
  | ub {u} : Handled t (.ub u) (.ub u)
  | aborts : Handled t .aborts .aborts
  | diverges : Handled t .diverges .diverges

/-- The outcome is no escaping C++ exception. -/
def NoEscape {α : Type} : Outcome Vm α → Prop
  | .raises _ _ => False
  | _ => True

end Spec
