import Verif.Model.Jni
import Verif.Spec.Calls
/-!
Histories of JNI calls, and what they are when every reference to a class is replaced by the name of the
class.
-/
namespace Spec
open Jnivm

/-- The VM can be in this state between two calls of its clients. -/
def JniReachable (vm : Vm) : Prop := ∃ ops as, runJni Vm.initial ops = .ok (vm, as)

/-- The reference denotes the class of this name, or null. -/
def RefersTo (h : Heap) (r : Option Nat) : Option Str → Prop
  | none => Denotes h r none
  | some n => ∃ k o, Denotes h r (some k) ∧ h.objs k = some o ∧ o.kind = .cls n

/-- The reference denotes an object that is no class. -/
def RefersToNoClass (h : Heap) (r : Option Nat) : Prop :=
  ∃ k o, Denotes h r (some k) ∧ h.objs k = some o ∧ ∀ n, o.kind ≠ .cls n

/-- The class references a call is given. -/
def classArgs : JniOp → List (Option Nat)
  | .getMethodID _ _ _ _ cl _ _ | .getFieldID _ _ _ cl _ _ | .registerNatives cl _ | .unregisterNatives cl
  | .getSuperclass cl => [cl]
  | .isAssignableFrom _ cl1 cl2 => [cl1, cl2]
  | _ => []

/-- The call with names instead of references. -/
inductive ByName (h : Heap) : JniOp → ClientOp → Prop where
  | getMethodID {d s r a cl n name sig} : RefersTo h cl n →
      ByName h (.getMethodID d s r a cl name sig) (.getMethodID d s r a n name sig)
  | getFieldID {d s r cl n name type} : RefersTo h cl n →
      ByName h (.getFieldID d s r cl name type) (.getFieldID d s r n name type)
  | registerNatives {cl n l} : RefersTo h cl n → ByName h (.registerNatives cl l) (.registerNatives n l)
  | unregisterNatives {cl n} : RefersTo h cl n → ByName h (.unregisterNatives cl) (.unregisterNatives n)
  | isAssignableFrom {d c1 c2 n1 n2} : RefersTo h c1 n1 → RefersTo h c2 n2 →
      ByName h (.isAssignableFrom d c1 c2) (.isAssignableFrom d n1 n2)
  | getSuperclass {cl n} : RefersTo h cl (some n) → ByName h (.getSuperclass cl) (.getSuperclass n)
  | cpp {op} : ByName h (.cpp op) op

/-- What a client that works with names is told instead. -/
def SameAnswer (h : Heap) : JniAnswer → ClientAnswer → Prop
  | .client a, b => a = b
  | .out (.ref r), .cls n => RefersTo h r n
  | _, _ => False

/-- A call by reference and a call by name end alike: with the same tables and the same answer, the same
exception, or the same undefined behaviour. -/
inductive SameResult : Res (Vm × JniAnswer) → Res (World × ClientAnswer) → Prop where
  | ok {vm a b} : SameAnswer vm.heap a b → SameResult (.ok (vm, a)) (.ok (vm.world, b))
  | throws {e} : SameResult (.throws e) (.throws e)
  | ub {u} : SameResult (.ub u) (.ub u)
  | diverges : SameResult .diverges .diverges

/-- The calls of `FindClass` that make the registry know the classes of the heap. -/
def finds (h : Heap) : List ClientOp := h.classes.reverse.map fun x => .findClass x.1

/-- Their answers. -/
def foundNames (h : Heap) : List ClientAnswer := h.classes.reverse.map fun x => .cls (some x.1)

/-- A history of JNI calls and its answers, and the program with names instead of references and its
answers. -/
inductive Translates : Vm → List (Nat × JniOp) → List JniAnswer → List ClientOp → List ClientAnswer → Prop where
  | nil {vm} : Translates vm [] [] [] []
  | heap {vm vm' : Vm} {t op a ops as prog bs} : (JniOp.heap op).run vm t = .ok (vm', a) →
      Translates vm' ops as prog bs →
      Translates vm ((t, .heap op) :: ops) (a :: as) (finds vm'.heap ++ prog) (foundNames vm'.heap ++ bs)
  | named {vm vm' : Vm} {t op c a b ops as prog bs} : ByName vm.heap op c → op.run vm t = .ok (vm', a) →
      SameAnswer vm'.heap a b → Translates vm' ops as prog bs →
      Translates vm ((t, op) :: ops) (a :: as) (c :: prog) (b :: bs)
  /-- `IsInstanceOf` asks whether the class of the object can be assigned to the class -/
  | instance {vm vm' : Vm} {t d r i o cl n1 n2 a b ops as prog bs} : Denotes vm.heap (some r) (some i) →
      vm.heap.objs i = some o → RefersTo vm.heap o.cls n1 → RefersTo vm.heap cl n2 →
      (JniOp.isInstanceOf d (some r) cl).run vm t = .ok (vm', a) → SameAnswer vm'.heap a b →
      Translates vm' ops as prog bs →
      Translates vm ((t, .isInstanceOf d (some r) cl) :: ops) (a :: as) (.isAssignableFrom d n1 n2 :: prog) (b :: bs)
  /-- null is an instance of nothing -/
  | null {vm : Vm} {t d cl ops as prog bs} : Translates vm ops as prog bs →
      Translates vm ((t, .isInstanceOf d none cl) :: ops) (.client (.bool false) :: as) prog bs

end Spec
