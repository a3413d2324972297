import Verif.Spec.Jni
import Verif.Model.Nested
/-!
Whole programs: C++ code installs functions by name, and later a client looks them up through the JNI and calls
them.
-/
namespace Spec
open Jnivm

/-- The operation on the tables of members comes from one of these calls; the class it acts on is the one the call
names.  Lookups may come from any call. -/
def CausedBy (w : World) (ops : List (Nat × JniOp)) : MemOp → Prop
  | .hookMethod c st n sig f => ∃ t cl, (t, .cpp (.hookMethod cl st n sig f)) ∈ ops ∧ w.IsClass cl c
  | .hookField c g st n ty f => ∃ t cl, (t, .cpp (.hookField cl g st n ty f)) ∈ ops ∧ w.IsClass cl c
  | .registerNatives c l =>
    (∃ t r, (t, .registerNatives r l) ∈ ops) ∨
      ∃ t cl, (t, .cpp (.registerNatives cl l)) ∈ ops ∧ ∀ n, cl = some n → ∃ d, c = some d ∧ w.IsClass n d
  | .unregisterNatives c =>
    (∃ t r, (t, .unregisterNatives r) ∈ ops) ∨
      ∃ t cl, (t, .cpp (.unregisterNatives cl)) ∈ ops ∧ ∀ n, cl = some n → ∃ d, c = some d ∧ w.IsClass n d
  | .bindType ty n bs => ∃ t, (t, .cpp (.bindType ty n bs)) ∈ ops
  | .findClass .. | .getMethodID .. | .getFieldID .. => True

/-- `jclass cl = env->FindClass(n); k(cl)` -/
def withClass (n : Str) (k : Option Nat → Script) : Script :=
  .jni (.heap (.findClass n)) fun
    | .out (.ref r) => k r
    | _ => .raise .badCast

/-- `jclass cl = env->GetObjectClass(obj); k(cl)` -/
def withObjectClass (obj : Option Nat) (k : Option Nat → Script) : Script :=
  .jni (.heap (.getObjectClass obj)) fun
    | .out (.ref r) => k r
    | _ => .raise .badCast

/-- `jmethodID id = env->GetMethodID(cl, name, sig); k(id)`, or with `GetStaticMethodID`. -/
def withMethodID (depth : Nat) (st : Bool) (cl : Option Nat) (name sig : Str) (k : Option Nat → Script) : Script :=
  .jni (.getMethodID depth st false false cl name sig) fun
    | .client (.member id) => k id
    | _ => .raise .badCast

/-- `jfieldID id = env->GetFieldID(cl, name, type); k(id)`, or with `GetStaticFieldID`. -/
def withFieldID (depth : Nat) (st : Bool) (cl : Option Nat) (name type : Str) (k : Option Nat → Script) : Script :=
  .jni (.getFieldID depth st false cl name type) fun
    | .client (.member id) => k id
    | _ => .raise .badCast

end Spec
