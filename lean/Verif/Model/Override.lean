import Verif.Model.Basic
/-!
The objects behind `JNIEnv` and `JavaVM` and the replacement of their function tables.
-/
namespace Jnivm

/-- `JNINativeInterface` or `JNIInvokeInterface`, include/jni.h:130-428, 895-905: the first reserved
pointer (`none` is null) and all the other slots. -/
structure Iface (α : Type) where
  reserved0 : Option Nat
  slots : α
deriving DecidableEq, Repr

/-- `ENV` (include/jnivm/env.h:14-24) or `VM` (include/jnivm/vm.h:32-50): its address and its table, to
which the `functions` pointer of the `JNIEnv` or `JavaVM` inside points. -/
structure TableObj (α : Type) where
  addr : Nat
  table : Iface α
deriving DecidableEq, Repr

variable {α : Type}

/-- The constructor of `ENV`, src/jnivm/env.cpp:9-15; for `VM` the table literal starts with `this`,
src/jnivm/vm.cpp:460-461. -/
def TableObj.new (addr : Nat) (t : Iface α) : TableObj α := ⟨addr, { t with reserved0 := some addr }⟩

/-- `VM::CreateEnv`, src/jnivm/vm.cpp:563-569: the hooks may change anything in the template. -/
def TableObj.createEnv (addr : Nat) (tmpl : Iface α) (hooks : List (Iface α → Iface α)) : TableObj α :=
  TableObj.new addr (hooks.foldl (fun t h => h t) tmpl)

/-- `ENV::OverrideJNINativeInterface`, src/jnivm/env.cpp:21-28, and `VM::OverrideJNIInvokeInterface`,
src/jnivm/vm.cpp:554-561. -/
def TableObj.override (o : TableObj α) (t : Iface α) : Res (TableObj α) :=
  if t.reserved0 ≠ none ∧ t.reserved0 ≠ o.table.reserved0 then .throws .runtimeError
  else
    let reserved0 := o.table.reserved0
    .ok { o with table := { t with reserved0 := reserved0 } }

/-- `ENV::FromJNIEnv`, src/jnivm/env.cpp:38-41, and `VM::FromJavaVM`, src/jnivm/vm.cpp:575-578; the
argument is the object whose `JNIEnv` or `JavaVM` is passed, or null. -/
def fromTable (o : Option (TableObj α)) : Res Nat :=
  match o with
  | none => .throws .runtimeError
  | some o => match o.table.reserved0 with
    | none => .throws .runtimeError
    | some a => .ok a

end Jnivm
