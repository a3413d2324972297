import Verif.Model.MemberOps
/-!
The Baron VM: rules against making up classes and members, src/baron/jvm.cpp and
include/baron/baron.h.
-/
namespace Jnivm

/-- An entry of `denyMethods` or `denyFields`: the key and the `denyFilter`,
include/baron/baron.h:8-13. -/
structure DenyRule where
  name : Str
  classname : Str
  signature : Str
deriving DecidableEq, Repr

/-- The three tables, include/baron/baron.h:7-13.  The order in which an unordered container is
traversed is that of the list; it is arbitrary. -/
structure Deny where
  classes : List Str
  methods : List DenyRule
  fields : List DenyRule
deriving DecidableEq, Repr

/-- A new VM has no rules. -/
def Deny.empty : Deny := ⟨[], [], []⟩

/-- `denyClass`, src/baron/jvm.cpp:136-138. -/
def Deny.denyClass (d : Deny) (name : Str) : Deny :=
  if d.classes.contains name then d else { d with classes := d.classes ++ [name] }

/-- `denyMethod`, src/baron/jvm.cpp:140-142. -/
def Deny.denyMethod (d : Deny) (name sig clazz : Str) : Deny :=
  { d with methods := d.methods ++ [⟨name, clazz, sig⟩] }

/-- `denyField`, src/baron/jvm.cpp:144-146. -/
def Deny.denyField (d : Deny) (name sig clazz : Str) : Deny :=
  { d with fields := d.fields ++ [⟨name, clazz, sig⟩] }

/-- `isClassDenied`, src/baron/jvm.cpp:96-98. -/
def Deny.isClassDenied (d : Deny) (name : Str) : Bool := d.classes.contains name

/-- The loop shared by `isMethodDenied` and `isFieldDenied`, src/baron/jvm.cpp:100-116, 118-134;
`sig` and `clazz` may be null pointers. -/
def deniedBy (rules : List DenyRule) (name : Str) (sig clazz : Option Str) : Bool :=
  (rules.filter (·.name == []) ++ rules.filter (·.name == name)).any fun i =>
    if name ≠ [] ∧ i.name ≠ [] ∧ i.name ≠ name then false
    else if sig.getD [] ≠ [] ∧ i.signature ≠ [] ∧ some i.signature ≠ sig then false
    else clazz.getD [] == [] || i.classname == [] || some i.classname == clazz

def Deny.isMethodDenied (d : Deny) (name : Str) (sig clazz : Option Str) : Bool :=
  deniedBy d.methods name sig clazz

def Deny.isFieldDenied (d : Deny) (name : Str) (sig clazz : Option Str) : Bool :=
  deniedBy d.fields name sig clazz

/-- `FindClass` of the Baron table, src/baron/jvm.cpp:24-33, and `Jvm::findClass`,
src/baron/jvm.cpp:150-158. -/
def Deny.findClass (d : Deny) (r : Registry) (name : Str) : Registry × Option Nat :=
  match Jnivm.findClass true r name with
  | (r, some c) => (r, some c)
  | (r, none) => if d.isClassDenied name then (r, none) else Jnivm.findClass false r name

/-- `cl ? cl->nativeprefix.data() : ""`, src/baron/jvm.cpp:39 -/
def World.className (w : World) (cl : Option Nat) : Str :=
  match cl with
  | none => []
  | some c => ((w.reg.cls[c]?).map (·.nativeprefix)).getD []

/-- `GetMethodID` and `GetStaticMethodID` of the Baron table, src/baron/jvm.cpp:34-53. -/
def Deny.getMethodID (d : Deny) (depth : Nat) (isStatic : Bool) (w : World) (cl : Option Nat)
    (name sig : Str) : Res (World × Option Nat) :=
  (w.getMethodID depth isStatic true false cl name sig).bind fun (w, r) =>
    match r with
    | some id => .ok (w, some id)
    | none =>
      if d.isMethodDenied name (some sig) (some (w.className cl)) then .ok (w, none)
      else w.getMethodID depth isStatic false false cl name sig

/-- The same with the pointers a client may pass: the lookups take a null name or signature for the
empty text, src/jnivm/internal/method.cpp:10-11, but a null name is made a `std::string` by
`equal_range(name)`, src/baron/jvm.cpp:101-105, which is undefined. -/
def Deny.getMethodIDPtr (d : Deny) (depth : Nat) (isStatic : Bool) (w : World) (cl : Option Nat)
    (name sig : Option Str) : Res (World × Option Nat) :=
  (w.getMethodID depth isStatic true false cl (name.getD []) (sig.getD [])).bind fun (w, r) =>
    match r with
    | some id => .ok (w, some id)
    | none =>
      match name with
      | none => .ub .nullDeref
      | some n =>
        if d.isMethodDenied n sig (some (w.className cl)) then .ok (w, none)
        else w.getMethodID depth isStatic false false cl n (sig.getD [])

/-- `GetFieldID` and `GetStaticFieldID` of the Baron table, src/baron/jvm.cpp:54-73. -/
def Deny.getFieldID (d : Deny) (depth : Nat) (isStatic : Bool) (w : World) (cl : Option Nat)
    (name type : Str) : Res (World × Option Nat) :=
  (w.getFieldID depth isStatic true cl name type).bind fun (w, r) =>
    match r with
    | some id => .ok (w, some id)
    | none =>
      if d.isFieldDenied name (some type) (some (w.className cl)) then .ok (w, none)
      else w.getFieldID depth isStatic false cl name type

end Jnivm
