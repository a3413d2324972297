import Verif.Model.HookSig
import Verif.Model.MemberOps
import Verif.Spec.Descriptor
import Verif.Spec.Proxy
/-!
Which Java type a C++ type stands for, what a C++ function has to receive from a JNI call, and which
methods a hook has to add.
-/
namespace Spec
open Jnivm

/-- The Java name of a C++ class: that of the class registered for it, or else the one it declares. -/
def JavaName (ci : CppInfo) (w : World) (c : CppClass) (n : Str) : Prop :=
  (∃ k, w.types (ci.id c) = some k ∧ w.IsClass n k) ∨
    (w.types (ci.id c) = none ∧ ci.nulls (ci.id c) = false ∧ ci.declared c = some n)

/-- The Java type of a value or array element. -/
inductive JavaElem (ci : CppInfo) (w : World) : CppClass → Ty → Prop where
  | prim {p : Prim} : JavaElem ci w (.prim p) (.prim p)
  | cls {t : Nat} {n : Str} : JavaName ci w (.cls t) n → JavaElem ci w (.cls t) (.cls n)
  | arr {e : CppClass} {t : Ty} : JavaElem ci w e t → JavaElem ci w (.arr e) (.arr t)

/-- The Java type of a parameter: primitive types and arrays by value, arrays by shared pointer,
classes in every form, and `jobject`, `jstring`, `jclass`, `jthrowable`. -/
inductive JavaType (ci : CppInfo) (w : World) : CppTy → Ty → Prop where
  | value {c : CppClass} {t : Ty} : JavaElem ci w c t → JavaType ci w (.data .value c) t
  | array {e : CppClass} {t : Ty} : JavaElem ci w e t → JavaType ci w (.data .shared (.arr e)) (.arr t)
  | object {b : PassBy} {t : Nat} {n : Str} : JavaName ci w (.cls t) n → JavaType ci w (.data b (.cls t)) (.cls n)
  | handle {t : Nat} {n : Str} : JavaName ci w (.cls t) n → JavaType ci w (.handle t) (.cls n)

/-- The Java types of a parameter list. -/
inductive JavaTypes (ci : CppInfo) (w : World) : List CppTy → List Ty → Prop where
  | nil : JavaTypes ci w [] []
  | cons {p : CppTy} {ps : List CppTy} {t : Ty} {ts : List Ty} : JavaType ci w p t →
      JavaTypes ci w ps ts → JavaTypes ci w (p :: ps) (t :: ts)

/-- The Java result type; `none` is `void`. -/
inductive JavaRet (ci : CppInfo) (w : World) : CppTy → Option Ty → Prop where
  | void : JavaRet ci w .void none
  | some {p : CppTy} {t : Ty} : JavaType ci w p t → JavaRet ci w p (some t)

/-- The array classes mentioned in a type: its own and those of its elements, except arrays of
primitive type. -/
def arrayNames : Ty → List (List Char)
  | .arr (.prim _) => []
  | .arr t => ('[' :: t.render) :: arrayNames t
  | _ => []

/-- Only classes with names among `ns` were added. -/
structure OnlyClasses (w w' : World) (ns : List Str) : Prop where
  types : w'.types = w.types
  mem : w'.mem = w.mem
  loose : w'.loose = w.loose
  next : w'.next = w.next
  keep : ∀ n c, w.IsClass n c → w'.IsClass n c
  known : ∀ n, (∃ c, w'.IsClass n c) ↔ (∃ c, w.IsClass n c) ∨ n ∈ ns

/-- What a C++ parameter of Java type `t` has to be when the C argument `a` is passed for it. -/
def received (d2f : BitVec 64 → BitVec 32) : Ty → CArg → Option CppVal
  | .prim .boolean, .int v => some (.z (v.truncate 8))
  | .prim .byte, .int v => some (.b (v.truncate 8))
  | .prim .char, .int v => some (.c (v.truncate 16))
  | .prim .short, .int v => some (.s (v.truncate 16))
  | .prim .int, .int v => some (.i v)
  | .prim .long, .long v => some (.j v)
  | .prim .float, .dbl v => some (.f (d2f v))
  | .prim .double, .dbl v => some (.d v)
  | .cls _, .obj p => some (.l p)
  | .arr _, .obj p => some (.l p)
  | _, _ => none

/-- The parameters receive the C arguments one to one. -/
inductive Receives (d2f : BitVec 64 → BitVec 32) : List Ty → List CArg → List CppArg → Prop where
  | nil : Receives d2f [] [] []
  | cons {t : Ty} {a : CArg} {v : CppVal} {ts : List Ty} {as : List CArg} {vs : List CppArg} :
      received d2f t a = some v → Receives d2f ts as vs → Receives d2f (t :: ts) (a :: as) (.val v :: vs)

/-- `p` may be the object (for an instance hook) or the class (for a static hook) on which the method
is called, when the function is hooked into class `cl`: `jobject`, `Object*` or the C++ type of `cl`;
`jclass` or `Class*`. -/
inductive SelfParam (ci : CppInfo) (w : World) (cl : Nat) : Bool → CppTy → Prop where
  | jobject : SelfParam ci w cl true (.handle ci.object)
  | object : ci.isObject (.cls ci.object) = true → SelfParam ci w cl true (.data .pointer (.cls ci.object))
  | own {b : PassBy} {c : CppClass} : b = .value ∨ b = .pointer → ci.isObject c = true →
      w.types (ci.id c) = some cl → SelfParam ci w cl true (.data b c)
  | jclass : SelfParam ci w cl false (.handle ci.clazz)
  | clazz : SelfParam ci w cl false (.data .pointer (.cls ci.clazz))

/-- The C++ types whose signature code knows them: no environment, no pointer or reference to a primitive
type, arrays by value or shared pointer only. -/
def Supported : CppTy → Prop
  | .handle _ => True
  | .data .value _ => True
  | .data .shared (.arr _) => True
  | .data _ (.cls _) => True
  | _ => False

/-- No Java name can be found for the class. -/
def Anonymous (ci : CppInfo) (w : World) (c : CppClass) : Prop :=
  w.types (ci.id c) = none ∧ ci.nulls (ci.id c) = false ∧ ci.declared c = none

/-- The innermost element type has no Java name. -/
inductive NamelessElem (ci : CppInfo) (w : World) : CppClass → Prop where
  | cls {t : Nat} : Anonymous ci w (.cls t) → NamelessElem ci w (.cls t)
  | arr {e : CppClass} : NamelessElem ci w e → NamelessElem ci w (.arr e)

/-- The code finds no signature for the type. -/
inductive Nameless (ci : CppInfo) (w : World) : CppTy → Prop where
  | value {c : CppClass} : NamelessElem ci w c → Nameless ci w (.data .value c)
  | array {e : CppClass} : NamelessElem ci w e → Nameless ci w (.data .shared (.arr e))
  | handle {t : Nat} : Anonymous ci w (.cls t) → Nameless ci w (.handle t)
  | env {t : Nat} : Anonymous ci w (.cls t) → Nameless ci w (.env t)
  | object {b : PassBy} {c : CppClass} : b ≠ .value → (b = .shared → ∀ e, c ≠ .arr e) → Anonymous ci w c →
      Nameless ci w (.data b c)

/-- What the leading parameters get. -/
def leading : List CppTy → List CppArg
  | [] => []
  | .env _ :: ps => .env :: leading ps
  | _ :: ps => .self :: leading ps

/-- The number of parameters that take the environment: 1 or 0. -/
def envParams : List CppTy → Nat
  | .env _ :: _ => 1
  | _ => 0

/-- The function is installed with `lead` leading parameters.  The environment never counts as an
argument.  The object or class counts as leading too, in a second form of the function.  The first form
is left out if it has too many parameters for a getter or setter. -/
def InstalledForm (ci : CppInfo) (w : World) (cl : Nat) (b : Bind) (f : CppFn) (lead : Nat) : Prop :=
  (lead = envParams f.params ∧ match b.what with
    | .method => True
    | .getter => f.params.length ≤ envParams f.params
    | .setter => f.params.length ≤ envParams f.params + 1
    | .property => f.params.length ≤ envParams f.params) ∨
  (lead = envParams f.params + 1 ∧ f.kind = .plain ∧
    ∃ p, f.params[envParams f.params]? = some p ∧ SelfParam ci w cl b.inst p)

end Spec
