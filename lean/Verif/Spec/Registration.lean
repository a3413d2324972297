import Verif.Spec.HookSig
import Verif.Model.Descriptor
/-!
What a class descriptor promises: the members with their kinds, names and JNI types.
-/
namespace Spec
open Jnivm

/-- A way to use a member. -/
inductive Use where
  | call | get | set
deriving DecidableEq, Repr

/-- `fn` answers when the member is used that way. -/
structure Promise where
  use : Use
  static : Bool
  name : Str
  type : Str
  fn : Nat
deriving DecidableEq, Repr

/-- An entry is static if its flags say so; without flags, functions and variables that belong to no
object are static only in the compatibility mode. -/
def SaysStatic (compat : Bool) (f : CppFn) : Option (BitVec 32) → Prop
  | some flags => flags.getLsbD 3 = true
  | none => compat = true ∧ f.kind.isInstance = false

/-- The promises of a hook of `f`.  A function is promised under its own JNI signature, and without its
first parameter too if that takes the object (or class).  A variable is promised to be read and
written. -/
inductive Promises (ci : CppInfo) (w : World) (c : Nat) (f : CppFn) (static : Bool) (name : Str)
    (fn : Nat → Nat) : List Promise → Prop where
  | fn {tys : List Ty} {ret : Option Ty} : f.kind = .plain ∨ f.kind = .member →
      JavaTypes ci w (f.params.drop (envParams f.params)) tys → JavaRet ci w f.ret ret →
      (f.kind = .plain → ∀ p, f.params[envParams f.params]? = some p → ¬ SelfParam ci w c (!static) p) →
      Promises ci w c f static name fn [⟨.call, static, name, renderSig tys ret, fn (envParams f.params)⟩]
  | self {t : Ty} {tys : List Ty} {ret : Option Ty} {p : CppTy} : f.kind = .plain →
      JavaTypes ci w (f.params.drop (envParams f.params)) (t :: tys) → JavaRet ci w f.ret ret →
      f.params[envParams f.params]? = some p → SelfParam ci w c (!static) p →
      Promises ci w c f static name fn [⟨.call, static, name, renderSig (t :: tys) ret, fn (envParams f.params)⟩,
        ⟨.call, static, name, renderSig tys ret, fn (envParams f.params + 1)⟩]
  | var {t : Ty} : f.kind = .variable ∨ f.kind = .dataMember → f.params = [] → JavaType ci w f.ret t →
      Promises ci w c f static name fn [⟨.get, static, name, t.render, fn 0⟩, ⟨.set, static, name, t.render, fn 0⟩]

/-- The promises of an entry of class `c`.  A member of the objects cannot be static. -/
inductive EntryPromises (compat : Bool) (ci : CppInfo) (w : World) (c : Nat) :
    DescEntry → List Promise → Prop where
  | static {f : CppFn} {name : Str} {flags : Option (BitVec 32)} {fn : Nat → Nat} {ps : List Promise} :
      SaysStatic compat f flags → f.kind.isInstance = false → Promises ci w c f true name fn ps →
      EntryPromises compat ci w c (.named f name flags fn) ps
  | inst {f : CppFn} {name : Str} {flags : Option (BitVec 32)} {fn : Nat → Nat} {ps : List Promise} :
      ¬ SaysStatic compat f flags → Promises ci w c f false name fn ps →
      EntryPromises compat ci w c (.named f name flags fn) ps
  | ctor {t : Nat} {params : List CppTy} {fn : Nat → Nat} {ps : List Promise} :
      Promises ci w c ⟨.plain, .data .shared (.cls t), params⟩ true "<init>".toList fn ps →
      EntryPromises compat ci w c (.ctor t params fn) ps

/-- The promises of all entries, in order. -/
inductive AllPromises (compat : Bool) (ci : CppInfo) (w : World) (c : Nat) :
    List DescEntry → List Promise → Prop where
  | nil : AllPromises compat ci w c [] []
  | cons {e : DescEntry} {es : List DescEntry} {ps qs : List Promise} : EntryPromises compat ci w c e ps →
      AllPromises compat ci w c es qs → AllPromises compat ci w c (e :: es) (ps ++ qs)

/-- The function of the last promise for that use of that member. -/
def lastPromise (use : Use) (static : Bool) (name type : Str) (ps : List Promise) : Option Nat :=
  ((ps.filter fun p => p.use == use && p.static == static && p.name == name && p.type == type).getLast?).map (·.fn)

end Spec
