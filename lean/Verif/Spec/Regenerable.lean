import Verif.Spec.CppProgram
import Verif.Props.Regenerate
/-!
What the classes and members of a VM have to be like, so that C++ allows their class dump.
-/
namespace Jnivm
open Spec

/-- A class that has to be dumped. -/
def World.Dumps (w : World) (n : Str) (c : Nat) : Prop := w.IsClass n c ∧ Dumped n

/-- The members of class `n` can name class `k`: `k` is dumped and is no inner class, or an inner class of `n` or of a
class around `n`; or the library declares `k`. -/
def Usable (R : CppReader) (num : Str → Nat) (ws : World) (n k : Str) : Prop :=
  ((∃ c, ws.Dumps k c) ∧ ∀ o x, k = o ++ '$' :: x → '/' ∉ x → '$' ∉ x → Encloses o n) ∨
    (WordName k ∧ R.base.cls (cppClass R.fake k) = some (num k))

/-- The names of the members of a class. -/
def memberNames (ws : World) (c : Nat) : List Str :=
  (ws.mem c).fields.map (·.name) ++ ((dumpedMethods ws c).filter (·.name ≠ "<init>".toList)).map (·.name)

/-- Packages and classes have names that C++ allows. -/
def NamesAllowed (ws : World) : Prop :=
  ∀ n c, ws.Dumps n c → PlainName n ∧ ∀ x ∈ nameParts n, isIdent x = true ∧ x ∉ scopelessNames

/-- The classes of `ws` have names that the class dump can declare.  `num n` is the type of the C++ class of `n`, `clazz` that of `jnivm::Class`. -/
structure Nameable (R : CppReader) (num : Str → Nat) (clazz : Nat) (ws : World) : Prop where
  /-- the library declares `jnivm::Class`, and `jnivm` is a namespace -/
  library : R.base.cls "jnivm::Class".toList = some clazz ∧ R.base.cls "jnivm".toList = none
  names : NamesAllowed ws
  /-- the library has no class and no namespace of this name -/
  unused : ∀ n c, ws.Dumps n c → R.base.cls (cppScope n) = none ∧ cppScope n ∉ R.spaces
  /-- no package has the name of a class -/
  packages : ∀ n c a b, ws.Dumps n c → n = a ++ '/' :: b → R.base.cls (cppScope a) = none ∧ ∀ m d, ws.Dumps m d → cppScope m ≠ cppScope a
  types : ∀ n c, ws.Dumps n c → num n = R.fresh (cppScope n)
  injective : ∀ n c m d, ws.Dumps n c → ws.Dumps m d → num n = num m → n = m

/-- The class dump of `ws` can be compiled. -/
structure Regenerable (R : CppReader) (num : Str → Nat) (clazz : Nat) (T : Typing) (ws : World) : Prop extends Nameable R num clazz ws where
  /-- members have names that C++ allows, all different and different from those of the class, its inner classes and
  the members of all classes -/
  members : ∀ n c, ws.Dumps n c → (memberNames ws c).Nodup ∧ ∀ x ∈ memberNames ws c, isIdent x = true ∧ ¬ SimpleName n x ∧
    x ∉ reservedNames R.fake ∧ ∀ j, ¬ ws.IsClass (n ++ '$' :: x) j
  /-- the types of members can be named -/
  fields : ∀ n c, ws.Dumps n c → ∀ f ∈ (ws.mem c).fields, ∀ k ∈ (T.field f).classNames, Usable R num ws n k
  methods : ∀ n c, ws.Dumps n c → ∀ m ∈ dumpedMethods ws c, ∀ k ∈ sigClassNames (T.params m) (T.result m), Usable R num ws n k
  /-- constructors give objects of the class and take different parameters -/
  ctors : ∀ n c, ws.Dumps n c → ∀ m ∈ dumpedMethods ws c, m.name = "<init>".toList → m.static = true ∧ T.result m = some (.cls n)
  overloads : ∀ n c, ws.Dumps n c →
    (((dumpedMethods ws c).filter (·.name = "<init>".toList)).map fun m => (T.params m).map (typeOf num)).Nodup

/-! What the class dump of any VM needs. -/

/-- Members have names and types that C++ allows, each for itself. -/
structure MembersSpelled (T : Typing) (ws : World) : Prop where
  fields : ∀ n c, ws.Dumps n c → ∀ f ∈ (ws.mem c).fields, isIdent f.name = true ∧ ∀ k ∈ (T.field f).classNames, WordName k
  methods : ∀ n c, ws.Dumps n c → ∀ m ∈ dumpedMethods ws c, (isIdent m.name = true ∨ m.name = "<init>".toList) ∧
    ∀ k ∈ sigClassNames (T.params m) (T.result m), WordName k

/-- The declarations of the members of class `c` name class `k`. -/
def UsedBy (T : Typing) (ws : World) (c : Nat) (k : Str) : Prop :=
  (∃ f ∈ (ws.mem c).fields, k ∈ (T.field f).classNames) ∨ ∃ m ∈ dumpedMethods ws c, (∃ t ∈ T.params m, k ∈ t.classNames) ∨
    (m.name ≠ "<init>".toList ∧ ∃ t, T.result m = some t ∧ k ∈ t.classNames)

end Jnivm
