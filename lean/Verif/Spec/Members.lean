import Verif.Model.Members
/-! What a class declares. -/
namespace Jnivm

/-- Class `c` declares the method `m` with this name, signature, staticness and kind (native or
not). -/
def World.Declares (w : World) (c : Nat) (st nat : Bool) (name sig : Str) (m : MethodRec) : Prop :=
  m ∈ (w.mem c).methods ∧ m.static = st ∧ m.native.isSome = nat ∧ m.name = name ∧ m.signature = sig

/-- Class `c` declares the field `f` with this name, type and staticness. -/
def World.DeclaresField (w : World) (c : Nat) (st : Bool) (name type : Str) (f : FieldRec) : Prop :=
  f ∈ (w.mem c).fields ∧ f.static = st ∧ f.name = name ∧ f.type = type

end Jnivm
