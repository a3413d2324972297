/-!
Vocabulary for class hierarchies: the superclasses of a class and the order in which a
depth-first search meets them.  `bases c` is the list of direct superclasses of `c` (a `none`
entry is "no class"); `bases c = none` means that `c` has no superclass list at all.
-/
namespace Spec

/-- `d` is a direct superclass of `c`. -/
def Direct (bases : Nat → Option (List (Option Nat))) (c d : Nat) : Prop :=
  ∃ bs, bases c = some bs ∧ some d ∈ bs

/-- `d` is `c` or a direct or indirect superclass of `c`. -/
inductive Super (bases : Nat → Option (List (Option Nat))) : Nat → Nat → Prop
  | refl (c : Nat) : Super bases c c
  | step {c d e : Nat} : Direct bases c d → Super bases d e → Super bases c e

/-- `SearchOrder bases cs l`: visiting the classes `cs` in order, each followed by its own
superclasses (depth first, in order), visits the classes `l`. -/
inductive SearchOrder (bases : Nat → Option (List (Option Nat))) :
    List (Option Nat) → List Nat → Prop
  | nil : SearchOrder bases [] []
  | skip {cs l} : SearchOrder bases cs l → SearchOrder bases (none :: cs) l
  | visit {c cs up l} : SearchOrder bases ((bases c).getD []) up → SearchOrder bases cs l →
      SearchOrder bases (some c :: cs) (c :: (up ++ l))

/-- No class is its own proper superclass: there is a measure that decreases towards
superclasses. -/
def Acyclic (bases : Nat → Option (List (Option Nat))) : Prop :=
  ∃ rank : Nat → Nat, ∀ c d, Direct bases c d → rank d < rank c

end Spec
