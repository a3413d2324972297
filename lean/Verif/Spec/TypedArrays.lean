/-! Inheritance of C++ classes, independent of how the library uses it. -/
namespace Spec

/-- `c` is `b` or derives from it through the given direct bases. -/
inductive Derives (bases : Nat → List Nat) : Nat → Nat → Prop where
  | refl (c : Nat) : Derives bases c c
  | step {c b d : Nat} : b ∈ bases c → Derives bases b d → Derives bases c d

/-- Every element is null or an instance of `elem`; `dyn` is the dynamic type of each object. -/
def TypedCells (bases : Nat → List Nat) (dyn : Nat → Nat) (elem : Nat) (cells : List (Option Nat)) : Prop :=
  ∀ o, some o ∈ cells → Derives bases (dyn o) elem

end Spec
