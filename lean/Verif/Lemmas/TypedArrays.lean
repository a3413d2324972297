import Verif.Model.TypedArrays
import Verif.Spec.TypedArrays
/-! Inheritance of element types and final overriders. -/
namespace Jnivm
open Spec

theorem _root_.Spec.Derives.trans {bs : Nat → List Nat} {a b c : Nat} (h : Derives bs a b)
    (k : Derives bs b c) : Derives bs a c := by
  induction h with
  | refl _ => exact k
  | step hb _ ih => exact .step hb (ih k)

namespace CppHier
variable {h : CppHier}

theorem derives_le {a b : Nat} (d : Derives h.bases a b) : b ≤ a := by
  induction d with
  | refl _ => exact Nat.le_refl _
  | step hb _ ih => exact Nat.le_trans ih (Nat.le_of_lt (h.ordered _ _ hb))

theorem derives_antisymm {a b : Nat} (d : Derives h.bases a b) (e : Derives h.bases b a) : a = b :=
  Nat.le_antisymm (derives_le e) (derives_le d)

theorem isAN_iff {n c b : Nat} (hn : c < n) : h.isAN n c b = true ↔ Derives h.bases c b := by
  induction n generalizing c with
  | zero => omega
  | succ n ih =>
    unfold isAN
    simp only [Bool.or_eq_true, beq_iff_eq, List.any_eq_true]
    constructor
    · rintro (rfl | ⟨x, hx, hxb⟩)
      · exact .refl _
      · exact .step hx ((ih (Nat.lt_of_lt_of_le (h.ordered c x hx) (by omega))).1 hxb)
    · intro d
      cases d with
      | refl _ => exact .inl rfl
      | step hx d =>
        exact .inr ⟨_, hx, (ih (Nat.lt_of_lt_of_le (h.ordered _ _ hx) (by omega))).2 d⟩

theorem isA_iff {c b : Nat} : h.isA c b = true ↔ Derives h.bases c b :=
  isAN_iff (Nat.lt_succ_self c)

theorem mem_definers {t b z : Nat} :
    z ∈ h.definers t b ↔ Derives h.bases t z ∧ (z = b ∨ b ∈ h.bases z) := by
  unfold definers
  simp only [List.mem_filter, List.mem_range, Bool.and_eq_true, Bool.or_eq_true, beq_iff_eq,
    List.contains_iff_mem, isA_iff]
  constructor
  · exact fun hh => hh.2
  · exact fun hh => ⟨Nat.lt_succ_of_le (derives_le hh.1), hh⟩

theorem overrider_some {t b z : Nat} (e : h.overrider t b = some z) :
    (Derives h.bases t z ∧ (z = b ∨ b ∈ h.bases z)) ∧
      ∀ y, Derives h.bases t y → (y = b ∨ b ∈ h.bases y) → Derives h.bases z y := by
  unfold overrider at e
  have hm := List.mem_of_find?_eq_some e
  have hp := List.find?_some e
  refine ⟨mem_definers.1 hm, fun y h1 h2 => ?_⟩
  exact isA_iff.1 (List.all_eq_true.1 hp y (mem_definers.2 ⟨h1, h2⟩))

theorem overrider_of {t b z : Nat} (h1 : Derives h.bases t z) (h2 : z = b ∨ b ∈ h.bases z)
    (h3 : ∀ y, Derives h.bases t y → (y = b ∨ b ∈ h.bases y) → Derives h.bases z y) :
    h.overrider t b = some z := by
  have hz : z ∈ h.definers t b := mem_definers.2 ⟨h1, h2⟩
  have hp : (h.definers t b).all (fun y => h.isA z y) = true :=
    List.all_eq_true.2 fun y hy => isA_iff.2 (h3 y (mem_definers.1 hy).1 (mem_definers.1 hy).2)
  cases e : h.overrider t b with
  | none =>
    unfold overrider at e
    exact absurd hp (List.find?_eq_none.1 e z hz)
  | some w =>
    obtain ⟨⟨w1, w2⟩, w3⟩ := overrider_some e
    rw [derives_antisymm (w3 z h1 h2) (h3 w w1 w2)]

/-- The type itself and its direct bases are seen through the definitions for the type. -/
theorem overrider_near {t b : Nat} (hb : b = t ∨ b ∈ h.bases t) : h.overrider t b = some t := by
  refine overrider_of (.refl _) ?_ fun y hy _ => hy
  rcases hb with rfl | hb
  · exact .inl rfl
  · exact .inr hb

end CppHier
end Jnivm
