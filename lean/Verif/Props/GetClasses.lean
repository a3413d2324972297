import Verif.Model.GetClasses
import Verif.Props.Registry
/-! C15: what `getClasses` lists. -/
namespace Jnivm
open Spec

theorem key_of_lookup {l : List (Str × Nat)} {n : Str} {c : Nat} (h : l.lookup n = some c) : n ∈ l.map (·.1) := by
  induction l with
  | nil => cases h
  | cons x l ih =>
    obtain ⟨a, b⟩ := x
    rw [List.lookup_cons] at h
    by_cases hn : n == a
    · rw [List.map_cons, eq_of_beq hn]; exact List.mem_cons_self
    · simp only [hn] at h
      rw [List.map_cons]
      exact List.mem_cons_of_mem _ (ih h)

theorem nodup_eraseDups {α : Type} [BEq α] [LawfulBEq α] : ∀ l : List α, l.eraseDups.Nodup := by
  have key : ∀ k (l : List α), l.length ≤ k → l.eraseDups.Nodup := by
    intro k
    induction k with
    | zero => intro l hl; cases l with
      | nil => simp
      | cons a l => simp at hl
    | succ k ih =>
      intro l hl
      cases l with
      | nil => simp
      | cons a l =>
        rw [List.eraseDups_cons, List.nodup_cons]
        refine ⟨fun h => ?_, ih _ ?_⟩
        · have := List.mem_eraseDups.1 h
          simp at this
        · have := List.length_filter_le (fun b => !b == a) l
          simp at hl
          omega
  exact fun l => key _ l (Nat.le_refl _)

theorem nodup_filterMap {α β : Type} {f : α → Option β} {l : List α} (hl : l.Nodup)
    (hf : ∀ a ∈ l, ∀ b ∈ l, ∀ c, f a = some c → f b = some c → a = b) : (l.filterMap f).Nodup := by
  induction l with
  | nil => exact List.nodup_nil
  | cons a l ih =>
    rw [List.nodup_cons] at hl
    have hi := ih hl.2 fun x hx y hy => hf x (List.mem_cons_of_mem _ hx) y (List.mem_cons_of_mem _ hy)
    cases ha : f a with
    | none => rw [List.filterMap_cons_none ha]; exact hi
    | some c =>
      rw [List.filterMap_cons_some ha, List.nodup_cons]
      refine ⟨fun hc => ?_, hi⟩
      obtain ⟨b, hb, hbc⟩ := List.mem_filterMap.1 hc
      exact hl.1 (hf a List.mem_cons_self b (List.mem_cons_of_mem _ hb) c ha hbc ▸ hb)

/-- C15, listing.  `getClasses` lists exactly the classes that can be found by some name. -/
theorem get_classes_exact {r : Registry} (hr : RegReachable r) (c : Nat) :
    c ∈ r.getClasses ↔ ∃ n, (findClass true r n).2 = some c := by
  unfold Registry.getClasses
  rw [List.mem_filterMap]
  constructor
  · rintro ⟨n, _, h⟩
    exact ⟨n, by rw [← map_agrees hr n]; exact h⟩
  · rintro ⟨n, h⟩
    rw [← map_agrees hr n] at h
    exact ⟨n, List.mem_eraseDups.2 (key_of_lookup h), h⟩

/-- C15, listing.  No class is listed twice. -/
theorem get_classes_once {r : Registry} (hr : RegReachable r) : r.getClasses.Nodup := by
  unfold Registry.getClasses
  refine nodup_filterMap ?_ ?_
  · exact nodup_eraseDups _
  · intro a _ b _ c ha hb
    obtain ⟨d1, e1, p1, _⟩ := lookup_record hr.inv ha
    obtain ⟨d2, e2, p2, _⟩ := lookup_record hr.inv hb
    rw [e1] at e2
    cases e2
    rw [← p1, ← p2]

/-- C15, listing.  Whatever happens later, a listed class stays listed. -/
theorem get_classes_grows {r r' : Registry} (hr : RegReachable r) {ops : List RegOp} (hops : runReg r ops = .ok r')
    {c : Nat} (h : c ∈ r.getClasses) : c ∈ r'.getClasses := by
  obtain ⟨n, _, hl⟩ := List.mem_filterMap.1 h
  have := (runReg_mono ops hr.inv hops).2 n c hl
  exact List.mem_filterMap.2 ⟨n, List.mem_eraseDups.2 (key_of_lookup this), this⟩

/-- Sample for the theorems above: asking for an inner class adds it and the class around it. -/
example : ∃ r r', RegReachable r ∧ runReg r [.find false "a/B$C".toList] = .ok r' ∧
    r'.getClasses.length = r.getClasses.length + 2 ∧ r.getClasses ≠ [] :=
  ⟨_, _, ⟨[], rfl⟩, rfl, by decide +kernel, by decide +kernel⟩

end Jnivm
