import Verif.Model.Destroy
import Verif.Spec.Destroy
import Verif.Lemmas.Refs
/-!
What exactly `collect` keeps.
-/
namespace Jnivm
open Spec
namespace Heap

/-- A set in which everything has an owner in the set or a root is kept. -/
theorem collectN_closed {n : Nat} {S : Nat → Prop} {h : Heap} (hb : ∀ j o, h.objs j = some o → j < h.next)
    (hown : ∀ i, S i → i ∈ h.roots ∨ ∃ j, S j ∧ h.Edge j i) :
    ∀ i o, S i → h.objs i = some o → (∀ i, S i → h.Live i) → (collectN n h).objs i = some o := by
  induction n generalizing h with
  | zero => exact fun i o _ ho _ => ho
  | succ n ih =>
    intro i o hS ho hl
    have keep : ∀ j oj, S j → h.objs j = some oj → h.sweep.objs j = some oj := fun j oj hj hoj =>
      sweep_objs.2 ⟨(held_iff hb).2 ((hown j hj).imp id fun ⟨k, _, hk⟩ => ⟨k, hk⟩), hoj⟩
    refine ih (h := h.sweep) (fun j o hj => hb j o (sweep_objs.1 hj).2) (fun j hj => ?_) i o hS (keep i o hS ho) ?_
    · rcases hown j hj with hr | ⟨k, hk, ok, hok, he⟩
      · exact .inl hr
      · exact .inr ⟨k, hk, ok, keep k ok hk hok, he⟩
    · intro j hj
      obtain ⟨oj, hoj⟩ := hl j hj
      exact ⟨oj, keep j oj hj hoj⟩

theorem from_trans {h : Heap} {a b c : Nat} (x : From h a b) (y : From h b c) : From h a c := by
  rcases x with rfl | x
  · exact y
  · rcases y with rfl | y
    · exact .inr x
    · exact .inr (path_trans x y)

/-- The last step of a path. -/
theorem path_last {h : Heap} {a c : Nat} (x : OwnsPath h a c) : ∃ b, From h a b ∧ Owns h b c := by
  induction x with
  | one h1 => exact ⟨_, .inl rfl, h1⟩
  | cons h1 _ ih =>
    obtain ⟨b, hb, ho⟩ := ih
    exact ⟨b, from_trans (.inr (.one h1)) hb, ho⟩

theorem path_live {h : Heap} (he : ∀ j i, h.Edge j i → h.Live i) {a c : Nat} (x : OwnsPath h a c) : h.Live c := by
  obtain ⟨b, _, ho⟩ := path_last x
  exact he b c (owns_iff.1 ho)

/-- Exactly the objects that a root or a cycle owns are kept. -/
theorem collect_exact {h : Heap} (hb : ∀ j o, h.objs j = some o → j < h.next)
    (hr : ∀ i ∈ h.roots, h.Live i) (he : ∀ j i, h.Edge j i → h.Live i) (i : Nat) :
    h.collect.Live i ↔ (∃ r ∈ h.roots, From h r i) ∨ Stuck h i := by
  constructor
  · rintro ⟨o, ho⟩
    have hb' : ∀ j o, h.collect.objs j = some o → j < h.collect.next := fun j o hj => by
      rw [collect_next]; exact hb j o (collect_sub hj)
    have hall := collect_allHeld hb
    have up : ∀ {a b}, Owns h.collect a b → Owns h a b := by
      rintro a b ⟨oa, hoa, hk⟩
      exact ⟨oa, collect_sub hoa, hk⟩
    by_cases hst : Stuck h i
    · exact .inr hst
    left
    have key : ∀ n i, ¬ Stuck h i → h.collect.Live i → h.rank i = n → ∃ r ∈ h.roots, From h r i := by
      intro n
      induction n using Nat.strongRecOn with
      | _ n ih =>
        intro i hst ⟨o, ho⟩ hn
        rcases (held_iff hb').1 (hall i o ho) with h1 | ⟨j, h1⟩
        · exact ⟨i, by rw [collect_roots] at h1; exact h1, .inl rfl⟩
        · have hown := up (owns_iff.2 h1)
          have hsj : ¬ Stuck h j := fun ⟨c, hc, hf⟩ => hst ⟨c, hc, from_trans hf (.inr (.one hown))⟩
          have hlt : h.rank j < h.rank i := by
            classical
            refine countP_lt_of _ (fun k _ hk => ?_) ⟨j, List.mem_range.2 ?_, ?_, ?_⟩
            · exact decide_eq_true (path_trans (of_decide_eq_true hk) (.one hown))
            · obtain ⟨oj, hoj, _⟩ := hown; exact hb j oj hoj
            · exact decide_eq_true (.one hown)
            · exact decide_eq_false fun hc => hsj ⟨j, hc, .inl rfl⟩
          obtain ⟨oj, hoj, _⟩ := h1
          obtain ⟨r, hr, hf⟩ := ih _ (hn ▸ hlt) j hsj ⟨oj, hoj⟩ rfl
          exact ⟨r, hr, from_trans hf (.inr (.one hown))⟩
    exact key _ i hst ⟨o, ho⟩ rfl
  · intro hx
    have hlive : ∀ i, ((∃ r ∈ h.roots, From h r i) ∨ Stuck h i) → h.Live i := by
      rintro i (⟨r, h1, rfl | h2⟩ | ⟨c, hc, rfl | h2⟩)
      · exact hr r h1
      · exact path_live he h2
      · exact path_live he hc
      · exact path_live he h2
    obtain ⟨o, ho⟩ := hlive i hx
    refine ⟨o, collectN_closed (S := fun i => (∃ r ∈ h.roots, From h r i) ∨ Stuck h i) hb ?_ i o hx ho hlive⟩
    rintro i (⟨r, h1, rfl | h2⟩ | ⟨c, hc, hf⟩)
    · exact .inl h1
    · obtain ⟨b, hb, ho⟩ := path_last h2
      exact .inr ⟨b, .inl ⟨r, h1, hb⟩, owns_iff.1 ho⟩
    · have : OwnsPath h c i := by
        rcases hf with rfl | hf
        · exact hc
        · exact hf
      obtain ⟨b, hb, ho⟩ := path_last this
      exact .inr ⟨b, .inr ⟨c, hc, hb⟩, owns_iff.1 ho⟩

theorem dropVm_roots (h : Heap) (kept : List Nat) : (h.dropVm kept).roots = kept := by
  simp only [roots, dropVm, List.append_nil]
  rw [List.flatMap_eq_nil_iff.2 (fun _ _ => rfl), List.append_nil]

end Heap
end Jnivm
