import Verif.Lemmas.LockCalls
/-! Searches for members that end with a member. -/
namespace Jnivm
open Spec

/-- The class itself or a base class of it has the member. -/
inductive Tour.Finds (tour : Tour) : Nat → List Nat → Nat → Prop where
  | here {d : Nat} {path : List Nat} {c : Nat} : (tour path c).found = true → Finds tour (d + 1) path c
  | base {d : Nat} {path : List Nat} {c i b : Nat} {bs : List (Option Nat)} :
      (tour path c).bases = some bs → bs[i]? = some (some b) → Finds tour d (i :: path) b →
      Finds tour (d + 1) path c

theorem overBases_true {f : Nat → Nat → List Act × Bool} {bs : List (Option Nat)} {j i b : Nat}
    (hb : bs[i]? = some (some b)) (hf : (f (j + i) b).2 = true) : (overBases f j bs).2 = true := by
  induction bs generalizing i j with
  | nil => cases hb
  | cons x bs ih =>
    cases i with
    | zero =>
      cases hb
      unfold overBases
      rw [if_pos (show (f j b).2 = true from hf)]
    | succ i =>
      have := ih (j := j + 1) (i := i) hb (by rw [show j + 1 + i = j + (i + 1) by omega]; exact hf)
      cases x with
      | none => exact this
      | some x =>
        unfold overBases
        split
        · rfl
        · exact this

theorem overBases_unwritten {P : Act → Prop} {f : Nat → Nat → List Act × Bool} {bs : List (Option Nat)}
    (hf : ∀ i b, ∀ a ∈ (f i b).1, P a) (j : Nat) : ∀ a ∈ (overBases f j bs).1, P a := by
  induction bs generalizing j with
  | nil => exact fun a ha => nomatch ha
  | cons x bs ih =>
    cases x with
    | none => exact ih _
    | some x =>
      unfold overBases
      split
      · exact hf _ _
      · exact fun a ha => (List.mem_append.1 ha).elim (hf _ _ a) (ih _ a)

/-- No write to the members of a class. -/
def Unwritten (a : Act) : Prop := ∀ x, a ≠ .write (.methods x) ∧ a ≠ .write (.fields x)

theorem unwritten_readBases {c : Nat} {v : Visit} : ∀ a ∈ readBases c v, Unwritten a := by
  intro a ha x
  unfold readBases access at ha
  split at ha
  · split at ha <;> simp at ha <;> rcases ha with rfl | rfl <;> simp
  · simp at ha; subst ha; simp

theorem methodSearch_unwritten {tour : Tour} (d : Nat) (path : List Nat) (c : Nat) :
    ∀ a ∈ (methodSearch tour d path c).1, Unwritten a := by
  induction d generalizing path c with
  | zero => exact fun a ha => nomatch ha
  | succ d ih =>
    have hg : ∀ a ∈ guarded (.cls c) [.read (.methods c)], Unwritten a := by
      intro a ha x
      simp [guarded] at ha
      rcases ha with rfl | rfl | rfl <;> simp
    unfold methodSearch
    split
    · exact hg
    · split
      · exact fun a ha => (List.mem_append.1 ha).elim (hg a) (unwritten_readBases a)
      · exact fun a ha => (List.mem_append.1 ha).elim
          (fun h => (List.mem_append.1 h).elim (hg a) (unwritten_readBases a))
          (overBases_unwritten (fun i b => ih _ _) 0 a)

theorem fieldSearch_unwritten {tour : Tour} {create : List Act} (d : Nat) (path : List Nat) (c : Nat)
    (h : (fieldSearch tour create d path c).2 = true ∨ create = []) :
    ∀ a ∈ (fieldSearch tour create d path c).1, Unwritten a := by
  induction d generalizing path c create with
  | zero => exact fun a ha => nomatch ha
  | succ d ih =>
    have hg : ∀ body : List Act, (∀ a ∈ body, Unwritten a) → ∀ a ∈ guarded (.cls c) body, Unwritten a := by
      intro body hb a ha
      simp [guarded] at ha
      rcases ha with rfl | ha | rfl
      · intro x; simp
      · exact hb a ha
      · intro x; simp
    have hr : Unwritten (.read (.fields c)) := fun x => by simp
    unfold fieldSearch at h ⊢
    split
    · exact hg _ fun a ha => by rw [List.mem_singleton.1 ha]; exact hr
    · next hf =>
      split
      · refine hg _ fun a ha => ?_
        rcases List.mem_cons.1 ha with rfl | ha
        · exact hr
        · exact unwritten_readBases a ha
      · next ht =>
        rw [if_neg hf, if_neg ht] at h
        refine hg _ fun a ha => ?_
        rcases List.mem_cons.1 ha with rfl | ha
        · exact hr
        · rcases List.mem_append.1 ha with ha | ha
          · exact unwritten_readBases a ha
          · rcases List.mem_append.1 ha with ha | ha
            · exact overBases_unwritten (fun i b => ih _ _ (.inr rfl)) 0 a ha
            · rcases h with h | h
              · rw [if_pos h] at ha; cases ha
              · rw [h] at ha; split at ha <;> cases ha

theorem methodSearch_finds {tour : Tour} {d : Nat} {path : List Nat} {c : Nat}
    (h : tour.Finds d path c) : (methodSearch tour d path c).2 = true := by
  induction h with
  | here hf => unfold methodSearch; rw [if_pos hf]
  | base hb hi _ ih =>
    unfold methodSearch
    split
    · rfl
    · split
      · rfl
      · rw [hb]
        exact overBases_true hi (by rw [Nat.zero_add]; exact ih)

theorem fieldSearch_finds {tour : Tour} {d : Nat} {path : List Nat} {c : Nat}
    (h : tour.Finds d path c) : ∀ create, (fieldSearch tour create d path c).2 = true := by
  induction h with
  | here hf => intro create; unfold fieldSearch; rw [if_pos hf]
  | base hb hi _ ih =>
    intro create
    unfold fieldSearch
    split
    · rfl
    · split
      · rfl
      · rw [hb]
        exact overBases_true hi (by rw [Nat.zero_add]; exact ih [])

end Jnivm
