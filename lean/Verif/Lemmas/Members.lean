import Verif.Model.Members
import Verif.Spec.Hierarchy
import Verif.Lemmas.Declare
/-! Lemmas about depth-first lookup and about how each operation changes the tables. -/
namespace Jnivm
open Spec

section Dfs
variable {α : Type} {bases : Nat → Option (List (Option Nat))} {own : Nat → Option α}

theorem Super.trans {a b c : Nat} (h : Super bases a b) (h2 : Super bases b c) : Super bases a c := by
  induction h with
  | refl => exact h2
  | step hd _ ih => exact .step hd (ih h2)

theorem firstAnswer_some {f : Nat → Res (Option α)} {x : α} : ∀ {bs : List (Option Nat)},
    firstAnswer f bs = .ok (some x) → ∃ b, some b ∈ bs ∧ f b = .ok (some x)
  | [], h => by simp [firstAnswer] at h
  | none :: bs, h => by
    obtain ⟨b, hb, e⟩ := firstAnswer_some (bs := bs) (by simpa [firstAnswer] using h)
    exact ⟨b, by simp [hb], e⟩
  | some b :: bs, h => by
    unfold firstAnswer at h
    obtain ⟨r, h1, h2⟩ := Res.bind_eq_ok.1 h
    cases r with
    | some y => simp at h2; subst h2; exact ⟨b, by simp, h1⟩
    | none =>
      obtain ⟨b', hb, e⟩ := firstAnswer_some (bs := bs) h2
      exact ⟨b', by simp [hb], e⟩

theorem firstAnswer_none {f : Nat → Res (Option α)} : ∀ {bs : List (Option Nat)},
    firstAnswer f bs = .ok none → ∀ b, some b ∈ bs → f b = .ok none
  | [], _ => by simp
  | none :: bs, h => by
    intro b hb
    exact firstAnswer_none (bs := bs) (by simpa [firstAnswer] using h) b (by simpa using hb)
  | some b :: bs, h => by
    intro b' hb
    unfold firstAnswer at h
    obtain ⟨r, h1, h2⟩ := Res.bind_eq_ok.1 h
    cases r with
    | some y => simp at h2
    | none =>
      simp only [List.mem_cons, Option.some.injEq] at hb
      rcases hb with rfl | hb
      · exact h1
      · exact firstAnswer_none (bs := bs) h2 b' hb

theorem dfs_some {n c : Nat} {x : α} (h : dfs bases own n c = .ok (some x)) :
    ∃ d, Super bases c d ∧ own d = some x := by
  induction n generalizing c with
  | zero => simp [dfs] at h
  | succ n ih =>
    unfold dfs at h
    split at h
    · rename_i y hy; simp at h; subst h; exact ⟨c, .refl c, hy⟩
    · split at h
      · simp at h
      · rename_i bs hbs
        obtain ⟨b, hb, e⟩ := firstAnswer_some h
        obtain ⟨d, hd, hx⟩ := ih e
        exact ⟨d, .step ⟨bs, hbs, hb⟩ hd, hx⟩

theorem dfs_none {n c : Nat} (h : dfs bases own n c = .ok none) :
    ∀ d, Super bases c d → own d = none := by
  induction n generalizing c with
  | zero => simp [dfs] at h
  | succ n ih =>
    intro d hd
    unfold dfs at h
    split at h
    · simp at h
    · rename_i hown
      cases hd with
      | refl => exact hown
      | step hdir hsup =>
        obtain ⟨bs, hbs, hb⟩ := hdir
        rw [hbs] at h
        exact ih (firstAnswer_none h _ hb) d hsup

theorem dfs_own {n c : Nat} {x : α} (h : own c = some x) : dfs bases own (n + 1) c = .ok (some x) := by
  unfold dfs; rw [h]

theorem searchOrder_dfs {cs : List (Option Nat)} {l : List Nat} (h : SearchOrder bases cs l) :
    ∀ {n : Nat}, l.length ≤ n → firstAnswer (dfs bases own n) cs = .ok (l.findSome? own) := by
  induction h with
  | nil => intro n _; rfl
  | skip _ ih => intro n hn; unfold firstAnswer; exact ih hn
  | @visit c cs up l hup hl ihup ihl =>
    intro n hn
    simp only [List.length_cons, List.length_append] at hn
    obtain ⟨m, rfl⟩ : ∃ m, n = m + 1 := ⟨n - 1, by omega⟩
    have h1 : dfs bases own (m + 1) c = .ok ((c :: up).findSome? own) := by
      unfold dfs
      rw [List.findSome?_cons]
      cases own c with
      | some x => rfl
      | none =>
        have := ihup (n := m) (by omega)
        cases hb : bases c with
        | none => rw [hb] at this; exact this
        | some bs => rw [hb] at this; exact this
    unfold firstAnswer
    rw [h1, ← List.cons_append, List.findSome?_append]
    cases (c :: up).findSome? own with
    | some x => rfl
    | none => exact ihl (by omega)

theorem searchOrder_mem {cs : List (Option Nat)} {l : List Nat} (h : SearchOrder bases cs l) :
    ∀ d, d ∈ l ↔ ∃ c, some c ∈ cs ∧ Super bases c d := by
  induction h with
  | nil => simp
  | skip _ ih => intro d; rw [ih]; simp
  | @visit c cs up l hup hl ihup ihl =>
    intro d
    simp only [List.mem_cons, List.mem_append, ihup, ihl, Option.some.injEq]
    constructor
    · rintro (rfl | ⟨b, hb, hs⟩ | ⟨b, hb, hs⟩)
      · exact ⟨_, .inl rfl, .refl _⟩
      · refine ⟨c, .inl rfl, .step ?_ hs⟩
        cases hbc : bases c with
        | none => rw [hbc] at hb; simp at hb
        | some bs => rw [hbc] at hb; exact ⟨bs, hbc, hb⟩
      · exact ⟨b, .inr hb, hs⟩
    · rintro ⟨b, rfl | hb, hs⟩
      · cases hs with
        | refl => exact .inl rfl
        | step hd hs =>
          obtain ⟨bs, hbs, hb⟩ := hd
          exact .inr (.inl ⟨_, by rw [hbs]; exact hb, hs⟩)
      · exact .inr (.inr ⟨b, hb, hs⟩)

theorem acyclic_searchOrder (h : Acyclic bases) (c : Nat) : ∃ l, SearchOrder bases [some c] l := by
  obtain ⟨rank, hr⟩ := h
  induction hn : rank c using Nat.strongRecOn generalizing c with
  | ind n ih =>
    subst hn
    have key : ∀ cs : List (Option Nat), (∀ d, some d ∈ cs → rank d < rank c) →
        ∃ l, SearchOrder bases cs l := by
      intro cs
      induction cs with
      | nil => intro _; exact ⟨[], .nil⟩
      | cons o cs ihc =>
        intro hc
        obtain ⟨l, hl⟩ := ihc fun d hd => hc d (by simp [hd])
        cases o with
        | none => exact ⟨l, .skip hl⟩
        | some d =>
          obtain ⟨l1, h1⟩ := ih (rank d) (hc d (by simp)) d rfl
          cases h1 with
          | visit hup _ => exact ⟨_, .visit hup hl⟩
    have : ∃ up, SearchOrder bases ((bases c).getD []) up := by
      apply key
      intro d hd
      cases hb : bases c with
      | none => rw [hb] at hd; simp at hd
      | some bs => rw [hb] at hd; exact hr c d ⟨bs, hb, hd⟩
    obtain ⟨up, hup⟩ := this
    exact ⟨_, .visit hup .nil⟩

theorem dfs_searchOrder {c n : Nat} {l : List Nat} (h : SearchOrder bases [some c] l)
    (hn : l.length ≤ n) : dfs bases own n c = .ok (l.findSome? own) := by
  have := searchOrder_dfs (own := own) h hn
  unfold firstAnswer at this
  cases hd : dfs bases own n c with
  | ok r =>
    rw [hd] at this
    cases r with
    | some x => exact this
    | none => exact this
  | throws e => rw [hd] at this; cases this
  | ub u => rw [hd] at this; cases this
  | diverges => rw [hd] at this; cases this

/-- The answer depends only on the classes above `c`. -/
theorem dfs_congr {own' : Nat → Option α} {n c : Nat} (h : ∀ d, Super bases c d → own' d = own d) :
    dfs bases own' n c = dfs bases own n c := by
  induction n generalizing c with
  | zero => rfl
  | succ n ih =>
    unfold dfs
    rw [h c (.refl c)]
    cases own c with
    | some x => rfl
    | none =>
      cases hb : bases c with
      | none => rfl
      | some bs =>
        have key : ∀ cs : List (Option Nat), (∀ d, some d ∈ cs → some d ∈ bs) →
            firstAnswer (dfs bases own' n) cs = firstAnswer (dfs bases own n) cs := by
          intro cs
          induction cs with
          | nil => intro _; rfl
          | cons o cs ihc =>
            intro hc
            have := ihc fun d hd => hc d (by simp [hd])
            cases o with
            | none => simpa [firstAnswer] using this
            | some d =>
              simp only [firstAnswer, this, ih fun e he => h e (.step ⟨bs, hb, hc d (by simp)⟩ he)]
        exact key bs fun _ h => h
end Dfs

/-! ### Tables without handlers -/

/-- A method record without its handler. -/
def MethodRec.core (m : MethodRec) : MethodRec := { m with handle := none }

/-- The method table of a class without handlers. -/
def World.cores (w : World) (c : Nat) : List MethodRec := (w.mem c).methods.map MethodRec.core

theorem find_core {k : MethodKey} (l : List MethodRec) :
    ((l.map MethodRec.core).find? k.hits).map (·.id) = (l.find? k.hits).map (·.id) := by
  induction l with
  | nil => rfl
  | cons m l ih =>
    simp only [List.map_cons, List.find?_cons]
    have : k.hits m.core = k.hits m := rfl
    rw [this]
    cases k.hits m with
    | true => rfl
    | false => exact ih

theorem ownMethod_cores (w : World) (k : MethodKey) (c : Nat) :
    w.ownMethod k c = ((w.cores c).find? k.hits).map (·.id) := (find_core _).symm

def FieldRec.core (f : FieldRec) : FieldRec := { f with getter := none, setter := none }

def World.fcores (w : World) (c : Nat) : List FieldRec := (w.mem c).fields.map FieldRec.core

theorem ownField_cores (w : World) (k : FieldKey) (c : Nat) :
    w.ownField k c = ((w.fcores c).find? k.hits).map (·.id) := by
  unfold World.ownField World.fcores
  induction (w.mem c).fields with
  | nil => rfl
  | cons m l ih =>
    simp only [List.map_cons, List.find?_cons]
    have : k.hits m.core = k.hits m := rfl
    rw [this]
    cases k.hits m with
    | true => rfl
    | false => exact ih

theorem map_updateFirst {α β : Type} (p : α → Bool) (f : α → α) (g : α → β) (h : ∀ a, g (f a) = g a)
    (l : List α) : (updateFirst p f l).map g = l.map g := by
  induction l with
  | nil => rfl
  | cons a l ih =>
    unfold updateFirst
    split
    · simp [h]
    · simp [ih]

@[simp] theorem setMem_mem (w : World) (c d : Nat) (m : Members) :
    (w.setMem c m).mem d = if d = c then m else w.mem d := rfl
@[simp] theorem setMem_reg (w : World) (c : Nat) (m : Members) : (w.setMem c m).reg = w.reg := rfl
@[simp] theorem setMem_types (w : World) (c : Nat) (m : Members) : (w.setMem c m).types = w.types := rfl
@[simp] theorem setMem_next (w : World) (c : Nat) (m : Members) : (w.setMem c m).next = w.next := rfl
@[simp] theorem setMem_loose (w : World) (c : Nat) (m : Members) : (w.setMem c m).loose = w.loose := rfl

theorem bases_congr {w w' : World} (h : ∀ d, (w'.mem d).bases = (w.mem d).bases)
    (ht : w'.types = w.types) : w'.bases = w.bases := by
  funext c; unfold World.bases; rw [h, ht]

end Jnivm
