import Verif.Model.Registry
import Verif.Spec.Names
import Verif.Lemmas.Sig
/-! Lemmas about the class registry. -/
namespace Jnivm
open Spec

/-! ### Cutting and joining names -/

theorem cutAt_none {ch : Char} {s : Str} (h : (cutAt ch s).2 = none) :
    (cutAt ch s).1 = s ∧ ch ∉ s := by
  induction s with
  | nil => simp [cutAt]
  | cons c s ih =>
    unfold cutAt at h ⊢
    split at h
    · simp at h
    · rename_i hc
      have := ih h
      rw [if_neg hc]
      refine ⟨by simp [this.1], ?_⟩
      simp only [List.mem_cons, not_or]
      exact ⟨fun h => hc h.symm, this.2⟩

theorem cutAt_some {ch : Char} {s t : Str} (h : (cutAt ch s).2 = some t) :
    s = (cutAt ch s).1 ++ ch :: t ∧ ch ∉ (cutAt ch s).1 := by
  induction s with
  | nil => simp [cutAt] at h
  | cons c s ih =>
    unfold cutAt at h ⊢
    split at h
    · rename_i hc
      rw [if_pos hc]
      simp at h
      simp [h, hc]
    · rename_i hc
      have := ih h
      rw [if_neg hc]
      refine ⟨by simpa using this.1, ?_⟩
      simp only [List.mem_cons, not_or]
      exact ⟨fun h => hc h.symm, this.2⟩

theorem cutAt_not_mem {ch : Char} {s : Str} : ch ∉ (cutAt ch s).1 := by
  cases h : (cutAt ch s).2 with
  | none => rw [(cutAt_none h).1]; exact (cutAt_none h).2
  | some t => exact (cutAt_some h).2

theorem cutAt_append {ch : Char} {a t : Str} (h : ch ∉ a) : cutAt ch (a ++ ch :: t) = (a, some t) := by
  induction a with
  | nil => simp [cutAt]
  | cons c a ih =>
    simp only [List.mem_cons, not_or] at h
    simp [cutAt, Ne.symm h.1, ih h.2]

theorem cutAt_whole {ch : Char} {a : Str} (h : ch ∉ a) : cutAt ch a = (a, none) := by
  induction a with
  | nil => simp [cutAt]
  | cons c a ih =>
    simp only [List.mem_cons, not_or] at h
    simp [cutAt, Ne.symm h.1, ih h.2]

/-- Package path and last segment. -/
def nsParts (s : Str) : List Str × Str :=
  match _h : (cutAt '/' s).2 with
  | none => ([], s)
  | some t => ((cutAt '/' s).1 :: (nsParts t).1, (nsParts t).2)
termination_by s.length
decreasing_by all_goals exact cutAt_length _h

/-- Class path of a last segment. -/
def clsParts (s : Str) : List Str :=
  match _h : (cutAt '$' s).2 with
  | none => [s]
  | some t => (cutAt '$' s).1 :: clsParts t
termination_by s.length
decreasing_by all_goals exact cutAt_length _h

def joinNs (ps : List Str) : Str := ps.flatMap (· ++ ['/'])

def joinCls : List Str → Str
  | [] => []
  | [c] => c
  | c :: cs => c ++ '$' :: joinCls cs

theorem joinCls_snoc (cs : List Str) (h : cs ≠ []) (s : Str) :
    joinCls (cs ++ [s]) = joinCls cs ++ '$' :: s := by
  induction cs with
  | nil => exact absurd rfl h
  | cons c cs ih =>
    cases cs with
    | nil => simp [joinCls]
    | cons d ds =>
      have := ih (by simp)
      simp only [List.cons_append] at this ⊢
      rw [joinCls, this]
      · have e : joinCls (c :: d :: ds) = c ++ '$' :: joinCls (d :: ds) := by
          rw [joinCls]; simp
        rw [e]
        simp
      · simp

theorem nsParts_cut {s t : Str} (h : (cutAt '/' s).2 = some t) :
    nsParts s = ((cutAt '/' s).1 :: (nsParts t).1, (nsParts t).2) := by
  rw [nsParts]
  split
  · rename_i h'; rw [h] at h'; cases h'
  · rename_i t' h'; rw [h] at h'; cases h'; rfl

theorem nsParts_whole {s : Str} (h : (cutAt '/' s).2 = none) : nsParts s = ([], s) := by
  rw [nsParts]
  split
  · rfl
  · rename_i t' h'; rw [h] at h'; cases h'

theorem clsParts_cut {s t : Str} (h : (cutAt '$' s).2 = some t) :
    clsParts s = (cutAt '$' s).1 :: clsParts t := by
  rw [clsParts]
  split
  · rename_i h'; rw [h] at h'; cases h'
  · rename_i t' h'; rw [h] at h'; cases h'; rfl

theorem clsParts_whole {s : Str} (h : (cutAt '$' s).2 = none) : clsParts s = [s] := by
  rw [clsParts]
  split
  · rfl
  · rename_i t' h'; rw [h] at h'; cases h'

theorem joinNs_nsParts (s : Str) : joinNs (nsParts s).1 ++ (nsParts s).2 = s := by
  fun_induction nsParts s
  · simp [joinNs]
  · rename_i s t h ih
    have := (cutAt_some h).1
    have e : joinNs ((cutAt '/' s).1 :: (nsParts t).1) ++ (nsParts t).2
        = (cutAt '/' s).1 ++ '/' :: (joinNs (nsParts t).1 ++ (nsParts t).2) := by simp [joinNs]
    rw [e, ih, ← this]

theorem clsParts_ne_nil (s : Str) : clsParts s ≠ [] := by
  rw [clsParts]; split <;> simp

theorem joinCls_clsParts (s : Str) : joinCls (clsParts s) = s := by
  fun_induction clsParts s
  · simp [joinCls]
  · rename_i s t h ih
    have := (cutAt_some h).1
    conv => rhs; rw [this]
    cases hc : clsParts t with
    | nil => exact absurd hc (clsParts_ne_nil t)
    | cons d ds =>
      rw [joinCls, ← hc, ih]
      simp

theorem nsParts_no_slash (s : Str) : (∀ p ∈ (nsParts s).1, '/' ∉ p) ∧ '/' ∉ (nsParts s).2 := by
  fun_induction nsParts s
  · rename_i h
    exact ⟨by simp, (cutAt_none h).2⟩
  · rename_i s t h ih
    refine ⟨?_, ih.2⟩
    intro p hp
    simp only [List.mem_cons] at hp
    rcases hp with rfl | hp
    · exact cutAt_not_mem
    · exact ih.1 p hp

theorem clsParts_no_dollar (s : Str) : ∀ p ∈ clsParts s, '$' ∉ p := by
  fun_induction clsParts s
  · rename_i h
    simpa using (cutAt_none h).2
  · rename_i s t h ih
    intro p hp
    simp only [List.mem_cons] at hp
    rcases hp with rfl | hp
    · exact cutAt_not_mem
    · exact ih p hp

/-- Package path and class path of a name. -/
def parts (s : Str) : List Str × List Str := ((nsParts s).1, clsParts (nsParts s).2)

/-- The name with these parts. -/
def joinName (p : List Str × List Str) : Str := joinNs p.1 ++ joinCls p.2

theorem joinName_parts (s : Str) : joinName (parts s) = s := by
  simp [joinName, parts, joinCls_clsParts, joinNs_nsParts]

theorem parts_inj {a b : Str} (h : parts a = parts b) : a = b := by
  rw [← joinName_parts a, h, joinName_parts]

/-- Paths that come from names. -/
def GoodParts (p : List Str × List Str) : Prop :=
  (∀ s ∈ p.1, '/' ∉ s) ∧ (∀ s ∈ p.2, '/' ∉ s ∧ '$' ∉ s) ∧ p.2 ≠ []

theorem mem_joinCls_of_mem {cs : List Str} {c : Str} (hc : c ∈ cs) : ∀ x ∈ c, x ∈ joinCls cs := by
  induction cs with
  | nil => simp at hc
  | cons d ds ih =>
    intro x hx
    cases ds with
    | nil => simp at hc; subst hc; simpa [joinCls] using hx
    | cons e es =>
      rw [joinCls]
      · simp only [List.mem_cons] at hc
        simp only [List.mem_append, List.mem_cons]
        rcases hc with rfl | hc
        · exact .inl hx
        · exact .inr (.inr (ih (by simpa using hc) x hx))
      · simp

theorem parts_good (s : Str) : GoodParts (parts s) := by
  refine ⟨(nsParts_no_slash s).1, ?_, clsParts_ne_nil _⟩
  intro p hp
  refine ⟨?_, clsParts_no_dollar _ p hp⟩
  intro hs
  have := mem_joinCls_of_mem hp _ hs
  unfold parts at this
  rw [joinCls_clsParts] at this
  exact (nsParts_no_slash s).2 this

theorem slash_not_mem_joinCls {cs : List Str} (h : ∀ s ∈ cs, '/' ∉ s) : '/' ∉ joinCls cs := by
  induction cs with
  | nil => simp [joinCls]
  | cons d ds ih =>
    cases ds with
    | nil => simpa [joinCls] using h
    | cons e es =>
      rw [joinCls]
      · simp only [List.mem_append, List.mem_cons, not_or]
        exact ⟨h d (by simp), by decide, ih (fun s hs => h s (by simp_all))⟩
      · simp

theorem clsParts_joinCls {cs : List Str} (h : ∀ s ∈ cs, '$' ∉ s) (hne : cs ≠ []) :
    clsParts (joinCls cs) = cs := by
  induction cs with
  | nil => exact absurd rfl hne
  | cons d ds ih =>
    cases ds with
    | nil =>
      rw [joinCls, clsParts_whole]
      rw [cutAt_whole (h d (by simp))]
    | cons e es =>
      rw [joinCls]
      · have hc := cutAt_append (t := joinCls (e :: es)) (h d (by simp))
        rw [clsParts_cut (t := joinCls (e :: es)) (by rw [hc]), hc]
        simp [ih (fun s hs => h s (by simp_all))]
      · simp

theorem nsParts_join {ps : List Str} {s : Str} (h : ∀ p ∈ ps, '/' ∉ p) (hs : '/' ∉ s) :
    nsParts (joinNs ps ++ s) = (ps, s) := by
  induction ps with
  | nil =>
    simp only [joinNs, List.flatMap_nil, List.nil_append]
    rw [nsParts_whole]
    rw [cutAt_whole hs]
  | cons p ps ih =>
    have e : joinNs (p :: ps) ++ s = p ++ '/' :: (joinNs ps ++ s) := by simp [joinNs]
    have hc := cutAt_append (t := joinNs ps ++ s) (h p (by simp))
    rw [e, nsParts_cut (t := joinNs ps ++ s) (by rw [hc]), hc, ih (fun p hp => h p (by simp [hp]))]

theorem parts_join {p : List Str × List Str} (h : GoodParts p) : parts (joinName p) = p := by
  unfold parts joinName
  rw [nsParts_join h.1 (slash_not_mem_joinCls fun s hs => (h.2.1 s hs).1)]
  rw [clsParts_joinCls (fun s hs => (h.2.1 s hs).2) h.2.2]

/-! ### Lookup by parts -/

/-- Namespace reached from the root along a path. -/
def Registry.nsAt (r : Registry) (ps : List Str) : Option Nat := ps.foldlM r.nsChild 0

/-- Class reached along a package path and a class path. -/
def Registry.clsAt (r : Registry) (ps : List Str) : List Str → Option Nat
  | [] => none
  | c :: cs => (r.nsAt ps).bind fun n => (r.nsClass n c).bind fun k => cs.foldlM r.clsClass k

theorem nsAt_nil (r : Registry) : r.nsAt [] = some 0 := rfl

theorem nsAt_snoc (r : Registry) (ps : List Str) (s : Str) :
    r.nsAt (ps ++ [s]) = (r.nsAt ps).bind fun n => r.nsChild n s := by
  unfold Registry.nsAt
  rw [List.foldlM_append]
  simp [List.foldlM]

theorem clsAt_one (r : Registry) (ps : List Str) (c : Str) :
    r.clsAt ps [c] = (r.nsAt ps).bind fun n => r.nsClass n c := by
  unfold Registry.clsAt
  simp [List.foldlM]

theorem clsAt_snoc (r : Registry) (ps cs : List Str) (h : cs ≠ []) (s : Str) :
    r.clsAt ps (cs ++ [s]) = (r.clsAt ps cs).bind fun n => r.clsClass n s := by
  cases cs with
  | nil => exact absurd rfl h
  | cons c cs =>
    simp only [List.cons_append, Registry.clsAt, List.foldlM_append]
    simp only [List.foldlM, Option.bind_assoc]
    congr; funext n; congr; funext k
    simp

/-! ### Invariant -/

/-- Every namespace and class has one position in the tree. -/
structure TreeInv (r : Registry) (π : Nat → List Str) (σ : Nat → List Str × List Str) : Prop where
  root : 0 < r.ns.length
  rootPath : π 0 = []
  nsKids : ∀ n nd, r.ns[n]? = some nd → ∀ k ∈ nd.namespaces,
    ∃ kd, r.ns[k]? = some kd ∧ π k = π n ++ [kd.name]
  nsClasses : ∀ n nd, r.ns[n]? = some nd → ∀ c ∈ nd.classes,
    ∃ cd, r.cls[c]? = some cd ∧ σ c = (π n, [cd.name]) ∧ cd.nativeprefix = joinName (σ c)
  clsKids : ∀ n nd, r.cls[n]? = some nd → ∀ c ∈ nd.classes,
    ∃ cd, r.cls[c]? = some cd ∧ (σ n).2 ≠ [] ∧ σ c = ((σ n).1, (σ n).2 ++ [cd.name]) ∧
      cd.nativeprefix = joinName (σ c)

theorem find_spec {α : Type} {l : List Nat} {g : Nat → Option α} {f : α → Str} {s : Str} {k : Nat}
    (h : l.find? (fun k => (g k).map f == some s) = some k) :
    k ∈ l ∧ ∃ x, g k = some x ∧ f x = s := by
  refine ⟨List.mem_of_find?_eq_some h, ?_⟩
  have := List.find?_some h
  simp only [beq_iff_eq, Option.map_eq_some_iff] at this
  exact this

variable {r : Registry} {π : Nat → List Str} {σ : Nat → List Str × List Str}

theorem nsChild_spec (inv : TreeInv r π σ) {n k : Nat} {s : Str} (h : r.nsChild n s = some k) :
    k < r.ns.length ∧ π k = π n ++ [s] := by
  unfold Registry.nsChild at h
  split at h
  · cases h
  · rename_i nd hnd
    have ⟨hk, x, hx, hs⟩ := find_spec h
    have ⟨kd, hkd, hp⟩ := inv.nsKids n nd hnd k hk
    rw [hkd] at hx; cases hx
    exact ⟨(List.getElem?_eq_some_iff.1 hkd).1, by rw [hp, hs]⟩

theorem nsClass_spec (inv : TreeInv r π σ) {n k : Nat} {s : Str} (h : r.nsClass n s = some k) :
    ∃ cd, r.cls[k]? = some cd ∧ σ k = (π n, [s]) ∧ cd.name = s ∧ cd.nativeprefix = joinName (σ k) := by
  unfold Registry.nsClass at h
  split at h
  · cases h
  · rename_i nd hnd
    have ⟨hk, x, hx, hs⟩ := find_spec h
    have ⟨kd, hkd, hp, hq⟩ := inv.nsClasses n nd hnd k hk
    rw [hkd] at hx; cases hx
    exact ⟨x, hkd, by rw [hp, hs], hs, hq⟩

theorem clsClass_spec (inv : TreeInv r π σ) {n k : Nat} {s : Str} (h : r.clsClass n s = some k) :
    ∃ cd, r.cls[k]? = some cd ∧ σ k = ((σ n).1, (σ n).2 ++ [s]) ∧ cd.name = s ∧
      cd.nativeprefix = joinName (σ k) := by
  unfold Registry.clsClass at h
  split at h
  · cases h
  · rename_i nd hnd
    have ⟨hk, x, hx, hs⟩ := find_spec h
    have ⟨kd, hkd, _, hp, hq⟩ := inv.clsKids n nd hnd k hk
    rw [hkd] at hx; cases hx
    exact ⟨x, hkd, by rw [hp, hs], hs, hq⟩

theorem snoc_cases {α : Type} (l : List α) : l = [] ∨ ∃ i x, l = i ++ [x] := by
  rcases List.eq_nil_or_concat l with h | ⟨i, x, h⟩
  · exact .inl h
  · exact .inr ⟨i, x, by simpa using h⟩

theorem snoc_induction {α : Type} {P : List α → Prop} (h0 : P []) (h1 : ∀ l x, P l → P (l ++ [x])) :
    ∀ l, P l := by
  intro l
  rw [← List.reverse_reverse l]
  induction l.reverse with
  | nil => simpa using h0
  | cons a t ih => simpa using h1 _ a ih

theorem nsAt_spec (inv : TreeInv r π σ) : ∀ (ps : List Str) {n : Nat}, r.nsAt ps = some n →
    n < r.ns.length ∧ π n = ps := by
  intro ps
  induction ps using snoc_induction with
  | h0 => intro n h; cases h; exact ⟨inv.root, inv.rootPath⟩
  | h1 ps s ih =>
    intro n h
    rw [nsAt_snoc] at h
    rw [Option.bind_eq_some_iff] at h
    obtain ⟨m, hm, hc⟩ := h
    have := nsChild_spec inv hc
    rw [(ih hm).2] at this
    exact this

theorem clsAt_spec (inv : TreeInv r π σ) (ps : List Str) : ∀ (cs : List Str) {k : Nat},
    r.clsAt ps cs = some k →
    ∃ cd, r.cls[k]? = some cd ∧ σ k = (ps, cs) ∧ cs.getLast? = some cd.name ∧
      cd.nativeprefix = joinName (ps, cs) := by
  intro cs
  induction cs using snoc_induction with
  | h0 => intro k h; cases h
  | h1 cs s ih =>
    intro k h
    by_cases hcs : cs = []
    · subst hcs
      rw [List.nil_append, clsAt_one] at h
      rw [Option.bind_eq_some_iff] at h
      obtain ⟨m, hm, hc⟩ := h
      obtain ⟨cd, h1, h2, h3, h4⟩ := nsClass_spec inv hc
      have := nsAt_spec inv _ hm
      rw [this.2] at h2
      rw [h2] at h4
      exact ⟨cd, h1, h2, by simp [h3], h4⟩
    · rw [clsAt_snoc _ _ _ hcs] at h
      rw [Option.bind_eq_some_iff] at h
      obtain ⟨m, hm, hc⟩ := h
      obtain ⟨cd, h1, h2, h3, h4⟩ := clsClass_spec inv hc
      obtain ⟨_, _, h5, _⟩ := ih hm
      rw [h5] at h2
      rw [h2] at h4
      exact ⟨cd, h1, h2, by simp [h3], h4⟩

/-! ### The three mutations -/

theorem getElem?_modify_append {α : Type} (l : List α) (i : Nat) (f : α → α) (x : α) (j : Nat) :
    (l.modify i f ++ [x])[j]? =
      if j < l.length then (if i = j then (l[j]?).map f else l[j]?)
      else if j = l.length then some x else none := by
  by_cases h : j < l.length
  · rw [List.getElem?_append_left (by simpa using h), if_pos h, List.getElem?_modify]
    split <;> simp
  · rw [if_neg h, List.getElem?_append_right (by simpa using Nat.le_of_not_lt h)]
    simp only [List.length_modify]
    by_cases h2 : j = l.length
    · simp [h2]
    · rw [if_neg h2]
      have : j - l.length ≠ 0 := by omega
      cases hk : j - l.length with
      | zero => exact absurd hk this
      | succ k => simp

theorem find_congr {l : List Nat} {p q : Nat → Bool} (h : ∀ k ∈ l, p k = q k) :
    l.find? p = l.find? q := by
  induction l with
  | nil => rfl
  | cons a t ih =>
    simp only [List.find?_cons]
    rw [h a (by simp), ih (fun k hk => h k (by simp [hk]))]

theorem addNs_get (X : Nat) (s : Str) (j : Nat) :
    (r.addNs X s).ns[j]? = if j < r.ns.length then
      (if X = j then (r.ns[j]?).map (fun n => { n with namespaces := n.namespaces ++ [r.ns.length] })
       else r.ns[j]?)
      else if j = r.ns.length then some ⟨s, [], []⟩ else none :=
  getElem?_modify_append ..

theorem addNs_child (inv : TreeInv r π σ) {X : Nat} {s : Str} (hX : X < r.ns.length) (n : Nat) (t : Str) :
    (r.addNs X s).nsChild n t =
      if n = X then (r.nsChild X t).or (if s = t then some r.ns.length else none)
      else r.nsChild n t := by
  have hname : ∀ k : Nat, k < r.ns.length → ((r.addNs X s).ns[k]?).map (·.name) = (r.ns[k]?).map (·.name) := by
    intro k hk
    rw [addNs_get, if_pos hk]
    split
    · cases r.ns[k]? <;> simp
    · rfl
  have hlist : ∀ nd : NsNode, r.ns[n]? = some nd →
      nd.namespaces.find? (fun k => ((r.addNs X s).ns[k]?).map (·.name) == some t)
        = nd.namespaces.find? (fun k => (r.ns[k]?).map (·.name) == some t) := by
    intro nd hnd
    apply find_congr
    intro k hk
    obtain ⟨kd, hkd, _⟩ := inv.nsKids n nd hnd k hk
    rw [hname k (List.getElem?_eq_some_iff.1 hkd).1]
  by_cases hn : n < r.ns.length
  · obtain ⟨nd, hnd⟩ : ∃ nd, r.ns[n]? = some nd := ⟨_, List.getElem?_eq_getElem hn⟩
    by_cases hXn : n = X
    · subst hXn
      rw [if_pos rfl]
      unfold Registry.nsChild
      rw [addNs_get, if_pos hn, if_pos rfl, hnd]
      simp only [Option.map_some]
      rw [List.find?_append, hlist nd hnd]
      congr 1
      simp only [List.find?_cons, List.find?_nil]
      rw [addNs_get, if_neg (by omega), if_pos rfl]
      by_cases hst : s = t
      · simp [hst]
      · simp only [Option.map_some, if_neg hst]
        rw [show (some s == some t) = false by simp [hst]]
    · rw [if_neg hXn]
      unfold Registry.nsChild
      rw [addNs_get, if_pos hn, if_neg (fun h => hXn h.symm), hnd]
      exact hlist nd hnd
  · rw [if_neg (by omega)]
    have h1 : r.nsChild n t = none := by
      unfold Registry.nsChild
      rw [List.getElem?_eq_none (by omega)]
    rw [h1]
    unfold Registry.nsChild
    rw [addNs_get, if_neg hn]
    split <;> rename_i h
    · rfl
    · split at h
      · cases h; rfl
      · cases h

theorem addNs_nsClass {X : Nat} {s : Str} (n : Nat) (t : Str) :
    (r.addNs X s).nsClass n t = r.nsClass n t := by
  unfold Registry.nsClass
  rw [addNs_get]
  by_cases hn : n < r.ns.length
  · rw [if_pos hn]
    by_cases hX : X = n
    · rw [if_pos hX]
      cases h : r.ns[n]? <;> rfl
    · rw [if_neg hX]; rfl
  · rw [if_neg hn, List.getElem?_eq_none (l := r.ns) (by omega)]
    split <;> rename_i h
    · rfl
    · split at h
      · cases h; rfl
      · cases h

theorem addNs_clsClass {X : Nat} {s : Str} : (r.addNs X s).clsClass = r.clsClass := rfl

theorem addNs_nsAt (inv : TreeInv r π σ) {qs : List Str} {X : Nat} {s : Str}
    (hX : r.nsAt qs = some X) (hs : r.nsChild X s = none) (ps : List Str) :
    (r.addNs X s).nsAt ps = (r.nsAt ps).or (if ps = qs ++ [s] then some r.ns.length else none) := by
  have hXs := nsAt_spec inv _ hX
  induction ps using snoc_induction with
  | h0 => simp [nsAt_nil]
  | h1 ps t ih =>
    rw [nsAt_snoc, nsAt_snoc, ih]
    cases hps : r.nsAt ps with
    | none =>
      have hne : ps ++ [t] ≠ qs ++ [s] := by
        intro h
        have := (List.append_inj' h rfl).1
        subst this
        rw [hX] at hps; cases hps
      rw [if_neg hne]
      split
      · simp only [Option.none_or, Option.bind_some, Option.bind_none]
        rw [addNs_child inv hXs.1, if_neg (by omega)]
        unfold Registry.nsChild
        rw [List.getElem?_eq_none (Nat.le_refl _)]
      · rfl
    | some n =>
      have hn := nsAt_spec inv _ hps
      simp only [Option.some_or, Option.bind_some]
      rw [addNs_child inv hXs.1]
      by_cases hnX : n = X
      · subst hnX
        have : ps = qs := by rw [← hn.2, hXs.2]
        subst this
        rw [if_pos rfl]
        congr 1
        by_cases hst : s = t
        · simp [hst]
        · simp [hst, Ne.symm hst]
      · rw [if_neg hnX]
        have hne : ps ++ [t] ≠ qs ++ [s] := by
          intro h
          have := (List.append_inj' h rfl).1
          subst this
          rw [hX] at hps; cases hps; exact hnX rfl
        rw [if_neg hne, Option.or_none]

theorem addNs_clsAt (inv : TreeInv r π σ) {qs : List Str} {X : Nat} {s : Str}
    (hX : r.nsAt qs = some X) (hs : r.nsChild X s = none) (ps cs : List Str) :
    (r.addNs X s).clsAt ps cs = r.clsAt ps cs := by
  cases cs with
  | nil => rfl
  | cons c cs =>
    unfold Registry.clsAt
    rw [addNs_nsAt inv hX hs, addNs_clsClass]
    cases hps : r.nsAt ps with
    | some n => simp [addNs_nsClass]
    | none =>
      simp only [Option.none_or, Option.bind_none]
      split
      · simp only [Option.bind_some, addNs_nsClass]
        unfold Registry.nsClass
        rw [List.getElem?_eq_none (Nat.le_refl _)]
        rfl
      · rfl

theorem addNs_inv (inv : TreeInv r π σ) {qs : List Str} {X : Nat} {s : Str}
    (hX : r.nsAt qs = some X) :
    TreeInv (r.addNs X s) (fun i => if i = r.ns.length then qs ++ [s] else π i) σ := by
  have hXs := nsAt_spec inv _ hX
  have hroot := inv.root
  -- a node of the new registry
  have hget : ∀ n nd, (r.addNs X s).ns[n]? = some nd →
      (n = r.ns.length ∧ nd = ⟨s, [], []⟩) ∨
      (n < r.ns.length ∧ ∃ od, r.ns[n]? = some od ∧ nd.name = od.name ∧ nd.classes = od.classes ∧
        ∀ k ∈ nd.namespaces, k ∈ od.namespaces ∨ (n = X ∧ k = r.ns.length)) := by
    intro n nd h
    rw [addNs_get] at h
    split at h
    · rename_i hn
      right
      refine ⟨hn, ?_⟩
      split at h
      · rename_i hXn
        rw [Option.map_eq_some_iff] at h
        obtain ⟨od, hod, rfl⟩ := h
        refine ⟨od, hod, rfl, rfl, ?_⟩
        intro k hk
        simp only [List.mem_append, List.mem_singleton] at hk
        rcases hk with hk | hk
        · exact .inl hk
        · exact .inr ⟨hXn.symm, hk⟩
      · exact ⟨nd, h, rfl, rfl, fun k hk => .inl hk⟩
    · split at h
      · rename_i h1; left; cases h; exact ⟨h1, rfl⟩
      · cases h
  have hkeep : ∀ (n : Nat) (od : NsNode), r.ns[n]? = some od → ∃ nd : NsNode, (r.addNs X s).ns[n]? = some nd ∧ nd.name = od.name := by
    intro n od h
    have hn := (List.getElem?_eq_some_iff.1 h).1
    rw [addNs_get, if_pos hn]
    split
    · rw [h]; exact ⟨_, rfl, rfl⟩
    · exact ⟨od, h, rfl⟩
  constructor
  · simp [Registry.addNs]
  · rw [if_neg (by omega), inv.rootPath]
  · intro n nd h k hk
    rcases hget n nd h with ⟨_, rfl⟩ | ⟨hn, od, hod, h1, h2, h3⟩
    · simp at hk
    · rcases h3 k hk with hk | ⟨rfl, rfl⟩
      · obtain ⟨kd, hkd, hp⟩ := inv.nsKids n od hod k hk
        obtain ⟨kd', hkd', hname⟩ := hkeep k kd hkd
        have hkl := (List.getElem?_eq_some_iff.1 hkd).1
        refine ⟨kd', hkd', ?_⟩
        rw [if_neg (by omega), if_neg (by omega), hp, hname]
      · refine ⟨⟨s, [], []⟩, ?_, ?_⟩
        · rw [addNs_get, if_neg (by omega), if_pos rfl]
        · rw [if_pos rfl, if_neg (by omega), hXs.2]
  · intro n nd h c hc
    rcases hget n nd h with ⟨_, rfl⟩ | ⟨hn, od, hod, h1, h2, h3⟩
    · simp at hc
    · rw [h2] at hc
      obtain ⟨cd, hcd, hp⟩ := inv.nsClasses n od hod c hc
      refine ⟨cd, hcd, ?_⟩
      rw [if_neg (by omega)]
      exact hp
  · exact inv.clsKids

/-! New class in a namespace. -/

theorem getElem?_snoc {α : Type} (l : List α) (x : α) (j : Nat) :
    (l ++ [x])[j]? = if j < l.length then l[j]? else if j = l.length then some x else none := by
  by_cases h : j < l.length
  · rw [List.getElem?_append_left h, if_pos h]
  · rw [if_neg h, List.getElem?_append_right (Nat.le_of_not_lt h)]
    by_cases h2 : j = l.length
    · simp [h2]
    · rw [if_neg h2]
      cases hk : j - l.length with
      | zero => omega
      | succ k => simp

theorem addNsClass_getNs (X : Nat) (s p : Str) (j : Nat) :
    (r.addNsClass X s p).ns[j]? =
      if X = j then (r.ns[j]?).map (fun n => { n with classes := n.classes ++ [r.cls.length] })
      else r.ns[j]? := by
  unfold Registry.addNsClass
  rw [List.getElem?_modify]
  split
  · rfl
  · simp

theorem addNsClass_getCls (X : Nat) (s p : Str) (j : Nat) :
    (r.addNsClass X s p).cls[j]? =
      if j < r.cls.length then r.cls[j]? else if j = r.cls.length then some ⟨s, p, []⟩ else none :=
  getElem?_snoc ..

theorem addNsClass_nsChild {X : Nat} {s p : Str} (n : Nat) (t : Str) :
    (r.addNsClass X s p).nsChild n t = r.nsChild n t := by
  have hname : ∀ k : Nat, ((r.addNsClass X s p).ns[k]?).map (·.name) = (r.ns[k]?).map (·.name) := by
    intro k
    rw [addNsClass_getNs]
    split
    · cases r.ns[k]? <;> rfl
    · rfl
  unfold Registry.nsChild
  simp only [hname]
  rw [addNsClass_getNs]
  by_cases h : X = n
  · rw [if_pos h]
    cases r.ns[n]? <;> rfl
  · rw [if_neg h]

theorem addNsClass_nsAt {X : Nat} {s p : Str} (ps : List Str) :
    (r.addNsClass X s p).nsAt ps = r.nsAt ps := by
  unfold Registry.nsAt
  have : (r.addNsClass X s p).nsChild = r.nsChild := by
    funext n t; exact addNsClass_nsChild n t
  rw [this]

theorem addNsClass_clsClass (inv : TreeInv r π σ) {X : Nat} {s p : Str} (n : Nat) (t : Str) :
    (r.addNsClass X s p).clsClass n t = r.clsClass n t := by
  unfold Registry.clsClass
  rw [addNsClass_getCls]
  by_cases hn : n < r.cls.length
  · rw [if_pos hn]
    cases h : r.cls[n]? with
    | none => rfl
    | some nd =>
      simp only
      apply find_congr
      intro k hk
      obtain ⟨kd, hkd, _⟩ := inv.clsKids n nd h k hk
      have hkl := (List.getElem?_eq_some_iff.1 hkd).1
      rw [addNsClass_getCls, if_pos hkl]
  · rw [if_neg hn, List.getElem?_eq_none (l := r.cls) (by omega)]
    by_cases h2 : n = r.cls.length
    · rw [if_pos h2]; rfl
    · rw [if_neg h2]

theorem addNsClass_nsClass (inv : TreeInv r π σ) {X : Nat} {s p : Str} (hX : X < r.ns.length)
    (n : Nat) (t : Str) :
    (r.addNsClass X s p).nsClass n t =
      if n = X then (r.nsClass X t).or (if s = t then some r.cls.length else none)
      else r.nsClass n t := by
  have hlist : ∀ nd : NsNode, r.ns[n]? = some nd →
      nd.classes.find? (fun k => ((r.addNsClass X s p).cls[k]?).map (·.name) == some t)
        = nd.classes.find? (fun k => (r.cls[k]?).map (·.name) == some t) := by
    intro nd hnd
    apply find_congr
    intro k hk
    obtain ⟨kd, hkd, _⟩ := inv.nsClasses n nd hnd k hk
    have hkl := (List.getElem?_eq_some_iff.1 hkd).1
    rw [addNsClass_getCls, if_pos hkl]
  by_cases hXn : n = X
  · subst hXn
    rw [if_pos rfl]
    unfold Registry.nsClass
    rw [addNsClass_getNs, if_pos rfl, List.getElem?_eq_getElem hX]
    simp only [Option.map_some]
    rw [List.find?_append, hlist _ (List.getElem?_eq_getElem hX)]
    congr 1
    simp only [List.find?_cons, List.find?_nil]
    rw [addNsClass_getCls, if_neg (by omega), if_pos rfl]
    by_cases hst : s = t
    · simp [hst]
    · simp only [Option.map_some, if_neg hst]
      rw [show (some s == some t) = false by simp [hst]]
  · rw [if_neg hXn]
    unfold Registry.nsClass
    rw [addNsClass_getNs, if_neg (fun h => hXn h.symm)]
    cases h : r.ns[n]? with
    | none => rfl
    | some nd => exact hlist nd h

theorem clsClass_fresh (t : Str) : r.clsClass r.cls.length t = none := by
  unfold Registry.clsClass
  rw [List.getElem?_eq_none (Nat.le_refl _)]

theorem addNsClass_clsAt (inv : TreeInv r π σ) {qs : List Str} {X : Nat} {s p : Str}
    (hX : r.nsAt qs = some X) (ps cs : List Str) :
    (r.addNsClass X s p).clsAt ps cs =
      (r.clsAt ps cs).or (if ps = qs ∧ cs = [s] then some r.cls.length else none) := by
  have hXs := nsAt_spec inv _ hX
  induction cs using snoc_induction with
  | h0 => simp [Registry.clsAt]
  | h1 cs t ih =>
    by_cases hcs : cs = []
    · subst hcs
      rw [List.nil_append, clsAt_one, clsAt_one, addNsClass_nsAt]
      cases hps : r.nsAt ps with
      | none =>
        have : ps ≠ qs := by rintro rfl; rw [hX] at hps; cases hps
        simp [this]
      | some n =>
        simp only [Option.bind_some]
        rw [addNsClass_nsClass inv hXs.1]
        by_cases hn : n = X
        · subst hn
          have : ps = qs := by rw [← (nsAt_spec inv _ hps).2, hXs.2]
          rw [if_pos rfl]
          by_cases hst : s = t
          · simp [this, hst]
          · simp [hst, Ne.symm hst]
        · have : ps ≠ qs := by
            rintro rfl; rw [hX] at hps; cases hps; exact hn rfl
          simp [hn, this]
    · rw [clsAt_snoc _ _ _ hcs, clsAt_snoc _ _ _ hcs, ih]
      have h1 : ¬ (ps = qs ∧ cs ++ [t] = [s]) := by
        rintro ⟨_, h⟩
        have := congrArg List.length h
        simp at this
        exact hcs this
      rw [if_neg h1, Option.or_none]
      cases hd : r.clsAt ps cs with
      | some n => simp [addNsClass_clsClass inv]
      | none =>
        simp only [Option.none_or, Option.bind_none]
        split
        · simp only [Option.bind_some]
          rw [addNsClass_clsClass inv, clsClass_fresh]
        · rfl

theorem addNsClass_inv (inv : TreeInv r π σ) {qs : List Str} {X : Nat} {s p : Str}
    (hX : r.nsAt qs = some X) (hp : p = joinName (qs, [s])) :
    TreeInv (r.addNsClass X s p) π (fun i => if i = r.cls.length then (qs, [s]) else σ i) := by
  have hXs := nsAt_spec inv _ hX
  have hkeep : ∀ (c : Nat) (cd : ClassNode), r.cls[c]? = some cd → (r.addNsClass X s p).cls[c]? = some cd := by
    intro c cd h
    rw [addNsClass_getCls, if_pos (List.getElem?_eq_some_iff.1 h).1, h]
  have hnew : (r.addNsClass X s p).cls[r.cls.length]? = some ⟨s, p, []⟩ := by
    rw [addNsClass_getCls, if_neg (by omega), if_pos rfl]
  constructor
  · simpa [Registry.addNsClass] using inv.root
  · exact inv.rootPath
  · intro n nd h k hk
    have hname : ∀ (k : Nat) (kd : NsNode), r.ns[k]? = some kd → ∃ kd' : NsNode, (r.addNsClass X s p).ns[k]? = some kd' ∧ kd'.name = kd.name := by
      intro k kd hkd
      rw [addNsClass_getNs]
      split
      · rw [hkd]; exact ⟨_, rfl, rfl⟩
      · exact ⟨kd, hkd, rfl⟩
    obtain ⟨od, hod, hk'⟩ : ∃ od, r.ns[n]? = some od ∧ k ∈ od.namespaces := by
      rw [addNsClass_getNs] at h
      split at h
      · rw [Option.map_eq_some_iff] at h
        obtain ⟨od, hod, rfl⟩ := h
        exact ⟨od, hod, hk⟩
      · exact ⟨nd, h, hk⟩
    obtain ⟨kd, hkd, hpk⟩ := inv.nsKids n od hod k hk'
    obtain ⟨kd', h1, h2⟩ := hname k kd hkd
    exact ⟨kd', h1, by rw [hpk, h2]⟩
  · intro n nd h c hc
    have : (∃ od, r.ns[n]? = some od ∧ c ∈ od.classes) ∨ (n = X ∧ c = r.cls.length) := by
      rw [addNsClass_getNs] at h
      split at h
      · rename_i hXn
        rw [Option.map_eq_some_iff] at h
        obtain ⟨od, hod, rfl⟩ := h
        simp only [List.mem_append, List.mem_singleton] at hc
        rcases hc with hc | hc
        · exact .inl ⟨od, hod, hc⟩
        · exact .inr ⟨hXn.symm, hc⟩
      · exact .inl ⟨nd, h, hc⟩
    rcases this with ⟨od, hod, hc⟩ | ⟨rfl, rfl⟩
    · obtain ⟨cd, hcd, h2⟩ := inv.nsClasses n od hod c hc
      refine ⟨cd, hkeep c cd hcd, ?_⟩
      have := (List.getElem?_eq_some_iff.1 hcd).1
      simp only [if_neg (show ¬ c = r.cls.length by omega)]
      exact h2
    · refine ⟨_, hnew, ?_⟩
      simp only [if_pos]
      exact ⟨by rw [hXs.2], hp⟩
  · intro n nd h c hc
    rw [addNsClass_getCls] at h
    split at h
    · rename_i hn
      obtain ⟨cd, hcd, h2⟩ := inv.clsKids n nd h c hc
      refine ⟨cd, hkeep c cd hcd, ?_⟩
      have := (List.getElem?_eq_some_iff.1 hcd).1
      simp only [if_neg (show ¬ c = r.cls.length by omega), if_neg (show ¬ n = r.cls.length by omega)]
      exact h2
    · split at h
      · cases h; simp at hc
      · cases h

/-! New class nested in a class. -/

theorem addClsClass_getCls (C : Nat) (s p : Str) (j : Nat) :
    (r.addClsClass C s p).cls[j]? = if j < r.cls.length then
      (if C = j then (r.cls[j]?).map (fun n => { n with classes := n.classes ++ [r.cls.length] })
       else r.cls[j]?)
      else if j = r.cls.length then some ⟨s, p, []⟩ else none :=
  getElem?_modify_append ..

theorem addClsClass_name (C : Nat) (s p : Str) {k : Nat} (hk : k < r.cls.length) :
    ((r.addClsClass C s p).cls[k]?).map (·.name) = (r.cls[k]?).map (·.name) := by
  rw [addClsClass_getCls, if_pos hk]
  split
  · cases r.cls[k]? <;> rfl
  · rfl

theorem addClsClass_nsAt {C : Nat} {s p : Str} (ps : List Str) :
    (r.addClsClass C s p).nsAt ps = r.nsAt ps := rfl

theorem addClsClass_nsClass (inv : TreeInv r π σ) {C : Nat} {s p : Str} (n : Nat) (t : Str) :
    (r.addClsClass C s p).nsClass n t = r.nsClass n t := by
  unfold Registry.nsClass
  rw [show (r.addClsClass C s p).ns = r.ns from rfl]
  cases h : r.ns[n]? with
  | none => rfl
  | some nd =>
    simp only
    apply find_congr
    intro k hk
    obtain ⟨kd, hkd, _⟩ := inv.nsClasses n nd h k hk
    rw [addClsClass_name _ _ _ (List.getElem?_eq_some_iff.1 hkd).1]

theorem addClsClass_clsClass (inv : TreeInv r π σ) {C : Nat} {s p : Str} (hC : C < r.cls.length)
    (n : Nat) (t : Str) :
    (r.addClsClass C s p).clsClass n t =
      if n = C then (r.clsClass C t).or (if s = t then some r.cls.length else none)
      else r.clsClass n t := by
  have hlist : ∀ nd : ClassNode, r.cls[n]? = some nd →
      nd.classes.find? (fun k => ((r.addClsClass C s p).cls[k]?).map (·.name) == some t)
        = nd.classes.find? (fun k => (r.cls[k]?).map (·.name) == some t) := by
    intro nd hnd
    apply find_congr
    intro k hk
    obtain ⟨kd, hkd, _⟩ := inv.clsKids n nd hnd k hk
    rw [addClsClass_name _ _ _ (List.getElem?_eq_some_iff.1 hkd).1]
  by_cases hn : n < r.cls.length
  · have hnd := List.getElem?_eq_getElem hn
    by_cases hCn : n = C
    · subst hCn
      rw [if_pos rfl]
      unfold Registry.clsClass
      rw [addClsClass_getCls, if_pos hn, if_pos rfl, hnd]
      simp only [Option.map_some]
      rw [List.find?_append, hlist _ hnd]
      congr 1
      simp only [List.find?_cons, List.find?_nil]
      rw [addClsClass_getCls, if_neg (by omega), if_pos rfl]
      by_cases hst : s = t
      · simp [hst]
      · simp only [Option.map_some, if_neg hst]
        rw [show (some s == some t) = false by simp [hst]]
    · rw [if_neg hCn]
      unfold Registry.clsClass
      rw [addClsClass_getCls, if_pos hn, if_neg (fun h => hCn h.symm), hnd]
      exact hlist _ hnd
  · rw [if_neg (by omega)]
    unfold Registry.clsClass
    rw [addClsClass_getCls, if_neg hn, List.getElem?_eq_none (l := r.cls) (by omega)]
    by_cases h2 : n = r.cls.length
    · rw [if_pos h2]; rfl
    · rw [if_neg h2]

theorem addClsClass_clsAt (inv : TreeInv r π σ) {qs ds : List Str} {C : Nat} {s p : Str}
    (hC : r.clsAt qs ds = some C) (ps cs : List Str) :
    (r.addClsClass C s p).clsAt ps cs =
      (r.clsAt ps cs).or (if ps = qs ∧ cs = ds ++ [s] then some r.cls.length else none) := by
  obtain ⟨cd, hcd, hσ, _⟩ := clsAt_spec inv _ _ hC
  have hClt := (List.getElem?_eq_some_iff.1 hcd).1
  have hds : ds ≠ [] := by rintro rfl; cases hC
  induction cs using snoc_induction with
  | h0 => simp [Registry.clsAt]
  | h1 cs t ih =>
    by_cases hcs : cs = []
    · subst hcs
      rw [List.nil_append, clsAt_one, clsAt_one, addClsClass_nsAt]
      have h1 : ¬ (ps = qs ∧ [t] = ds ++ [s]) := by
        rintro ⟨_, h⟩
        have := congrArg List.length h
        simp at this
        exact hds this
      rw [if_neg h1, Option.or_none]
      congr; funext n
      exact addClsClass_nsClass inv n t
    · rw [clsAt_snoc _ _ _ hcs, clsAt_snoc _ _ _ hcs, ih]
      cases hd : r.clsAt ps cs with
      | some n =>
        simp only [Option.some_or, Option.bind_some]
        rw [addClsClass_clsClass inv hClt]
        obtain ⟨_, _, hσn, _⟩ := clsAt_spec inv _ _ hd
        by_cases hn : n = C
        · subst hn
          rw [hσ] at hσn
          cases hσn
          rw [if_pos rfl]
          by_cases hst : s = t
          · simp [hst]
          · simp [hst, Ne.symm hst]
        · rw [if_neg hn]
          have h1 : ¬ (ps = qs ∧ cs ++ [t] = ds ++ [s]) := by
            rintro ⟨rfl, h⟩
            have := (List.append_inj' h rfl).1
            subst this
            rw [hC] at hd; cases hd; exact hn rfl
          rw [if_neg h1, Option.or_none]
      | none =>
        have h1 : ¬ (ps = qs ∧ cs ++ [t] = ds ++ [s]) := by
          rintro ⟨rfl, h⟩
          have := (List.append_inj' h rfl).1
          subst this
          rw [hC] at hd; cases hd
        rw [if_neg h1]
        simp only [Option.none_or, Option.bind_none]
        split
        · simp only [Option.bind_some]
          rw [addClsClass_clsClass inv hClt, if_neg (by omega), clsClass_fresh]
        · rfl

theorem addClsClass_inv (inv : TreeInv r π σ) {qs ds : List Str} {C : Nat} {s p : Str}
    (hC : r.clsAt qs ds = some C) (hp : p = joinName (qs, ds ++ [s])) :
    TreeInv (r.addClsClass C s p) π (fun i => if i = r.cls.length then (qs, ds ++ [s]) else σ i) := by
  obtain ⟨ccd, hccd, hσ, _⟩ := clsAt_spec inv _ _ hC
  have hClt := (List.getElem?_eq_some_iff.1 hccd).1
  have hds : ds ≠ [] := by rintro rfl; cases hC
  have hkeep : ∀ (c : Nat) (cd : ClassNode), r.cls[c]? = some cd → ∃ cd' : ClassNode, (r.addClsClass C s p).cls[c]? = some cd' ∧
      cd'.name = cd.name ∧ cd'.nativeprefix = cd.nativeprefix := by
    intro c cd h
    rw [addClsClass_getCls, if_pos (List.getElem?_eq_some_iff.1 h).1]
    split
    · rw [h]; exact ⟨_, rfl, rfl, rfl⟩
    · exact ⟨cd, h, rfl, rfl⟩
  have hnew : (r.addClsClass C s p).cls[r.cls.length]? = some ⟨s, p, []⟩ := by
    rw [addClsClass_getCls, if_neg (by omega), if_pos rfl]
  constructor
  · exact inv.root
  · exact inv.rootPath
  · exact inv.nsKids
  · intro n nd h c hc
    obtain ⟨cd, hcd, h2, h3⟩ := inv.nsClasses n nd h c hc
    obtain ⟨cd', h4, h5, h6⟩ := hkeep c cd hcd
    refine ⟨cd', h4, ?_⟩
    have := (List.getElem?_eq_some_iff.1 hcd).1
    simp only [if_neg (show ¬ c = r.cls.length by omega), h5, h6]
    exact ⟨h2, h3⟩
  · intro n nd h c hc
    have : n < r.cls.length ∧ ((∃ od, r.cls[n]? = some od ∧ c ∈ od.classes) ∨ (n = C ∧ c = r.cls.length)) := by
      rw [addClsClass_getCls] at h
      split at h
      · rename_i hn
        refine ⟨hn, ?_⟩
        split at h
        · rename_i hXn
          rw [Option.map_eq_some_iff] at h
          obtain ⟨od, hod, rfl⟩ := h
          simp only [List.mem_append, List.mem_singleton] at hc
          rcases hc with hc | hc
          · exact .inl ⟨od, hod, hc⟩
          · exact .inr ⟨hXn.symm, hc⟩
        · exact .inl ⟨nd, h, hc⟩
      · split at h
        · cases h; simp at hc
        · cases h
    obtain ⟨hn, ⟨od, hod, hc⟩ | ⟨rfl, rfl⟩⟩ := this
    · obtain ⟨cd, hcd, h2, h3, h3'⟩ := inv.clsKids n od hod c hc
      obtain ⟨cd', h4, h5, h6⟩ := hkeep c cd hcd
      refine ⟨cd', h4, ?_⟩
      have := (List.getElem?_eq_some_iff.1 hcd).1
      simp only [if_neg (show ¬ c = r.cls.length by omega), if_neg (show ¬ n = r.cls.length by omega), h5, h6]
      exact ⟨h2, h3, h3'⟩
    · refine ⟨_, hnew, ?_⟩
      simp only [if_pos, if_neg (show ¬ n = r.cls.length by omega), hσ]
      exact ⟨hds, trivial, hp⟩

/-! ### Invariant of the whole registry -/

/-! ### Siblings -/

/-- Children are listed once, are found by their name and have names as class names give them. -/
structure SibInv (r : Registry) : Prop where
  nsKids : ∀ n nd, r.ns[n]? = some nd → nd.namespaces.Nodup ∧ ∀ k ∈ nd.namespaces, ∀ kd,
    r.ns[k]? = some kd → r.nsChild n kd.name = some k ∧ '/' ∉ kd.name
  nsClasses : ∀ n nd, r.ns[n]? = some nd → nd.classes.Nodup ∧ ∀ c ∈ nd.classes, ∀ cd,
    r.cls[c]? = some cd → r.nsClass n cd.name = some c ∧ '/' ∉ cd.name ∧ '$' ∉ cd.name ∧
      cd.nativeprefix.head? ≠ some '['
  clsKids : ∀ n nd, r.cls[n]? = some nd → nd.classes.Nodup ∧ ∀ c ∈ nd.classes, ∀ cd,
    r.cls[c]? = some cd → r.clsClass n cd.name = some c ∧ '/' ∉ cd.name ∧ '$' ∉ cd.name ∧
      cd.nativeprefix.head? ≠ some '['
  rootName : ∀ nd, r.ns[0]? = some nd → nd.name = "jnivm".toList

theorem nodup_snoc {l : List Nat} {x : Nat} (h : l.Nodup) (hx : ∀ y ∈ l, y < x) : (l ++ [x]).Nodup := by
  rw [List.nodup_append]
  refine ⟨h, by simp, ?_⟩
  intro a ha b hb
  rw [List.mem_singleton] at hb
  have := hx a ha
  omega

theorem addNs_sib (inv : TreeInv r π σ) (sib : SibInv r) {X : Nat} {s : Str} (hX : X < r.ns.length)
    (hs : r.nsChild X s = none) (hg : '/' ∉ s) : SibInv (r.addNs X s) := by
  have old : ∀ {k : Nat}, k < r.ns.length → ∀ {kd}, (r.addNs X s).ns[k]? = some kd →
      ∃ kd0, r.ns[k]? = some kd0 ∧ kd.name = kd0.name ∧ kd.classes = kd0.classes ∧
        kd.namespaces = if X = k then kd0.namespaces ++ [r.ns.length] else kd0.namespaces := by
    intro k hk kd h
    rw [addNs_get, if_pos hk] at h
    split at h
    · rename_i hXk
      rw [Option.map_eq_some_iff] at h
      obtain ⟨kd0, h0, rfl⟩ := h
      exact ⟨kd0, h0, rfl, rfl, by rw [if_pos hXk]⟩
    · rename_i hXk
      exact ⟨kd, h, rfl, rfl, by rw [if_neg hXk]⟩
  have new : ∀ {n : Nat}, ¬ n < r.ns.length → ∀ {nd}, (r.addNs X s).ns[n]? = some nd →
      n = r.ns.length ∧ nd = ⟨s, [], []⟩ := by
    intro n hn nd h
    rw [addNs_get, if_neg hn] at h
    split at h
    · cases h; exact ⟨‹_›, rfl⟩
    · cases h
  have kid : ∀ n nd0, r.ns[n]? = some nd0 → ∀ k ∈ nd0.namespaces, ∀ kd, (r.addNs X s).ns[k]? = some kd →
      (r.addNs X s).nsChild n kd.name = some k ∧ '/' ∉ kd.name := by
    intro n nd0 h0 k hk kd hkd
    obtain ⟨kd', hkd', _⟩ := inv.nsKids n nd0 h0 k hk
    obtain ⟨kd0, e0, e1, _, _⟩ := old (List.getElem?_eq_some_iff.1 hkd').1 hkd
    obtain ⟨h1, h2⟩ := (sib.nsKids n nd0 h0).2 k hk kd0 e0
    rw [e1, addNs_child inv hX]
    refine ⟨?_, h2⟩
    split
    · rename_i hn; subst hn; rw [h1]; rfl
    · exact h1
  constructor
  · intro n nd h
    by_cases hn : n < r.ns.length
    · obtain ⟨nd0, h0, _, _, e⟩ := old hn h
      rw [e]
      by_cases hXn : X = n
      · subst hXn
        rw [if_pos rfl]
        refine ⟨nodup_snoc (sib.nsKids X nd0 h0).1 fun k hk => ?_, fun k hk kd hkd => ?_⟩
        · obtain ⟨kd, hkd, _⟩ := inv.nsKids X nd0 h0 k hk
          exact (List.getElem?_eq_some_iff.1 hkd).1
        · rcases List.mem_append.1 hk with hk | hk
          · exact kid X nd0 h0 k hk kd hkd
          · rw [List.mem_singleton] at hk
            subst hk
            obtain ⟨_, rfl⟩ := new (by omega) hkd
            refine ⟨?_, hg⟩
            rw [addNs_child inv hX, if_pos rfl, hs, if_pos rfl]; rfl
      · rw [if_neg hXn]
        exact ⟨(sib.nsKids n nd0 h0).1, kid n nd0 h0⟩
    · obtain ⟨_, rfl⟩ := new hn h
      exact ⟨by simp, by simp⟩
  · intro n nd h
    by_cases hn : n < r.ns.length
    · obtain ⟨nd0, h0, _, e, _⟩ := old hn h
      rw [e]
      refine ⟨(sib.nsClasses n nd0 h0).1, fun c hc cd hcd => ?_⟩
      rw [addNs_nsClass]
      exact (sib.nsClasses n nd0 h0).2 c hc cd hcd
    · obtain ⟨_, rfl⟩ := new hn h
      exact ⟨by simp, by simp⟩
  · exact sib.clsKids
  · intro nd h
    obtain ⟨nd0, h0, e, _⟩ := old inv.root h
    rw [e]
    exact sib.rootName nd0 h0

theorem addNsClass_sib (inv : TreeInv r π σ) (sib : SibInv r) {X : Nat} {s p : Str} (hX : X < r.ns.length)
    (hs : r.nsClass X s = none) (hg : '/' ∉ s ∧ '$' ∉ s) (hb : p.head? ≠ some '[') :
    SibInv (r.addNsClass X s p) := by
  have oldNs : ∀ {k : Nat} {kd}, (r.addNsClass X s p).ns[k]? = some kd →
      ∃ kd0, r.ns[k]? = some kd0 ∧ kd.name = kd0.name ∧ kd.namespaces = kd0.namespaces ∧
        kd.classes = if X = k then kd0.classes ++ [r.cls.length] else kd0.classes := by
    intro k kd h
    rw [addNsClass_getNs] at h
    split at h
    · rename_i hXk
      rw [Option.map_eq_some_iff] at h
      obtain ⟨kd0, h0, rfl⟩ := h
      exact ⟨kd0, h0, rfl, rfl, by rw [if_pos hXk]⟩
    · rename_i hXk
      exact ⟨kd, h, rfl, rfl, by rw [if_neg hXk]⟩
  have oldCls : ∀ {k : Nat}, k < r.cls.length → (r.addNsClass X s p).cls[k]? = r.cls[k]? := by
    intro k hk
    rw [addNsClass_getCls, if_pos hk]
  have newCls : ∀ {n : Nat}, ¬ n < r.cls.length → ∀ {nd}, (r.addNsClass X s p).cls[n]? = some nd →
      n = r.cls.length ∧ nd = ⟨s, p, []⟩ := by
    intro n hn nd h
    rw [addNsClass_getCls, if_neg hn] at h
    split at h
    · cases h; exact ⟨‹_›, rfl⟩
    · cases h
  have kid : ∀ n nd0, r.ns[n]? = some nd0 → ∀ c ∈ nd0.classes, ∀ cd, (r.addNsClass X s p).cls[c]? = some cd →
      (r.addNsClass X s p).nsClass n cd.name = some c ∧ '/' ∉ cd.name ∧ '$' ∉ cd.name ∧
        cd.nativeprefix.head? ≠ some '[' := by
    intro n nd0 h0 c hc cd hcd
    obtain ⟨cd', hcd', _⟩ := inv.nsClasses n nd0 h0 c hc
    rw [oldCls (List.getElem?_eq_some_iff.1 hcd').1] at hcd
    obtain ⟨h1, h2⟩ := (sib.nsClasses n nd0 h0).2 c hc cd hcd
    rw [addNsClass_nsClass inv hX]
    refine ⟨?_, h2⟩
    split
    · rename_i hn; subst hn; rw [h1]; rfl
    · exact h1
  constructor
  · intro n nd h
    obtain ⟨nd0, h0, _, e, _⟩ := oldNs h
    rw [e]
    refine ⟨(sib.nsKids n nd0 h0).1, fun k hk kd hkd => ?_⟩
    obtain ⟨kd0, hk0, e0, _⟩ := oldNs hkd
    rw [addNsClass_nsChild, e0]
    exact (sib.nsKids n nd0 h0).2 k hk kd0 hk0
  · intro n nd h
    obtain ⟨nd0, h0, _, _, e⟩ := oldNs h
    rw [e]
    by_cases hXn : X = n
    · subst hXn
      rw [if_pos rfl]
      refine ⟨nodup_snoc (sib.nsClasses X nd0 h0).1 fun k hk => ?_, fun k hk kd hkd => ?_⟩
      · obtain ⟨kd, hkd, _⟩ := inv.nsClasses X nd0 h0 k hk
        exact (List.getElem?_eq_some_iff.1 hkd).1
      · rcases List.mem_append.1 hk with hk | hk
        · exact kid X nd0 h0 k hk kd hkd
        · rw [List.mem_singleton] at hk
          subst hk
          obtain ⟨_, rfl⟩ := newCls (by omega) hkd
          refine ⟨?_, hg.1, hg.2, hb⟩
          rw [addNsClass_nsClass inv hX, if_pos rfl, hs, if_pos rfl]; rfl
    · rw [if_neg hXn]
      exact ⟨(sib.nsClasses n nd0 h0).1, kid n nd0 h0⟩
  · intro n nd h
    by_cases hn : n < r.cls.length
    · rw [oldCls hn] at h
      refine ⟨(sib.clsKids n nd h).1, fun c hc cd hcd => ?_⟩
      obtain ⟨cd', hcd', _⟩ := inv.clsKids n nd h c hc
      rw [oldCls (List.getElem?_eq_some_iff.1 hcd').1] at hcd
      rw [addNsClass_clsClass inv]
      exact (sib.clsKids n nd h).2 c hc cd hcd
    · obtain ⟨_, rfl⟩ := newCls hn h
      exact ⟨by simp, by simp⟩
  · intro nd h
    obtain ⟨nd0, h0, e, _⟩ := oldNs h
    rw [e]
    exact sib.rootName nd0 h0

theorem addClsClass_sib (inv : TreeInv r π σ) (sib : SibInv r) {C : Nat} {s p : Str} (hC : C < r.cls.length)
    (hs : r.clsClass C s = none) (hg : '/' ∉ s ∧ '$' ∉ s) (hb : p.head? ≠ some '[') :
    SibInv (r.addClsClass C s p) := by
  have old : ∀ {k : Nat}, k < r.cls.length → ∀ {kd}, (r.addClsClass C s p).cls[k]? = some kd →
      ∃ kd0, r.cls[k]? = some kd0 ∧ kd.name = kd0.name ∧ kd.nativeprefix = kd0.nativeprefix ∧
        kd.classes = if C = k then kd0.classes ++ [r.cls.length] else kd0.classes := by
    intro k hk kd h
    rw [addClsClass_getCls, if_pos hk] at h
    split at h
    · rename_i hXk
      rw [Option.map_eq_some_iff] at h
      obtain ⟨kd0, h0, rfl⟩ := h
      exact ⟨kd0, h0, rfl, rfl, by rw [if_pos hXk]⟩
    · rename_i hXk
      exact ⟨kd, h, rfl, rfl, by rw [if_neg hXk]⟩
  have new : ∀ {n : Nat}, ¬ n < r.cls.length → ∀ {nd}, (r.addClsClass C s p).cls[n]? = some nd →
      n = r.cls.length ∧ nd = ⟨s, p, []⟩ := by
    intro n hn nd h
    rw [addClsClass_getCls, if_neg hn] at h
    split at h
    · cases h; exact ⟨‹_›, rfl⟩
    · cases h
  have kid : ∀ n nd0, r.cls[n]? = some nd0 → ∀ k ∈ nd0.classes, ∀ kd, (r.addClsClass C s p).cls[k]? = some kd →
      (r.addClsClass C s p).clsClass n kd.name = some k ∧ '/' ∉ kd.name ∧ '$' ∉ kd.name ∧
        kd.nativeprefix.head? ≠ some '[' := by
    intro n nd0 h0 k hk kd hkd
    obtain ⟨kd', hkd', _⟩ := inv.clsKids n nd0 h0 k hk
    obtain ⟨kd0, e0, e1, e2, _⟩ := old (List.getElem?_eq_some_iff.1 hkd').1 hkd
    obtain ⟨h1, h2⟩ := (sib.clsKids n nd0 h0).2 k hk kd0 e0
    rw [e1, e2, addClsClass_clsClass inv hC]
    refine ⟨?_, h2⟩
    split
    · rename_i hn; subst hn; rw [h1]; rfl
    · exact h1
  constructor
  · exact sib.nsKids
  · intro n nd h
    refine ⟨(sib.nsClasses n nd h).1, fun c hc cd hcd => ?_⟩
    obtain ⟨cd', hcd', _⟩ := inv.nsClasses n nd h c hc
    obtain ⟨cd0, e0, e1, e2, _⟩ := old (List.getElem?_eq_some_iff.1 hcd').1 hcd
    rw [addClsClass_nsClass inv, e1, e2]
    exact (sib.nsClasses n nd h).2 c hc cd0 e0
  · intro n nd h
    by_cases hn : n < r.cls.length
    · obtain ⟨nd0, h0, _, _, e⟩ := old hn h
      rw [e]
      by_cases hXn : C = n
      · subst hXn
        rw [if_pos rfl]
        refine ⟨nodup_snoc (sib.clsKids C nd0 h0).1 fun k hk => ?_, fun k hk kd hkd => ?_⟩
        · obtain ⟨kd, hkd, _⟩ := inv.clsKids C nd0 h0 k hk
          exact (List.getElem?_eq_some_iff.1 hkd).1
        · rcases List.mem_append.1 hk with hk | hk
          · exact kid C nd0 h0 k hk kd hkd
          · rw [List.mem_singleton] at hk
            subst hk
            obtain ⟨_, rfl⟩ := new (by omega) hkd
            refine ⟨?_, hg.1, hg.2, hb⟩
            rw [addClsClass_clsClass inv hC, if_pos rfl, hs, if_pos rfl]; rfl
      · rw [if_neg hXn]
        exact ⟨(sib.clsKids n nd0 h0).1, kid n nd0 h0⟩
    · obtain ⟨_, rfl⟩ := new hn h
      exact ⟨by simp, by simp⟩
  · exact sib.rootName

/-- The tree is well formed and `VM::classes` agrees with it. -/
structure RegInv (r : Registry) : Prop where
  tree : ∃ π σ, TreeInv r π σ
  sib : SibInv r
  map : ∀ n : Str, n.head? ≠ some '[' → r.byName.lookup n = r.clsAt (parts n).1 (parts n).2
  arrays : ∀ (n : Str) (c : Nat), n.head? = some '[' → r.byName.lookup n = some c →
    ∃ cd : ClassNode, r.cls[c]? = some cd ∧ cd.nativeprefix = n ∧ cd.name = afterLastSlash n

theorem empty_inv : RegInv Registry.empty := by
  have hcls : ∀ ps cs, Registry.empty.clsAt ps cs = none := by
    intro ps cs
    cases cs with
    | nil => rfl
    | cons c cs =>
      unfold Registry.clsAt
      cases h : Registry.empty.nsAt ps with
      | none => rfl
      | some n =>
        have : Registry.empty.nsClass n c = none := by
          unfold Registry.nsClass Registry.empty
          cases n <;> rfl
        simp [this]
  refine ⟨⟨fun _ => [], fun _ => ([], []), ?_⟩, ?_, ?_, ?_⟩
  rotate_left
  · constructor
    · intro n nd h
      cases n <;> simp [Registry.empty] at h
      subst h; simp
    · intro n nd h
      cases n <;> simp [Registry.empty] at h
      subst h; simp
    · intro n nd h; simp [Registry.empty] at h
    · intro nd h
      simp [Registry.empty] at h
      subst h; rfl
  rotate_left
  rotate_left
  · constructor
    · simp [Registry.empty]
    · rfl
    · intro n nd h k hk
      cases n <;> simp [Registry.empty] at h
      subst h; simp at hk
    · intro n nd h k hk
      cases n <;> simp [Registry.empty] at h
      subst h; simp at hk
    · intro n nd h; simp [Registry.empty] at h
  · intro n _
    rw [hcls]; rfl
  · intro n c _ h
    simp [Registry.empty] at h

theorem lookup_cons_eq {k : Str} {v : Nat} {m : List (Str × Nat)} (n : Str) :
    ((k, v) :: m).lookup n = if n = k then some v else m.lookup n := by
  rw [List.lookup_cons]
  by_cases h : n = k
  · subst h; simp
  · have : (n == k) = false := by simpa using h
    rw [this, if_neg h]

theorem addNs_regInv (inv : RegInv r) {qs : List Str} {X : Nat} {s : Str}
    (hX : r.nsAt qs = some X) (hs : r.nsChild X s = none) (hg : '/' ∉ s) : RegInv (r.addNs X s) := by
  obtain ⟨π, σ, hT⟩ := inv.tree
  refine ⟨⟨_, _, addNs_inv hT hX⟩, addNs_sib hT inv.sib (nsAt_spec hT _ hX).1 hs hg, ?_, inv.arrays⟩
  intro n hn
  rw [addNs_clsAt hT hX hs]
  exact inv.map n hn

theorem parts_eq_iff {n : Str} {q : List Str × List Str} (h : GoodParts q) :
    (parts n).1 = q.1 ∧ (parts n).2 = q.2 ↔ n = joinName q := by
  constructor
  · rintro ⟨h1, h2⟩
    rw [← joinName_parts n]
    congr 1
    exact Prod.ext h1 h2
  · rintro rfl
    rw [parts_join h]; exact ⟨rfl, rfl⟩

theorem addNsClass_regInv (inv : RegInv r) {qs : List Str} {X : Nat} {s p : Str}
    (hX : r.nsAt qs = some X) (hs : r.nsClass X s = none) (hp : p = joinName (qs, [s]))
    (hg : GoodParts (qs, [s])) (hb : p.head? ≠ some '[') : RegInv (r.addNsClass X s p) := by
  obtain ⟨π, σ, hT⟩ := inv.tree
  refine ⟨⟨_, _, addNsClass_inv hT hX hp⟩,
    addNsClass_sib hT inv.sib (nsAt_spec hT _ hX).1 hs (hg.2.1 s (by simp)) hb, ?_, ?_⟩
  · intro n hn
    rw [addNsClass_clsAt hT hX]
    rw [show (r.addNsClass X s p).byName = (p, r.cls.length) :: r.byName from rfl, lookup_cons_eq]
    have := parts_eq_iff (n := n) hg
    simp only [← hp] at this
    simp only [this]
    by_cases h : n = p
    · have hnone : r.clsAt (parts n).1 (parts n).2 = none := by
        have h2 := this.2 h
        rw [h2.1, h2.2, clsAt_one, hX]
        exact hs
      rw [hnone, if_pos h, if_pos h]; rfl
    · rw [if_neg h, if_neg h, Option.or_none]
      exact inv.map n hn
  · intro n c hn hl
    rw [show (r.addNsClass X s p).byName = (p, r.cls.length) :: r.byName from rfl, lookup_cons_eq] at hl
    have : n ≠ p := by rintro rfl; exact hb hn
    rw [if_neg this] at hl
    obtain ⟨cd, hcd, h⟩ := inv.arrays n c hn hl
    refine ⟨cd, ?_, h⟩
    rw [addNsClass_getCls, if_pos (List.getElem?_eq_some_iff.1 hcd).1, hcd]

theorem addClsClass_regInv (inv : RegInv r) {qs ds : List Str} {C : Nat} {s p : Str}
    (hC : r.clsAt qs ds = some C) (hs : r.clsClass C s = none) (hp : p = joinName (qs, ds ++ [s]))
    (hg : GoodParts (qs, ds ++ [s])) (hb : p.head? ≠ some '[') : RegInv (r.addClsClass C s p) := by
  obtain ⟨π, σ, hT⟩ := inv.tree
  have hds : ds ≠ [] := by rintro rfl; cases hC
  obtain ⟨cd, hcd, _⟩ := clsAt_spec hT _ _ hC
  refine ⟨⟨_, _, addClsClass_inv hT hC hp⟩, addClsClass_sib hT inv.sib (List.getElem?_eq_some_iff.1 hcd).1 hs
    (hg.2.1 s (by simp)) hb, ?_, ?_⟩
  · intro n hn
    rw [addClsClass_clsAt hT hC]
    rw [show (r.addClsClass C s p).byName = (p, r.cls.length) :: r.byName from rfl, lookup_cons_eq]
    have := parts_eq_iff (n := n) hg
    simp only [← hp] at this
    simp only [this]
    by_cases h : n = p
    · have hnone : r.clsAt (parts n).1 (parts n).2 = none := by
        have h2 := this.2 h
        rw [h2.1, h2.2, clsAt_snoc _ _ _ hds, hC]
        exact hs
      rw [hnone, if_pos h, if_pos h]; rfl
    · rw [if_neg h, if_neg h, Option.or_none]
      exact inv.map n hn
  · intro n c hn hl
    rw [show (r.addClsClass C s p).byName = (p, r.cls.length) :: r.byName from rfl, lookup_cons_eq] at hl
    have : n ≠ p := by rintro rfl; exact hb hn
    rw [if_neg this] at hl
    obtain ⟨cd, hcd, h⟩ := inv.arrays n c hn hl
    have hlt := (List.getElem?_eq_some_iff.1 hcd).1
    by_cases hCc : C = c
    · refine ⟨{ cd with classes := cd.classes ++ [r.cls.length] }, ?_, h⟩
      rw [addClsClass_getCls, if_pos hlt, if_pos hCc, hcd]
      rfl
    · refine ⟨cd, ?_, h⟩
      rw [addClsClass_getCls, if_pos hlt, if_neg hCc, hcd]

/-! ### The loops -/

theorem nsLoop_find (r : Registry) (qs : List Str) (done rest : Str) : ∀ (cur : Nat),
    r.nsAt qs = some cur → done = joinNs qs →
    nsLoop true r cur done rest =
      (r, (r.nsAt (qs ++ (nsParts rest).1)).map fun n =>
        (n, joinNs (qs ++ (nsParts rest).1), (nsParts rest).2)) := by
  induction hl : rest.length using Nat.strongRecOn generalizing rest qs done with
  | ind len ih =>
    intro cur hcur hdone
    rw [nsLoop]
    split
    · rename_i h
      rw [nsParts_whole h]
      simp [hcur, hdone]
    · rename_i rest' h
      rw [nsParts_cut h]
      have hlt := cutAt_length h
      split
      · rename_i k hk
        have hq : r.nsAt (qs ++ [(cutAt '/' rest).1]) = some k := by rw [nsAt_snoc, hcur]; exact hk
        rw [ih rest'.length (by omega) (qs ++ [(cutAt '/' rest).1]) _ rest' rfl k hq
          (by rw [hdone]; simp [joinNs])]
        simp
      · rename_i hk
        have hq : r.nsAt (qs ++ [(cutAt '/' rest).1]) = none := by rw [nsAt_snoc, hcur]; exact hk
        have : r.nsAt (qs ++ (cutAt '/' rest).1 :: (nsParts rest').1) = none := by
          have e : qs ++ (cutAt '/' rest).1 :: (nsParts rest').1
              = (qs ++ [(cutAt '/' rest).1]) ++ (nsParts rest').1 := by simp
          unfold Registry.nsAt at hq ⊢
          rw [e, List.foldlM_append, hq]; rfl
        rw [this]; rfl

theorem nsLoop_create (qs : List Str) (done rest : Str) : ∀ (r : Registry) (cur : Nat),
    RegInv r → r.nsAt qs = some cur → done = joinNs qs →
    ∃ r' n, nsLoop false r cur done rest =
        (r', some (n, joinNs (qs ++ (nsParts rest).1), (nsParts rest).2)) ∧
      RegInv r' ∧ r'.nsAt (qs ++ (nsParts rest).1) = some n ∧
      (∀ ps cs, r'.clsAt ps cs = r.clsAt ps cs) ∧ r'.byName = r.byName ∧ r'.cls = r.cls := by
  induction hl : rest.length using Nat.strongRecOn generalizing rest qs done with
  | ind len ih =>
    intro r cur inv hcur hdone
    rw [nsLoop]
    split
    · rename_i h
      rw [nsParts_whole h]
      refine ⟨r, cur, ?_, inv, ?_, fun _ _ => rfl, rfl, rfl⟩
      · simp [hdone]
      · simpa using hcur
    · rename_i rest' h
      rw [nsParts_cut h]
      have hlt := cutAt_length h
      have e : qs ++ (cutAt '/' rest).1 :: (nsParts rest').1
          = (qs ++ [(cutAt '/' rest).1]) ++ (nsParts rest').1 := by simp
      simp only [e]
      split
      · rename_i k hk
        have hq : r.nsAt (qs ++ [(cutAt '/' rest).1]) = some k := by rw [nsAt_snoc, hcur]; exact hk
        exact ih rest'.length (by omega) (qs ++ [(cutAt '/' rest).1]) _ rest' rfl r k inv hq
          (by rw [hdone]; simp [joinNs])
      · rename_i hk
        obtain ⟨π, σ, hT⟩ := inv.tree
        simp only [Bool.false_eq_true, if_false]
        have hq : (r.addNs cur (cutAt '/' rest).1).nsAt (qs ++ [(cutAt '/' rest).1]) = some r.ns.length := by
          have hn : r.nsAt (qs ++ [(cutAt '/' rest).1]) = none := by
            rw [nsAt_snoc, hcur]; exact hk
          rw [addNs_nsAt hT hcur hk, if_pos rfl, hn]; rfl
        obtain ⟨r', n, h1, h2, h3, h4, h5, h6⟩ :=
          ih rest'.length (by omega) (qs ++ [(cutAt '/' rest).1])
            (done ++ (cutAt '/' rest).1 ++ ['/']) rest' rfl _ _
            (addNs_regInv inv hcur hk cutAt_not_mem) hq (by rw [hdone]; simp [joinNs])
        refine ⟨r', n, h1, h2, h3, ?_, h5, h6⟩
        intro ps cs
        rw [h4, addNs_clsAt hT hcur hk]

theorem clsAt_prefix_none {r : Registry} {ps cs : List Str} (hne : cs ≠ []) (h : r.clsAt ps cs = none)
    (ds : List Str) : r.clsAt ps (cs ++ ds) = none := by
  induction ds using snoc_induction with
  | h0 => simpa using h
  | h1 ds d ih =>
    rw [← List.append_assoc, clsAt_snoc, ih]
    · rfl
    · simp [hne]

theorem clsLoop_find (r : Registry) (qs ds : List Str) (done rest : Str) : ∀ (C : Nat),
    r.clsAt qs ds = some C →
    clsLoop true r C done rest = (r, r.clsAt qs (ds ++ clsParts rest)) := by
  induction hl : rest.length using Nat.strongRecOn generalizing rest ds done with
  | ind len ih =>
    intro C hC
    have hds : ds ≠ [] := by rintro rfl; cases hC
    have hq : r.clsAt qs (ds ++ [(cutAt '$' rest).1]) = r.clsClass C (cutAt '$' rest).1 := by
      rw [clsAt_snoc _ _ _ hds, hC]; rfl
    rw [clsLoop]
    split
    · rename_i k hk
      rw [hk] at hq
      split
      · rename_i h
        rw [clsParts_whole h, ← hq, (cutAt_none h).1]
      · rename_i rest' h
        rw [clsParts_cut h]
        rw [ih rest'.length (by have := cutAt_length h; omega) (ds ++ [(cutAt '$' rest).1]) _ rest' rfl k hq]
        simp
    · rename_i hk
      rw [hk] at hq
      rw [if_pos rfl]
      congr 1
      cases h : (cutAt '$' rest).2 with
      | none =>
        rw [clsParts_whole h]
        rw [(cutAt_none h).1] at hq
        exact hq.symm
      | some rest' =>
        rw [clsParts_cut h]
        have := clsAt_prefix_none (by simp) hq (clsParts rest')
        simpa using this.symm

/-- What creating the classes `ds ++ i` (for non-empty prefixes `i` of `cs`) does. -/
structure Grown (r r' : Registry) (qs ds cs : List Str) : Prop where
  inv : RegInv r'
  keep : ∀ ps es c, r.clsAt ps es = some c → r'.clsAt ps es = some c
  new : ∀ ps es, (r'.clsAt ps es).isSome ↔ (r.clsAt ps es).isSome ∨
    (ps = qs ∧ ∃ i j, cs = i ++ j ∧ i ≠ [] ∧ es = ds ++ i)
  arr : ∀ n : Str, n.head? = some '[' → r'.byName.lookup n = r.byName.lookup n

theorem clsLoop_create (qs : List Str) (hqs : ∀ p ∈ qs, '/' ∉ p) (ds : List Str) (done rest : Str)
    (hrest : '/' ∉ rest) (hb : (done ++ rest).head? ≠ some '[') :
    ∀ (r : Registry) (C : Nat), RegInv r → r.clsAt qs ds = some C →
    (∀ d ∈ ds, '/' ∉ d ∧ '$' ∉ d) →
    done = joinName (qs, ds) ++ ['$'] →
    ∃ r' k, clsLoop false r C done rest = (r', some k) ∧
      r'.clsAt qs (ds ++ clsParts rest) = some k ∧ Grown r r' qs ds (clsParts rest) := by
  induction hl : rest.length using Nat.strongRecOn generalizing rest ds done with
  | ind len ih =>
    intro r C inv hC hgood hdone
    have hds : ds ≠ [] := by rintro rfl; cases hC
    have hq : r.clsAt qs (ds ++ [(cutAt '$' rest).1]) = r.clsClass C (cutAt '$' rest).1 := by
      rw [clsAt_snoc _ _ _ hds, hC]; rfl
    obtain ⟨π, σ, hT⟩ := inv.tree
    have hjoin : done ++ (cutAt '$' rest).1 = joinName (qs, ds ++ [(cutAt '$' rest).1]) := by
      rw [hdone]; simp [joinName, joinCls_snoc _ hds]
    have hcut : '/' ∉ (cutAt '$' rest).1 := by
      cases h : (cutAt '$' rest).2 with
      | none => rw [(cutAt_none h).1]; exact hrest
      | some t => intro h2; apply hrest; rw [(cutAt_some h).1]; simp [h2]
    have hgood' : ∀ d ∈ ds ++ [(cutAt '$' rest).1], '/' ∉ d ∧ '$' ∉ d := by
      intro d hd
      simp only [List.mem_append, List.mem_singleton] at hd
      rcases hd with hd | rfl
      · exact hgood d hd
      · exact ⟨hcut, cutAt_not_mem⟩
    have hbp : (done ++ (cutAt '$' rest).1).head? ≠ some '[' := by
      rw [hdone] at hb ⊢
      simp only [List.append_assoc] at hb ⊢
      cases hj : joinName (qs, ds) with
      | nil => simp
      | cons a t => rw [hj] at hb; simpa using hb
    have hbrest : ∀ rest', (cutAt '$' rest).2 = some rest' →
        (done ++ (cutAt '$' rest).1 ++ ['$'] ++ rest').head? ≠ some '[' := by
      intro rest' h
      have := (cutAt_some h).1
      have e : done ++ (cutAt '$' rest).1 ++ ['$'] ++ rest' = done ++ rest := by
        conv => rhs; rw [this]
        simp
      rw [e]; exact hb
    have hrest' : ∀ rest', (cutAt '$' rest).2 = some rest' → '/' ∉ rest' := by
      intro rest' h h2
      apply hrest
      rw [(cutAt_some h).1]
      simp [h2]
    rw [clsLoop]
    split
    · rename_i k hk
      rw [hk] at hq
      split
      · rename_i h
        rw [clsParts_whole h]
        rw [(cutAt_none h).1] at hq
        refine ⟨r, k, rfl, hq, inv, fun _ _ _ h => h, ?_, fun _ _ => rfl⟩
        intro ps es
        constructor
        · exact .inl
        · rintro (h | ⟨rfl, i, j, hij, hi, rfl⟩)
          · exact h
          · have : i = [rest] := by
              cases i with
              | nil => exact absurd rfl hi
              | cons a t =>
                simp at hij
                simp [hij]
            rw [this, hq]; rfl
      · rename_i rest' h
        rw [clsParts_cut h]
        obtain ⟨r', k', h1, h2, h3⟩ := ih rest'.length (by have := cutAt_length h; omega)
          (ds ++ [(cutAt '$' rest).1]) _ rest' (hrest' rest' h) (hbrest rest' h) rfl r k inv hq hgood'
          (by rw [hjoin])
        refine ⟨r', k', h1, by simpa using h2, h3.inv, h3.keep, ?_, h3.arr⟩
        intro ps es
        rw [h3.new]
        constructor
        · rintro (h | ⟨rfl, i, j, hij, hi, rfl⟩)
          · exact .inl h
          · exact .inr ⟨rfl, (cutAt '$' rest).1 :: i, j, by simp [hij], by simp, by simp⟩
        · rintro (h | ⟨rfl, i, j, hij, hi, rfl⟩)
          · exact .inl h
          · cases i with
            | nil => exact absurd rfl hi
            | cons a t =>
              simp only [List.cons_append, List.cons.injEq] at hij
              by_cases ht : t = []
              · left; rw [ht, ← hij.1, hq]; rfl
              · right; exact ⟨rfl, t, j, hij.2, ht, by simp [hij.1]⟩
    · rename_i hk
      rw [hk] at hq
      simp only [Bool.false_eq_true, if_false]
      have hinv' := addClsClass_regInv inv hC hk hjoin ⟨hqs, hgood', by simp⟩ hbp
      have hnew := addClsClass_clsAt hT hC (s := (cutAt '$' rest).1) (p := done ++ (cutAt '$' rest).1)
      have hself : (r.addClsClass C (cutAt '$' rest).1 (done ++ (cutAt '$' rest).1)).clsAt qs
          (ds ++ [(cutAt '$' rest).1]) = some r.cls.length := by
        rw [hnew, hq]; simp
      have harr : ∀ n : Str, n.head? = some '[' →
          (r.addClsClass C (cutAt '$' rest).1 (done ++ (cutAt '$' rest).1)).byName.lookup n
            = r.byName.lookup n := by
        intro n hn
        rw [show (r.addClsClass C (cutAt '$' rest).1 (done ++ (cutAt '$' rest).1)).byName
          = (done ++ (cutAt '$' rest).1, r.cls.length) :: r.byName from rfl, lookup_cons_eq, if_neg]
        intro h; apply hbp; rw [← h]; exact hn
      split
      · rename_i h
        rw [clsParts_whole h]
        rw [(cutAt_none h).1] at hself
        refine ⟨_, _, rfl, by rw [(cutAt_none h).1]; exact hself, hinv', ?_, ?_, harr⟩
        · intro ps es c hc
          rw [hnew, hc]; rfl
        · intro ps es
          rw [hnew, Option.isSome_or, Bool.or_eq_true, (cutAt_none h).1]
          apply or_congr Iff.rfl
          constructor
          · intro h
            split at h
            · rename_i h'; exact ⟨h'.1, [rest], [], by simp, by simp, h'.2⟩
            · cases h
          · rintro ⟨rfl, i, j, hij, hi, rfl⟩
            have : i = [rest] := by
              cases i with
              | nil => exact absurd rfl hi
              | cons a t =>
                simp at hij
                simp [hij]
            simp [this]
      · rename_i rest' h
        rw [clsParts_cut h]
        obtain ⟨r', k', h1, h2, h3⟩ := ih rest'.length (by have := cutAt_length h; omega)
          (ds ++ [(cutAt '$' rest).1]) _ rest' (hrest' rest' h) (hbrest rest' h) rfl _ _ hinv' hself hgood'
          (by rw [hjoin])
        refine ⟨r', k', h1, by simpa using h2, h3.inv, ?_, ?_, fun n hn => by rw [h3.arr n hn, harr n hn]⟩
        · intro ps es c hc
          apply h3.keep
          rw [hnew, hc]; rfl
        · intro ps es
          rw [h3.new, hnew, Option.isSome_or, Bool.or_eq_true, or_assoc]
          apply or_congr Iff.rfl
          constructor
          · rintro (h | ⟨rfl, i, j, hij, hi, rfl⟩)
            · split at h
              · rename_i h'
                exact ⟨h'.1, [(cutAt '$' rest).1], clsParts rest', by simp, by simp, h'.2⟩
              · cases h
            · exact ⟨rfl, (cutAt '$' rest).1 :: i, j, by simp [hij], by simp, by simp⟩
          · rintro ⟨rfl, i, j, hij, hi, rfl⟩
            cases i with
            | nil => exact absurd rfl hi
            | cons a t =>
              simp only [List.cons_append, List.cons.injEq] at hij
              by_cases ht : t = []
              · left; simp [ht, hij.1]
              · right; exact ⟨rfl, t, j, hij.2, ht, by simp [hij.1]⟩

theorem firstClass_find (r : Registry) (qs : List Str) (done rest : Str) (n : Nat)
    (hn : r.nsAt qs = some n) :
    firstClass true r n done rest = (r, r.clsAt qs (clsParts rest)) := by
  have hq : r.clsAt qs [(cutAt '$' rest).1] = r.nsClass n (cutAt '$' rest).1 := by
    rw [clsAt_one, hn]; rfl
  rw [firstClass]
  split
  · rename_i k hk
    rw [hk] at hq
    split
    · rename_i h
      rw [clsParts_whole h, ← hq, (cutAt_none h).1]
    · rename_i rest' h
      rw [clsParts_cut h, clsLoop_find r qs [(cutAt '$' rest).1] _ rest' k hq]
      simp
  · rename_i hk
    rw [hk] at hq
    rw [if_pos rfl]
    congr 1
    cases h : (cutAt '$' rest).2 with
    | none =>
      rw [clsParts_whole h]
      rw [(cutAt_none h).1] at hq
      exact hq.symm
    | some rest' =>
      rw [clsParts_cut h]
      have := clsAt_prefix_none (by simp) hq (clsParts rest')
      simpa using this.symm

theorem firstClass_create (qs : List Str) (hqs : ∀ p ∈ qs, '/' ∉ p) (done rest : Str)
    (hrest : '/' ∉ rest) (hb : (done ++ rest).head? ≠ some '[') (r : Registry) (n : Nat)
    (inv : RegInv r) (hn : r.nsAt qs = some n) (hdone : done = joinNs qs) :
    ∃ r' k, firstClass false r n done rest = (r', some k) ∧
      r'.clsAt qs (clsParts rest) = some k ∧ Grown r r' qs [] (clsParts rest) := by
  have hq : r.clsAt qs [(cutAt '$' rest).1] = r.nsClass n (cutAt '$' rest).1 := by
    rw [clsAt_one, hn]; rfl
  obtain ⟨π, σ, hT⟩ := inv.tree
  have hjoin : done ++ (cutAt '$' rest).1 = joinName (qs, [(cutAt '$' rest).1]) := by
    rw [hdone]; simp [joinName, joinCls]
  have hcut : '/' ∉ (cutAt '$' rest).1 := by
    cases h : (cutAt '$' rest).2 with
    | none => rw [(cutAt_none h).1]; exact hrest
    | some t => intro h2; apply hrest; rw [(cutAt_some h).1]; simp [h2]
  have hgood' : ∀ d ∈ [(cutAt '$' rest).1], '/' ∉ d ∧ '$' ∉ d := by
    intro d hd
    simp only [List.mem_singleton] at hd
    subst hd
    exact ⟨hcut, cutAt_not_mem⟩
  have hbp : (done ++ (cutAt '$' rest).1).head? ≠ some '[' := by
    cases h : (cutAt '$' rest).2 with
    | none => rw [(cutAt_none h).1]; exact hb
    | some t =>
      have := (cutAt_some h).1
      rw [this] at hb
      intro h2
      apply hb
      cases done with
      | nil =>
        cases hc : (cutAt '$' rest).1 with
        | nil => rw [hc] at h2; simp at h2
        | cons a u => rw [hc] at h2; simpa using h2
      | cons a u => simpa using h2
  have hbrest : ∀ rest', (cutAt '$' rest).2 = some rest' →
      (done ++ (cutAt '$' rest).1 ++ ['$'] ++ rest').head? ≠ some '[' := by
    intro rest' h
    have := (cutAt_some h).1
    have e : done ++ (cutAt '$' rest).1 ++ ['$'] ++ rest' = done ++ rest := by
      conv => rhs; rw [this]
      simp
    rw [e]; exact hb
  have hrest' : ∀ rest', (cutAt '$' rest).2 = some rest' → '/' ∉ rest' := by
    intro rest' h h2
    apply hrest
    rw [(cutAt_some h).1]
    simp [h2]
  rw [firstClass]
  split
  · rename_i k hk
    rw [hk] at hq
    split
    · rename_i h
      rw [clsParts_whole h]
      rw [(cutAt_none h).1] at hq
      refine ⟨r, k, rfl, hq, inv, fun _ _ _ h => h, ?_, fun _ _ => rfl⟩
      intro ps es
      constructor
      · exact .inl
      · rintro (h | ⟨rfl, i, j, hij, hi, rfl⟩)
        · exact h
        · have : es = [rest] := by
            cases es with
            | nil => exact absurd rfl hi
            | cons a t =>
              simp at hij
              simp [hij]
          rw [this, hq]; rfl
    · rename_i rest' h
      rw [clsParts_cut h]
      obtain ⟨r', k', h1, h2, h3⟩ := clsLoop_create qs hqs [(cutAt '$' rest).1] _ rest'
        (hrest' rest' h) (hbrest rest' h) r k inv hq hgood' (by rw [hjoin])
      refine ⟨r', k', h1, by simpa using h2, h3.inv, h3.keep, ?_, h3.arr⟩
      intro ps es
      rw [h3.new]
      constructor
      · rintro (h | ⟨rfl, i, j, hij, hi, rfl⟩)
        · exact .inl h
        · exact .inr ⟨rfl, (cutAt '$' rest).1 :: i, j, by simp [hij], by simp, by simp⟩
      · rintro (h | ⟨rfl, i, j, hij, hi, rfl⟩)
        · exact .inl h
        · cases es with
          | nil => exact absurd rfl hi
          | cons a t =>
            simp only [List.cons_append, List.cons.injEq] at hij
            by_cases ht : t = []
            · left; rw [ht, ← hij.1, hq]; rfl
            · right; exact ⟨rfl, t, j, hij.2, ht, by simp [hij.1]⟩
  · rename_i hk
    have hk' := hk
    rw [hk] at hq
    simp only [Bool.false_eq_true, if_false]
    have hinv' := addNsClass_regInv inv hn hk hjoin ⟨hqs, hgood', by simp⟩ hbp
    have hnew := addNsClass_clsAt hT hn (s := (cutAt '$' rest).1) (p := done ++ (cutAt '$' rest).1)
    have hself : (r.addNsClass n (cutAt '$' rest).1 (done ++ (cutAt '$' rest).1)).clsAt qs
        [(cutAt '$' rest).1] = some r.cls.length := by
      rw [hnew, hq]; simp
    have harr : ∀ m : Str, m.head? = some '[' →
        (r.addNsClass n (cutAt '$' rest).1 (done ++ (cutAt '$' rest).1)).byName.lookup m
          = r.byName.lookup m := by
      intro m hm
      rw [show (r.addNsClass n (cutAt '$' rest).1 (done ++ (cutAt '$' rest).1)).byName
        = (done ++ (cutAt '$' rest).1, r.cls.length) :: r.byName from rfl, lookup_cons_eq, if_neg]
      intro h; apply hbp; rw [← h]; exact hm
    split
    · rename_i h
      rw [clsParts_whole h]
      rw [(cutAt_none h).1] at hself
      refine ⟨_, _, rfl, by rw [(cutAt_none h).1]; exact hself, hinv', ?_, ?_, harr⟩
      · intro ps es c hc
        rw [hnew, hc]; rfl
      · intro ps es
        rw [hnew, Option.isSome_or, Bool.or_eq_true, (cutAt_none h).1]
        apply or_congr Iff.rfl
        constructor
        · intro h
          split at h
          · rename_i h'; exact ⟨h'.1, [rest], [], by simp, by simp, h'.2⟩
          · cases h
        · rintro ⟨rfl, i, j, hij, hi, rfl⟩
          have : es = [rest] := by
            cases es with
            | nil => exact absurd rfl hi
            | cons a t =>
              simp at hij
              simp [hij]
          simp [this]
    · rename_i rest' h
      rw [clsParts_cut h]
      obtain ⟨r', k', h1, h2, h3⟩ := clsLoop_create qs hqs [(cutAt '$' rest).1] _ rest'
        (hrest' rest' h) (hbrest rest' h) _ _ hinv' hself hgood' (by rw [hjoin])
      refine ⟨r', k', h1, by simpa using h2, h3.inv, ?_, ?_, fun m hm => by rw [h3.arr m hm, harr m hm]⟩
      · intro ps es c hc
        apply h3.keep
        rw [hnew, hc]; rfl
      · intro ps es
        rw [h3.new, hnew, Option.isSome_or, Bool.or_eq_true, or_assoc]
        apply or_congr Iff.rfl
        constructor
        · rintro (h | ⟨rfl, i, j, hij, hi, rfl⟩)
          · split at h
            · rename_i h'
              exact ⟨h'.1, [(cutAt '$' rest).1], clsParts rest', by simp, by simp, h'.2⟩
            · cases h
          · exact ⟨rfl, (cutAt '$' rest).1 :: i, j, by simp [hij], by simp, by simp⟩
        · rintro ⟨rfl, i, j, hij, hi, rfl⟩
          cases es with
          | nil => exact absurd rfl hi
          | cons a t =>
            simp only [List.cons_append, List.cons.injEq] at hij
            by_cases ht : t = []
            · left; simp [ht, hij.1]
            · right; exact ⟨rfl, t, j, hij.2, ht, by simp [hij.1]⟩

/-! ### FindClass -/

/-- A lookup-only query changes nothing and reads the map. -/
theorem findClass_find (inv : RegInv r) (n : Str) :
    findClass true r n = (r, r.byName.lookup n) := by
  unfold findClass
  by_cases h : n.head? = some '['
  · rw [if_neg (by simpa using h)]
    cases r.byName.lookup n <;> rfl
  · rw [if_pos h, nsLoop_find r [] [] n 0 rfl rfl, inv.map n h]
    simp only [List.nil_append, parts]
    cases hn : r.nsAt (nsParts n).1 with
    | none =>
      simp only [Option.map_none]
      congr 1
      cases hc : clsParts (nsParts n).2 with
      | nil => rfl
      | cons c cs => unfold Registry.clsAt; rw [hn]; rfl
    | some k =>
      simp only [Option.map_some]
      exact firstClass_find r _ _ _ _ hn

theorem joinName_snoc_prefix (ps i j : List Str) (hi : i ≠ []) (hj : j ≠ []) :
    joinName (ps, i ++ j) = joinName (ps, i) ++ '$' :: joinCls j := by
  induction j using snoc_induction with
  | h0 => exact absurd rfl hj
  | h1 j x ih =>
    by_cases hj' : j = []
    · subst hj'
      simp [joinName, joinCls_snoc _ hi, joinCls]
    · have := ih hj'
      simp only [joinName] at this ⊢
      rw [← List.append_assoc, joinCls_snoc _ (by simp [hi]), joinCls_snoc _ hj', ← List.append_assoc, this]
      simp

/-- Enclosing names are prefixes of the class path. -/
theorem encloses_iff {m n : Str} (hm : n.head? ≠ some '[') :
    Encloses m n ↔ (parts m).1 = (parts n).1 ∧ ∃ i j, (parts n).2 = i ++ j ∧ i ≠ [] ∧ (parts m).2 = i := by
  constructor
  · rintro (rfl | ⟨_, inner, rfl, hin⟩)
    · exact ⟨rfl, (parts m).2, [], by simp, (parts_good m).2.2, rfl⟩
    · have hg := parts_good m
      have e : parts (m ++ '$' :: inner) = ((parts m).1, (parts m).2 ++ clsParts inner) := by
        have hgood : GoodParts ((parts m).1, (parts m).2 ++ clsParts inner) := by
          refine ⟨hg.1, ?_, by simp [hg.2.2]⟩
          intro s hs
          simp only [List.mem_append] at hs
          rcases hs with hs | hs
          · exact hg.2.1 s hs
          · refine ⟨?_, clsParts_no_dollar _ s hs⟩
            intro hsl
            have := mem_joinCls_of_mem hs _ hsl
            rw [joinCls_clsParts] at this
            exact hin this
        rw [← parts_join hgood]
        congr 1
        rw [joinName_snoc_prefix _ _ _ hg.2.2 (clsParts_ne_nil _), joinCls_clsParts]
        rw [show ((parts m).1, (parts m).2) = parts m from rfl, joinName_parts]
      rw [e]
      exact ⟨rfl, (parts m).2, clsParts inner, rfl, hg.2.2, rfl⟩
  · rintro ⟨h1, i, j, h2, hi, h3⟩
    by_cases hj : j = []
    · left
      apply parts_inj
      apply Prod.ext h1
      rw [h3, h2, hj, List.append_nil]
    · right
      refine ⟨hm, joinCls j, ?_, ?_⟩
      · rw [← joinName_parts n, ← joinName_parts m]
        have := joinName_snoc_prefix (parts n).1 i j hi hj
        rw [show parts n = ((parts n).1, (parts n).2) from rfl, h2, this,
          show parts m = ((parts m).1, (parts m).2) from rfl, h1, h3]
      · apply slash_not_mem_joinCls
        intro s hs
        exact ((parts_good n).2.1 s (by rw [h2]; simp [hs])).1

/-- What `FindClass` that may create does, in terms of the map. -/
structure Created (r r' : Registry) (n : Str) : Prop where
  inv : RegInv r'
  keep : ∀ m c, r.byName.lookup m = some c → r'.byName.lookup m = some c
  new : ∀ m, (r'.byName.lookup m).isSome ↔ (r.byName.lookup m).isSome ∨ Encloses m n

theorem append_array_inv (inv : RegInv r) {n x : Str} (hn : n.head? = some '[')
    (hl : r.byName.lookup n = none) (hx : x = afterLastSlash n) :
    RegInv { r with cls := r.cls ++ [⟨x, n, []⟩], byName := (n, r.cls.length) :: r.byName } := by
  obtain ⟨π, σ, hT⟩ := inv.tree
  have hkeep : ∀ (c : Nat) (cd : ClassNode), r.cls[c]? = some cd → (r.cls ++ [⟨x, n, []⟩])[c]? = some cd := by
    intro c cd h
    rw [getElem?_snoc, if_pos (List.getElem?_eq_some_iff.1 h).1, h]
  have hT' : TreeInv { r with cls := r.cls ++ [⟨x, n, []⟩], byName := (n, r.cls.length) :: r.byName } π σ := by
    constructor
    · exact hT.root
    · exact hT.rootPath
    · exact hT.nsKids
    · intro k nd h c hc
      obtain ⟨cd, hcd, h2⟩ := hT.nsClasses k nd h c hc
      exact ⟨cd, hkeep c cd hcd, h2⟩
    · intro k nd h c hc
      simp only at h
      rw [getElem?_snoc] at h
      split at h
      · obtain ⟨cd, hcd, h2⟩ := hT.clsKids k nd h c hc
        exact ⟨cd, hkeep c cd hcd, h2⟩
      · split at h
        · cases h; simp at hc
        · cases h
  have hnsC : ∀ k t, Registry.nsClass { r with cls := r.cls ++ [⟨x, n, []⟩], byName := (n, r.cls.length) :: r.byName } k t
      = r.nsClass k t := by
    intro k t
    unfold Registry.nsClass
    cases h : r.ns[k]? with
    | none => rfl
    | some nd =>
      apply find_congr
      intro c hc
      obtain ⟨cd, hcd, _⟩ := hT.nsClasses k nd h c hc
      rw [hkeep c cd hcd, hcd]
  have hclC : ∀ k t, Registry.clsClass { r with cls := r.cls ++ [⟨x, n, []⟩], byName := (n, r.cls.length) :: r.byName } k t
      = r.clsClass k t := by
    intro k t
    unfold Registry.clsClass
    simp only
    rw [getElem?_snoc]
    by_cases hk : k < r.cls.length
    · rw [if_pos hk]
      cases h : r.cls[k]? with
      | none => rfl
      | some nd =>
        apply find_congr
        intro c hc
        obtain ⟨cd, hcd, _⟩ := hT.clsKids k nd h c hc
        rw [hkeep c cd hcd, hcd]
    · rw [if_neg hk, List.getElem?_eq_none (l := r.cls) (by omega)]
      by_cases h2 : k = r.cls.length
      · rw [if_pos h2]; rfl
      · rw [if_neg h2]
  have hlow : ∀ {c : Nat}, c < r.cls.length → ∀ {cd}, (r.cls ++ [⟨x, n, []⟩])[c]? = some cd → r.cls[c]? = some cd := by
    intro c hc cd h
    rwa [getElem?_snoc, if_pos hc] at h
  have hsib : SibInv { r with cls := r.cls ++ [⟨x, n, []⟩], byName := (n, r.cls.length) :: r.byName } := by
    constructor
    · exact inv.sib.nsKids
    · intro k nd h
      refine ⟨(inv.sib.nsClasses k nd h).1, fun c hc cd hcd => ?_⟩
      obtain ⟨cd', hcd', _⟩ := hT.nsClasses k nd h c hc
      rw [hnsC]
      exact (inv.sib.nsClasses k nd h).2 c hc cd (hlow (List.getElem?_eq_some_iff.1 hcd').1 hcd)
    · intro k nd h
      simp only at h
      rw [getElem?_snoc] at h
      split at h
      · refine ⟨(inv.sib.clsKids k nd h).1, fun c hc cd hcd => ?_⟩
        obtain ⟨cd', hcd', _⟩ := hT.clsKids k nd h c hc
        rw [hclC]
        exact (inv.sib.clsKids k nd h).2 c hc cd (hlow (List.getElem?_eq_some_iff.1 hcd').1 hcd)
      · split at h
        · cases h; exact ⟨by simp, by simp⟩
        · cases h
    · exact inv.sib.rootName
  refine ⟨⟨π, σ, hT'⟩, hsib, ?_, ?_⟩
  · intro m hm
    simp only
    rw [lookup_cons_eq, if_neg (by rintro rfl; exact hm hn), inv.map m hm]
    cases hc : (parts m).2 with
    | nil => rfl
    | cons c cs =>
      unfold Registry.clsAt
      have e1 : Registry.nsClass { r with cls := r.cls ++ [⟨x, n, []⟩], byName := (n, r.cls.length) :: r.byName }
        = r.nsClass := by funext k t; exact hnsC k t
      have e2 : Registry.clsClass { r with cls := r.cls ++ [⟨x, n, []⟩], byName := (n, r.cls.length) :: r.byName }
        = r.clsClass := by funext k t; exact hclC k t
      rw [e1, e2]
      rfl
  · intro m c hm hl
    simp only at hl ⊢
    rw [lookup_cons_eq] at hl
    split at hl
    · rename_i h
      cases hl
      rw [getElem?_snoc, if_neg (by omega), if_pos rfl]
      exact ⟨_, rfl, h.symm, by rw [h]; exact hx⟩
    · obtain ⟨cd, hcd, h2⟩ := inv.arrays m c hm hl
      exact ⟨cd, hkeep c cd hcd, h2⟩

theorem findClass_create (inv : RegInv r) (n : Str) :
    ∃ r' c, findClass false r n = (r', some c) ∧ r'.byName.lookup n = some c ∧ Created r r' n := by
  by_cases h : n.head? = some '['
  · unfold findClass
    rw [if_neg (by simpa using h)]
    have henc : ∀ m, Encloses m n ↔ m = n := by
      intro m
      constructor
      · rintro (rfl | ⟨h2, _⟩)
        · rfl
        · exact absurd h h2
      · rintro rfl; exact .inl rfl
    cases hl : r.byName.lookup n with
    | some c =>
      refine ⟨r, c, rfl, hl, inv, fun _ _ h => h, ?_⟩
      intro m
      rw [henc]
      constructor
      · exact .inl
      · rintro (h | rfl)
        · exact h
        · rw [hl]; rfl
    | none =>
      simp only [Bool.false_eq_true, if_false]
      refine ⟨_, _, rfl, by simp, append_array_inv inv h hl rfl, ?_, ?_⟩
      · intro m c hm
        simp only
        rw [lookup_cons_eq, if_neg (by rintro rfl; rw [hl] at hm; cases hm), hm]
      · intro m
        simp only
        rw [lookup_cons_eq, henc]
        by_cases hmn : m = n <;> simp [hmn]
  · obtain ⟨r1, k, e1, inv1, hk, hcls, hby, _⟩ := nsLoop_create [] [] n r 0 inv rfl rfl
    simp only [List.nil_append] at e1 hk
    have hns := nsParts_no_slash n
    obtain ⟨r', c, e2, hc, hg⟩ := firstClass_create (nsParts n).1 hns.1 (joinNs (nsParts n).1) (nsParts n).2
      hns.2 (by rw [joinNs_nsParts]; exact h) r1 k inv1 hk rfl
    refine ⟨r', c, ?_, ?_, hg.inv, ?_, ?_⟩
    · unfold findClass
      rw [if_pos h, e1]
      exact e2
    · rw [hg.inv.map n h]; exact hc
    · intro m d hm
      by_cases hm' : m.head? = some '['
      · rw [hg.arr m hm', hby]; exact hm
      · rw [hg.inv.map m hm']
        rw [inv.map m hm'] at hm
        exact hg.keep _ _ _ (by rw [hcls]; exact hm)
    · intro m
      by_cases hm' : m.head? = some '['
      · rw [hg.arr m hm', hby]
        constructor
        · exact .inl
        · rintro (h2 | h2)
          · exact h2
          · rcases h2 with rfl | ⟨_, inner, rfl, _⟩
            · exact absurd hm' h
            · cases m with
              | nil => simp at hm'
              | cons a t => exact absurd (by simpa using hm') h
      · rw [hg.inv.map m hm', hg.new, hcls, inv.map m hm', encloses_iff h]
        apply or_congr Iff.rfl
        simp only [List.nil_append]
        rfl

/-- The classes bound in the map report their name. -/
theorem lookup_record (inv : RegInv r) {n : Str} {c : Nat} (h : r.byName.lookup n = some c) :
    ∃ cd : ClassNode, r.cls[c]? = some cd ∧ cd.nativeprefix = n ∧
      cd.name = if n.head? = some '[' then afterLastSlash n else ((parts n).2.getLast?).getD [] := by
  by_cases hn : n.head? = some '['
  · obtain ⟨cd, h1, h2, h3⟩ := inv.arrays n c hn h
    exact ⟨cd, h1, h2, by rw [if_pos hn, h3]⟩
  · rw [inv.map n hn] at h
    obtain ⟨π, σ, hT⟩ := inv.tree
    obtain ⟨cd, h1, _, h2, h3⟩ := clsAt_spec hT _ _ h
    refine ⟨cd, h1, ?_, ?_⟩
    · rw [h3]; exact joinName_parts n
    · rw [if_neg hn, h2]; rfl

end Jnivm
