import Verif.Spec.Unload
import Verif.Props.Library
import Verif.Lemmas.Members
import Verif.Lemmas.Defaults
/-! Helper lemmas for libraries that use the VM. -/
namespace Jnivm
open Spec

/-! ### The run ends -/

mutual
def LibCall.weight : LibCall → Nat
  | .attach _ _ _ _ load _ _ unload => 6 + callsWeight load + callsWeight unload
  | .remove _ => 1
  | .look _ => 1
  | .attachThread => 1
  | .detachThread => 1
def callsWeight : List LibCall → Nat
  | [] => 0
  | c :: l => c.weight + callsWeight l
end

def Lib.weight (l : Lib) : Nat := 3 + callsWeight l.unload

def LibFrame.weight : LibFrame → Nat
  | .calls l => 1 + callsWeight l
  | .loading _ lib _ => 1 + lib.weight
  | .closing _ _ => 1
  | .ending rest => 1 + (rest.map Lib.weight).sum

def LibVm.weight (m : LibVm) : Nat := (m.libs.map (·.2.weight)).sum + (m.stack.map LibFrame.weight).sum

theorem unload_weight (m : LibVm) (lib : Lib) : (m.unload lib).weight < m.weight + lib.weight := by
  unfold LibVm.unload
  cases lib.handle with
  | none => simp only [Lib.weight]; omega
  | some h =>
    cases lib.hasUnload <;> simp [LibVm.weight, Lib.weight, LibFrame.weight] <;> omega

theorem insert_weight {m m' : LibVm} {rpath : Str} {lib : Lib} (h : m.insert rpath lib = .ok m') :
    m'.weight ≤ m.weight + lib.weight := by
  unfold LibVm.insert at h
  by_cases he : m.ending = true
  · rw [if_pos he] at h; cases h
  · rw [if_neg he] at h
    split at h
    · cases h; exact Nat.le_of_lt (unload_weight m lib)
    · cases h; simp [LibVm.weight]; omega

theorem sum_filter_find {l : List (Str × Lib)} {p : Str × Lib → Bool} {x : Str × Lib}
    (h : l.find? p = some x) :
    ((l.filter (fun y => !p y)).map (·.2.weight)).sum + x.2.weight ≤ (l.map (·.2.weight)).sum := by
  induction l with
  | nil => cases h
  | cons y l ih =>
    rw [List.find?_cons] at h
    cases hp : p y with
    | true =>
      rw [hp] at h; cases h
      have : ∀ l : List (Str × Lib), ((l.filter (fun y => !p y)).map (·.2.weight)).sum ≤
          (l.map (·.2.weight)).sum := by
        intro l
        induction l with
        | nil => exact Nat.le_refl _
        | cons a l ih => cases ha : p a <;> simp [ha] <;> omega
      have := this l
      simp [hp]; omega
    | false =>
      rw [hp] at h
      have := ih h
      simp [hp]; omega

theorem remove_weight {m m' : LibVm} {rpath : Str} (h : m.remove rpath = .ok m') : m'.weight ≤ m.weight := by
  unfold LibVm.remove at h
  by_cases he : m.ending = true
  · rw [if_pos he] at h; cases h
  · rw [if_neg he] at h
    cases hf : m.libs.find? (·.1 == rpath) with
    | none => rw [hf] at h; cases h; exact Nat.le_refl _
    | some x =>
      rw [hf] at h; cases h
      have h1 := sum_filter_find hf
      have h2 := unload_weight { m with libs := m.libs.filter (fun y => y.1 != rpath) } x.2
      have h3 : (fun y : Str × Lib => !(y.1 == rpath)) = fun y => y.1 != rpath := rfl
      rw [h3] at h1
      refine Nat.le_of_lt (Nat.lt_of_lt_of_le h2 ?_)
      simp only [LibVm.weight]
      omega

theorem exec_weight {depth : Nat} {m m' : LibVm} {c : LibCall} (h : c.exec depth m = .ok m') :
    m'.weight < m.weight + c.weight := by
  cases c with
  | attach rpath first second hasLoad load loadThrows hasUnload unload =>
    simp only [LibCall.exec] at h
    cases ho : libOpen rpath first second with
    | none =>
      rw [ho] at h
      have := insert_weight h
      simp only [LibVm.weight, Lib.weight, LibCall.weight] at this ⊢
      omega
    | some x =>
      obtain ⟨hd, path⟩ := x
      rw [ho] at h
      cases hasLoad with
      | true =>
        simp only [if_true] at h
        cases h
        simp [LibVm.weight, LibFrame.weight, Lib.weight, LibCall.weight]; omega
      | false =>
        simp only [Bool.false_eq_true, if_false] at h
        have := insert_weight h
        simp only [LibVm.weight, Lib.weight, LibCall.weight] at this ⊢
        omega
  | remove rpath =>
    have := remove_weight (show m.remove rpath = .ok m' from h)
    simp only [LibCall.weight]; omega
  | look l =>
    simp only [LibCall.exec] at h
    cases he : m.env with
    | none => rw [he] at h; cases h; simp only [LibCall.weight]; omega
    | some t =>
      rw [he] at h
      obtain ⟨⟨w, r⟩, _, h⟩ := Res.bind_eq_ok.1 h
      cases h; simp only [LibVm.weight, LibCall.weight]; omega
  | attachThread =>
    simp only [LibCall.exec] at h
    cases he : m.env with
    | none => rw [he] at h; cases h; simp only [LibVm.weight, LibCall.weight]; omega
    | some t => rw [he] at h; cases h; simp only [LibCall.weight]; omega
  | detachThread => cases h; simp only [LibVm.weight, LibCall.weight]; omega

theorem libstep_weight {depth : Nat} {m m' : LibVm} (hs : m.stack ≠ []) (h : m.step depth = .ok m') :
    m'.weight < m.weight := by
  unfold LibVm.step at h
  match hm : m.stack, h with
  | [], h => exact absurd hm hs
  | .calls [] :: s, h => cases h; simp [LibVm.weight, hm, LibFrame.weight, callsWeight]
  | .calls (c :: l) :: s, h =>
    have := exec_weight h
    simp [LibVm.weight, hm, LibFrame.weight, callsWeight] at this ⊢; omega
  | .loading rpath lib throws :: s, h =>
    cases throws with
    | true => simp only [if_true] at h; cases h; simp [LibVm.weight, hm, LibFrame.weight]; omega
    | false =>
      simp only [Bool.false_eq_true, if_false] at h
      have := insert_weight h
      simp [LibVm.weight, hm, LibFrame.weight] at this ⊢; omega
  | .closing id hd :: s, h => cases h; simp [LibVm.weight, hm, LibFrame.weight]
  | .ending [] :: s, h => cases h; simp [LibVm.weight, hm, LibFrame.weight]
  | .ending (lib :: rest) :: s, h =>
    cases h
    have := unload_weight { m with stack := .ending rest :: s } lib
    simp [LibVm.weight, hm, LibFrame.weight] at this ⊢; omega

theorem libstep_done {depth : Nat} {m : LibVm} (h : m.stack = []) : m.step depth = .ok m := by
  unfold LibVm.step; rw [h]

theorem librun_done {depth : Nat} {m : LibVm} (h : m.stack = []) (n : Nat) : m.run depth n = .ok m := by
  induction n with
  | zero => rfl
  | succ n ih => simp only [LibVm.run, libstep_done h, Res.bind_ok, ih]

theorem librun_ends (depth : Nat) (n : Nat) : ∀ {m m' : LibVm}, m.weight ≤ n → m.run depth n = .ok m' →
    m'.stack = [] := by
  induction n with
  | zero =>
    intro m m' hw h
    cases h
    cases hs : m.stack with
    | nil => rfl
    | cons f s =>
      have : 0 < f.weight := by cases f <;> simp [LibFrame.weight] <;> omega
      simp [LibVm.weight, hs] at hw; omega
  | succ n ih =>
    intro m m' hw h
    by_cases hs : m.stack = []
    · rw [librun_done hs] at h; cases h; exact hs
    · obtain ⟨m1, h1, h2⟩ := Res.bind_eq_ok.1 (show (m.step depth).bind _ = _ from h)
      exact ih (by have := libstep_weight hs h1; omega) h2

/-! ### What happens for each object -/

/-- An object and what must have happened on its behalf so far. -/
abbrev Holder : Type := Nat × (List LibEvent → Prop)

def Lib.Opened (i : Lib) (tr : List LibEvent) : Prop :=
  match i.handle with
  | none => tr = []
  | some h => tr = [.opened i.id h] ∨ tr = [.opened i.id h, .onLoad i.id (loadSymbol i.path)]

def Lib.Loaded (i : Lib) (tr : List LibEvent) : Prop :=
  ∃ h, i.handle = some h ∧ tr = [.opened i.id h, .onLoad i.id (loadSymbol i.path)]

def LibFrame.holders : LibFrame → List Holder
  | .calls _ => []
  | .loading _ lib _ => [(lib.id, lib.Loaded)]
  | .closing id h => [(id, fun tr => Life id (tr ++ [.closed id h]))]
  | .ending rest => rest.map fun i => (i.id, i.Opened)

def LibVm.holders (m : LibVm) : List Holder :=
  m.stack.flatMap LibFrame.holders ++ m.libs.map fun x => (x.2.id, x.2.Opened)

structure Holds (hs : List Holder) (tr : List LibEvent) (next : Nat) : Prop where
  nodup : (hs.map (·.1)).Nodup
  lt : ∀ x ∈ hs, x.1 < next
  ok : ∀ x ∈ hs, x.2 (eventsOf x.1 tr)
  fin : ∀ i, i ∉ hs.map (·.1) → Life i (eventsOf i tr) ∨ Leak i (eventsOf i tr)
  new : ∀ i, next ≤ i → eventsOf i tr = []

theorem Holds.perm {hs hs' : List Holder} {tr : List LibEvent} {n : Nat} (h : Holds hs tr n)
    (hp : hs.Perm hs') : Holds hs' tr n :=
  ⟨(hp.map _).nodup_iff.1 h.nodup, fun x hx => h.lt x (hp.mem_iff.2 hx), fun x hx => h.ok x (hp.mem_iff.2 hx),
    fun i hi => h.fin i (fun hm => hi ((hp.map _).mem_iff.1 hm)), h.new⟩

theorem holder_other {x y : Holder} {hs : List Holder} (h : ((x :: hs).map (·.1)).Nodup) (hy : y ∈ hs) :
    y.1 ≠ x.1 := by
  rw [List.map_cons, List.nodup_cons] at h
  exact fun he => h.1 (he ▸ List.mem_map_of_mem hy)

theorem events_more {i j : Nat} (tr : List LibEvent) {ev : List LibEvent} (hev : ∀ e ∈ ev, eventId e = i)
    (hj : j ≠ i) : eventsOf j (tr ++ ev) = eventsOf j tr := by
  rw [events_append, events_other hev hj, List.append_nil]

theorem events_own_more {i : Nat} (tr : List LibEvent) {ev : List LibEvent} (hev : ∀ e ∈ ev, eventId e = i) :
    eventsOf i (tr ++ ev) = eventsOf i tr ++ ev := by
  rw [events_append, events_own hev]

theorem Holds.change {i : Nat} {P Q : List LibEvent → Prop} {hs : List Holder} {tr ev : List LibEvent} {n : Nat}
    (h : Holds ((i, P) :: hs) tr n) (hev : ∀ e ∈ ev, eventId e = i) (hq : ∀ t, P t → Q (t ++ ev)) :
    Holds ((i, Q) :: hs) (tr ++ ev) n := by
  refine ⟨h.nodup, ?_, ?_, ?_, ?_⟩
  · intro x hx
    rcases List.mem_cons.1 hx with rfl | hx
    · exact h.lt (i, P) (List.mem_cons_self ..)
    · exact h.lt x (List.mem_cons_of_mem _ hx)
  · intro x hx
    rcases List.mem_cons.1 hx with rfl | hx
    · show Q _
      rw [events_own_more tr hev]
      exact hq _ (h.ok (i, P) (List.mem_cons_self ..))
    · rw [events_more tr hev (holder_other h.nodup hx)]
      exact h.ok x (List.mem_cons_of_mem _ hx)
  · intro j hj
    have hji : j ≠ i := fun he => hj (he ▸ List.mem_cons_self ..)
    rw [events_more tr hev hji]
    exact h.fin j hj
  · intro j hj
    have : i < n := h.lt (i, P) (List.mem_cons_self ..)
    rw [events_more tr hev (by omega)]
    exact h.new j hj

theorem Holds.drop {i : Nat} {P : List LibEvent → Prop} {hs : List Holder} {tr ev : List LibEvent} {n : Nat}
    (h : Holds ((i, P) :: hs) tr n) (hev : ∀ e ∈ ev, eventId e = i)
    (hq : ∀ t, P t → Life i (t ++ ev) ∨ Leak i (t ++ ev)) : Holds hs (tr ++ ev) n := by
  refine ⟨(List.nodup_cons.1 h.nodup).2, fun x hx => h.lt x (List.mem_cons_of_mem _ hx), ?_, ?_, ?_⟩
  · intro x hx
    rw [events_more tr hev (holder_other h.nodup hx)]
    exact h.ok x (List.mem_cons_of_mem _ hx)
  · intro j hj
    by_cases hji : j = i
    · subst hji
      rw [events_own_more tr hev]
      exact hq _ (h.ok (j, P) (List.mem_cons_self ..))
    · rw [events_more tr hev hji]
      exact h.fin j (fun hm => (List.mem_cons.1 hm).elim hji hj)
  · intro j hj
    have : i < n := h.lt (i, P) (List.mem_cons_self ..)
    rw [events_more tr hev (by omega)]
    exact h.new j hj

theorem Holds.add {P : List LibEvent → Prop} {hs : List Holder} {tr ev : List LibEvent} {n : Nat}
    (h : Holds hs tr n) (hev : ∀ e ∈ ev, eventId e = n) (hq : P ev) :
    Holds ((n, P) :: hs) (tr ++ ev) (n + 1) := by
  have hne : ∀ x ∈ hs, x.1 ≠ n := fun x hx => Nat.ne_of_lt (h.lt x hx)
  refine ⟨?_, ?_, ?_, ?_, ?_⟩
  · rw [List.map_cons, List.nodup_cons]
    refine ⟨fun hm => ?_, h.nodup⟩
    obtain ⟨x, hx, he⟩ := List.mem_map.1 hm
    exact hne x hx he
  · intro x hx
    rcases List.mem_cons.1 hx with rfl | hx
    · exact Nat.lt_succ_self n
    · exact Nat.lt_succ_of_lt (h.lt x hx)
  · intro x hx
    rcases List.mem_cons.1 hx with rfl | hx
    · show P _
      rw [events_own_more tr hev, h.new n (Nat.le_refl n)]; exact hq
    · rw [events_more tr hev (hne x hx)]; exact h.ok x hx
  · intro j hj
    rw [List.map_cons, List.mem_cons, not_or] at hj
    rw [events_more tr hev hj.1]
    exact h.fin j hj.2
  · intro j hj
    rw [events_more tr hev (by omega)]
    exact h.new j (by omega)

theorem opened_life {i : Lib} {h : Nat} {tr u : List LibEvent} (hh : i.handle = some h) (ho : i.Opened tr)
    (hu : u = [] ∨ u = [.onUnload i.id (unloadSymbol i.path)]) : Life i.id (tr ++ u ++ [.closed i.id h]) := by
  unfold Lib.Opened at ho
  rw [hh] at ho
  rcases ho with rfl | rfl
  · exact .balanced h [] u (symbols_pair i.path) (.inl rfl) hu
  · exact .balanced h [_] u (symbols_pair i.path) (.inr rfl) hu

/-- The object is not in the table any more (or never was) and is destroyed. -/
theorem unload_holds {m : LibVm} {lib : Lib} (h : Holds ((lib.id, lib.Opened) :: m.holders) m.trace m.next) :
    Holds (m.unload lib).holders (m.unload lib).trace (m.unload lib).next := by
  unfold LibVm.unload
  cases hh : lib.handle with
  | none =>
    have := h.drop (ev := []) (fun _ he => nomatch he) (fun t ht => by
      unfold Lib.Opened at ht; rw [hh] at ht; subst ht; exact .inl .nothing)
    rwa [List.append_nil] at this
  | some hd =>
    cases hu : lib.hasUnload with
    | true =>
      simp only [if_true]
      exact h.change (Q := fun tr => Life lib.id (tr ++ [.closed lib.id hd]))
        (by intro e he; cases List.mem_singleton.1 he; rfl) (fun t ht => opened_life hh ht (.inr rfl))
    | false =>
      simp only [Bool.false_eq_true, if_false]
      refine h.drop (by intro e he; cases List.mem_singleton.1 he; rfl) (fun t ht => .inl ?_)
      have := opened_life hh ht (.inl rfl)
      rwa [List.append_nil] at this

theorem insert_holds {m m' : LibVm} {rpath : Str} {lib : Lib}
    (h : Holds ((lib.id, lib.Opened) :: m.holders) m.trace m.next) (hi : m.insert rpath lib = .ok m') :
    Holds m'.holders m'.trace m'.next := by
  unfold LibVm.insert at hi
  by_cases he : m.ending = true
  · rw [if_pos he] at hi; cases hi
  · rw [if_neg he] at hi
    split at hi
    · cases hi; exact unload_holds h
    · cases hi; exact h.perm List.perm_middle.symm

theorem filter_perm_find {l : List (Str × Lib)} {rpath : Str} {x : Str × Lib} (hk : (l.map (·.1)).Nodup)
    (h : l.find? (·.1 == rpath) = some x) : l.Perm (x :: l.filter (fun y => y.1 != rpath)) := by
  induction l with
  | nil => cases h
  | cons y l ih =>
    rw [List.map_cons, List.nodup_cons] at hk
    rw [List.find?_cons] at h
    by_cases hy : y.1 = rpath
    · have h1 : (y.1 == rpath) = true := beq_iff_eq.2 hy
      rw [h1] at h; cases h
      have h2 : l.filter (fun y => y.1 != rpath) = l :=
        List.filter_eq_self.2 fun z hz => by
          simp only [bne_iff_ne]
          exact fun he => hk.1 (hy ▸ he ▸ List.mem_map_of_mem hz)
      rw [List.filter_cons_of_neg (by simp [hy]), h2]
    · have h1 : (y.1 == rpath) = false := beq_eq_false_iff_ne.2 hy
      rw [h1] at h
      rw [List.filter_cons_of_pos (by simp [hy])]
      exact ((ih hk.2 h).cons y).trans (List.Perm.swap ..)

/-- What holds at every moment. -/
structure LibVm.Inv (m : LibVm) : Prop where
  holds : Holds m.holders m.trace m.next
  keys : (m.libs.map (·.1)).Nodup

theorem unload_libs (m : LibVm) (lib : Lib) : (m.unload lib).libs = m.libs := by
  unfold LibVm.unload
  cases lib.handle with
  | none => rfl
  | some h => cases lib.hasUnload <;> rfl

theorem insert_keys {m m' : LibVm} {rpath : Str} {lib : Lib} (hk : (m.libs.map (·.1)).Nodup)
    (hi : m.insert rpath lib = .ok m') : (m'.libs.map (·.1)).Nodup := by
  unfold LibVm.insert at hi
  by_cases he : m.ending = true
  · rw [if_pos he] at hi; cases hi
  · rw [if_neg he] at hi
    split at hi
    · cases hi; rw [unload_libs]; exact hk
    · rename_i hn
      cases hi
      show ((rpath, lib) :: m.libs).map _ |>.Nodup
      rw [List.map_cons, List.nodup_cons]
      refine ⟨fun hm => hn ?_, hk⟩
      obtain ⟨x, hx, he⟩ := List.mem_map.1 hm
      exact List.any_eq_true.2 ⟨x, hx, beq_iff_eq.2 he⟩

theorem remove_inv {m m' : LibVm} {rpath : Str} (h : m.Inv) (hr : m.remove rpath = .ok m') : m'.Inv := by
  unfold LibVm.remove at hr
  by_cases he : m.ending = true
  · rw [if_pos he] at hr; cases hr
  · rw [if_neg he] at hr
    cases hf : m.libs.find? (·.1 == rpath) with
    | none => rw [hf] at hr; cases hr; exact h
    | some x =>
      rw [hf] at hr; cases hr
      refine ⟨unload_holds (h.holds.perm ?_), ?_⟩
      · show (m.stack.flatMap LibFrame.holders ++ m.libs.map _).Perm (_ :: (m.stack.flatMap _ ++ _))
        exact (((filter_perm_find h.keys hf).map _).append_left _).trans List.perm_middle
      · rw [unload_libs]
        exact h.keys.sublist (List.filter_sublist.map _)

theorem exec_inv {depth : Nat} {m m' : LibVm} {c : LibCall} (h : m.Inv) (hc : c.exec depth m = .ok m') :
    m'.Inv := by
  cases c with
  | attach rpath first second hasLoad load loadThrows hasUnload unload =>
    simp only [LibCall.exec] at hc
    cases ho : libOpen rpath first second with
    | none =>
      rw [ho] at hc
      refine ⟨insert_holds (m := { m with next := m.next + 1 }) ?_ hc,
        insert_keys (m := { m with next := m.next + 1 }) h.keys hc⟩
      have := h.holds.add (P := (⟨m.next, none, [], hasUnload, unload⟩ : Lib).Opened) (ev := [])
        (fun _ he => nomatch he) rfl
      rwa [List.append_nil] at this
    | some x =>
      obtain ⟨hd, path⟩ := x
      rw [ho] at hc
      cases hasLoad with
      | true =>
        simp only [if_true] at hc
        cases hc
        refine ⟨?_, h.keys⟩
        exact h.holds.add (P := (⟨m.next, some hd, path, hasUnload, unload⟩ : Lib).Loaded)
          (by intro e he; rcases List.mem_cons.1 he with rfl | he
              · rfl
              · cases List.mem_singleton.1 he; rfl) ⟨hd, rfl, rfl⟩
      | false =>
        simp only [Bool.false_eq_true, if_false] at hc
        refine ⟨insert_holds (m := { m with next := m.next + 1, trace := m.trace ++ [.opened m.next hd] }) ?_ hc,
          insert_keys (m := { m with next := m.next + 1, trace := m.trace ++ [.opened m.next hd] }) h.keys hc⟩
        exact h.holds.add (P := (⟨m.next, some hd, path, hasUnload, unload⟩ : Lib).Opened)
          (by intro e he; cases List.mem_singleton.1 he; rfl) (.inl rfl)
  | remove rpath => exact remove_inv h hc
  | look l =>
    simp only [LibCall.exec] at hc
    cases he : m.env with
    | none => rw [he] at hc; cases hc; exact h
    | some t =>
      rw [he] at hc
      obtain ⟨⟨w, r⟩, _, hc⟩ := Res.bind_eq_ok.1 hc
      cases hc; exact ⟨h.holds, h.keys⟩
  | attachThread =>
    simp only [LibCall.exec] at hc
    cases he : m.env with
    | none => rw [he] at hc; cases hc; exact ⟨h.holds, h.keys⟩
    | some t => rw [he] at hc; cases hc; exact h
  | detachThread => cases hc; exact ⟨h.holds, h.keys⟩

theorem libstep_inv {depth : Nat} {m m' : LibVm} (h : m.Inv) (hs : m.step depth = .ok m') : m'.Inv := by
  unfold LibVm.step at hs
  have hh := h.holds
  unfold LibVm.holders at hh
  match hm : m.stack, hs with
  | [], hs => cases hs; exact h
  | .calls [] :: s, hs => cases hs; rw [hm] at hh; exact ⟨hh, h.keys⟩
  | .calls (c :: l) :: s, hs =>
    rw [hm] at hh
    exact exec_inv (m := { m with stack := .calls l :: s }) ⟨hh, h.keys⟩ hs
  | .loading rpath lib throws :: s, hs =>
    rw [hm] at hh
    cases throws with
    | true =>
      simp only [if_true] at hs
      cases hs
      refine ⟨Holds.drop hh (by intro e he; cases List.mem_singleton.1 he; rfl) ?_, h.keys⟩
      rintro t ⟨hd, _, rfl⟩
      exact .inr ⟨hd, _, rfl⟩
    | false =>
      simp only [Bool.false_eq_true, if_false] at hs
      refine ⟨insert_holds (m := { m with stack := s }) ?_ hs,
        insert_keys (m := { m with stack := s }) h.keys hs⟩
      have := Holds.change (Q := lib.Opened) (ev := []) hh (fun _ he => nomatch he) (by
        rintro t ⟨hd, hhd, rfl⟩
        unfold Lib.Opened
        rw [hhd]; exact .inr rfl)
      rwa [List.append_nil] at this
  | .closing id hd :: s, hs =>
    rw [hm] at hh
    cases hs
    exact ⟨Holds.drop hh (by intro e he; cases List.mem_singleton.1 he; rfl) (fun t ht => .inl ht), h.keys⟩
  | .ending [] :: s, hs => cases hs; rw [hm] at hh; exact ⟨hh, h.keys⟩
  | .ending (lib :: rest) :: s, hs =>
    rw [hm] at hh
    cases hs
    exact ⟨unload_holds (m := { m with stack := .ending rest :: s }) hh, by rw [unload_libs]; exact h.keys⟩

theorem librun_inv {depth : Nat} (n : Nat) : ∀ {m m' : LibVm}, m.Inv → m.run depth n = .ok m' → m'.Inv := by
  induction n with
  | zero => intro m m' h hr; cases hr; exact h
  | succ n ih =>
    intro m m' h hr
    obtain ⟨m1, h1, h2⟩ := Res.bind_eq_ok.1 (show (m.step depth).bind _ = _ from hr)
    exact ih (libstep_inv h h1) h2

theorem start_inv (deny : Option Deny) (w : World) (calls : List LibCall) : (LibVm.start deny w calls).Inv :=
  ⟨⟨List.nodup_nil, fun _ h => (nomatch h), fun _ h => (nomatch h), fun _ _ => .inl .nothing, fun _ _ => rfl⟩,
    List.nodup_nil⟩

theorem finish_inv {m : LibVm} {order : List Lib} (h : m.Inv) (hs : m.stack = [])
    (hp : order.Perm (m.libs.map (·.2))) : (m.finish order).Inv := by
  refine ⟨h.holds.perm ?_, List.nodup_nil⟩
  have h1 : m.holders = (m.libs.map (·.2)).map fun i => (i.id, i.Opened) := by
    unfold LibVm.holders; rw [hs, List.map_map]; rfl
  have h2 : (m.finish order).holders = order.map fun i => (i.id, i.Opened) := by
    simp [LibVm.holders, LibVm.finish, LibFrame.holders]
  rw [h1, h2]
  exact (hp.map _).symm

theorem unload_ending (m : LibVm) (lib : Lib) : (m.unload lib).ending = m.ending := by
  unfold LibVm.unload
  cases lib.handle with
  | none => rfl
  | some h => cases lib.hasUnload <;> rfl

theorem insert_ending {m m' : LibVm} {rpath : Str} {lib : Lib} (he : m.ending = true) :
    m.insert rpath lib ≠ .ok m' := by
  unfold LibVm.insert; rw [if_pos he]; exact fun h => nomatch h

theorem libstep_ending {depth : Nat} {m m' : LibVm} (he : m.ending = true) (hl : m.libs = [])
    (h : m.step depth = .ok m') : m'.ending = true ∧ m'.libs = [] := by
  unfold LibVm.step at h
  match hm : m.stack, h with
  | [], h => cases h; exact ⟨he, hl⟩
  | .calls [] :: s, h => cases h; exact ⟨he, hl⟩
  | .calls (c :: l) :: s, h =>
    cases c with
    | attach rpath first second hasLoad load loadThrows hasUnload unload =>
      simp only [LibCall.exec] at h
      cases ho : libOpen rpath first second with
      | none => rw [ho] at h; exact absurd h (insert_ending (m := { m with stack := .calls l :: s, next := m.next + 1 }) he)
      | some x =>
        obtain ⟨hd, path⟩ := x
        rw [ho] at h
        cases hasLoad with
        | true => simp only [if_true] at h; cases h; exact ⟨he, hl⟩
        | false =>
          simp only [Bool.false_eq_true, if_false] at h
          exact absurd h (insert_ending (m := { m with stack := .calls l :: s, next := m.next + 1, trace := _ }) he)
    | remove rpath =>
      simp only [LibCall.exec, LibVm.remove, he, if_true] at h
      cases h
    | look x =>
      simp only [LibCall.exec] at h
      cases hv : m.env with
      | none => rw [hv] at h; cases h; exact ⟨he, hl⟩
      | some t =>
        rw [hv] at h
        obtain ⟨⟨w, r⟩, _, h⟩ := Res.bind_eq_ok.1 h
        cases h; exact ⟨he, hl⟩
    | attachThread =>
      simp only [LibCall.exec] at h
      cases hv : m.env with
      | none => rw [hv] at h; cases h; exact ⟨he, hl⟩
      | some t => rw [hv] at h; cases h; exact ⟨he, hl⟩
    | detachThread => cases h; exact ⟨he, hl⟩
  | .loading rpath lib throws :: s, h =>
    cases throws with
    | true => simp only [if_true] at h; cases h; exact ⟨he, hl⟩
    | false =>
      simp only [Bool.false_eq_true, if_false] at h
      exact absurd h (insert_ending (m := { m with stack := s }) he)
  | .closing id hd :: s, h => cases h; exact ⟨he, hl⟩
  | .ending [] :: s, h => cases h; exact ⟨he, hl⟩
  | .ending (lib :: rest) :: s, h =>
    cases h
    exact ⟨by rw [unload_ending]; exact he, by rw [unload_libs]; exact hl⟩

/-- A lookup that makes nothing up changes nothing. -/
theorem plain_world {depth : Nat} {w w' : World} (hr : MemReachable w) {l : Look} {r : Option Nat}
    (h : l.plain depth true w = .ok (w', r)) : w' = w := by
  cases l with
  | findClass name =>
    simp only [Look.plain, findClass_find hr.inv.reg] at h
    cases h; rfl
  | methodID isStatic cl name sig =>
    simp only [Look.plain, World.getMethodID] at h
    cases cl with
    | none => simp only [if_true] at h; cases h; rfl
    | some c =>
      simp only at h
      cases hc : w.reg.cls[c]? with
      | none => rw [hc] at h; cases h
      | some cls =>
        rw [hc] at h
        have key : ∀ k : MethodKey, w.methodOf depth true c k = .ok (w', r) → w' = w := by
          intro k h
          unfold World.methodOf at h
          obtain ⟨x, _, h⟩ := Res.bind_eq_ok.1 h
          cases x with
          | some id => cases h; rfl
          | none => simp only [if_true] at h; cases h; rfl
        simp only at h
        split at h
        · exact key _ h
        · exact key _ h
  | fieldID isStatic cl name type =>
    simp only [Look.plain, World.getFieldID] at h
    cases cl with
    | none => cases h
    | some c =>
      simp only at h
      cases hc : w.reg.cls[c]? with
      | none => rw [hc] at h; cases h
      | some cls =>
        rw [hc] at h
        obtain ⟨x, _, h⟩ := Res.bind_eq_ok.1 h
        cases x with
        | some id => cases h; rfl
        | none => simp only [if_true] at h; cases h; rfl

end Jnivm
