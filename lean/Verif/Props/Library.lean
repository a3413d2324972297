import Verif.Spec.Library
/-! C46: libraries are loaded and unloaded in balance. -/
namespace Jnivm
open Spec

/-- What happened for an object in the map. -/
def LibOpened (i : LibInst) (tr : List LibEvent) : Prop :=
  match i.handle with
  | none => tr = []
  | some h => tr = [.opened i.id h] ∨ tr = [.opened i.id h, .onLoad i.id (loadSymbol i.path)]

structure LibInv (s : LibState) (busy : Nat → Prop) : Prop where
  lt : ∀ x ∈ s.libs, x.2.id < s.next
  ids : (s.libs.map (·.2.id)).Nodup
  keys : (s.libs.map (·.1)).Nodup
  nb : ∀ x ∈ s.libs, ¬ busy x.2.id
  busyLt : ∀ i, busy i → i < s.next
  opened : ∀ x ∈ s.libs, LibOpened x.2 (eventsOf x.2.id s.trace)
  fin : ∀ i, (∀ x ∈ s.libs, x.2.id ≠ i) → ¬ busy i →
    Life i (eventsOf i s.trace) ∨ Leak i (eventsOf i s.trace)
  new : ∀ i, s.next ≤ i → eventsOf i s.trace = []

theorem symbols_pair (path : Str) : SymbolPair (loadSymbol path) (unloadSymbol path) := by
  unfold loadSymbol unloadSymbol
  by_cases h : path = []
  · simp only [if_pos h]; exact .inl ⟨rfl, rfl⟩
  · simp only [if_neg h]; exact .inr ⟨path, h, rfl, rfl⟩

/-- What a destructor adds. -/
def LibInst.last (i : LibInst) : List LibEvent :=
  match i.handle with
  | none => []
  | some h => (if i.hasUnload then [.onUnload i.id (unloadSymbol i.path)] else []) ++ [.closed i.id h]

theorem unload_eq (s : LibState) (i : LibInst) : s.unload i = { s with trace := s.trace ++ i.last } := by
  unfold LibState.unload LibInst.last
  cases i.handle with
  | none => simp only [List.append_nil]
  | some h => rfl

theorem last_id (i : LibInst) : ∀ e ∈ i.last, eventId e = i.id := by
  intro e he
  unfold LibInst.last at he
  cases hh : i.handle with
  | none => rw [hh] at he; cases he
  | some h =>
    rw [hh] at he
    cases hu : i.hasUnload <;> simp [hu] at he
    · subst he; rfl
    · rcases he with rfl | rfl <;> rfl

theorem events_append (i : Nat) (a b : List LibEvent) : eventsOf i (a ++ b) = eventsOf i a ++ eventsOf i b :=
  List.filter_append ..

theorem events_own {i : Nat} {l : List LibEvent} (h : ∀ e ∈ l, eventId e = i) : eventsOf i l = l :=
  List.filter_eq_self.2 fun e he => beq_iff_eq.2 (h e he)

theorem events_other {i j : Nat} {l : List LibEvent} (h : ∀ e ∈ l, eventId e = i) (hij : j ≠ i) :
    eventsOf j l = [] :=
  List.filter_eq_nil_iff.2 fun e he => by rw [h e he, beq_iff_eq]; exact fun h => hij h.symm

theorem life_of_opened {i : LibInst} {tr : List LibEvent} (h : LibOpened i tr) : Life i.id (tr ++ i.last) := by
  unfold LibOpened at h
  unfold LibInst.last
  cases hh : i.handle with
  | none => rw [hh] at h; simp only at h; rw [h]; exact .nothing
  | some x =>
    rw [hh] at h
    simp only at h
    have hu : (if i.hasUnload then [LibEvent.onUnload i.id (unloadSymbol i.path)] else []) = [] ∨
        (if i.hasUnload then [LibEvent.onUnload i.id (unloadSymbol i.path)] else []) =
          [.onUnload i.id (unloadSymbol i.path)] := by
      cases i.hasUnload
      · exact .inl rfl
      · exact .inr rfl
    rcases h with rfl | rfl
    · exact .balanced x [] _ (symbols_pair i.path) (.inl rfl) hu
    · exact .balanced x [_] _ (symbols_pair i.path) (.inr rfl) hu

/-- Destroying an object that is not in the map. -/
theorem LibInv.unload {s : LibState} {busy : Nat → Prop} {i : LibInst}
    (h : LibInv s (fun j => busy j ∨ j = i.id)) (ho : LibOpened i (eventsOf i.id s.trace)) (hb : ¬ busy i.id) :
    LibInv (s.unload i) busy ∧ ∀ j, busy j → eventsOf j (s.unload i).trace = eventsOf j s.trace := by
  have hother : ∀ j, j ≠ i.id → eventsOf j (s.unload i).trace = eventsOf j s.trace := by
    intro j hj
    rw [unload_eq]
    show eventsOf j (s.trace ++ i.last) = _
    rw [events_append, events_other (last_id i) hj, List.append_nil]
  have hown : eventsOf i.id (s.unload i).trace = eventsOf i.id s.trace ++ i.last := by
    rw [unload_eq]
    show eventsOf i.id (s.trace ++ i.last) = _
    rw [events_append, events_own (last_id i)]
  have hlibs : (s.unload i).libs = s.libs := by rw [unload_eq]
  have hnext : (s.unload i).next = s.next := by rw [unload_eq]
  have hne : ∀ x ∈ s.libs, x.2.id ≠ i.id := fun x hx he => h.nb x hx (.inr he)
  refine ⟨⟨?_, ?_, ?_, ?_, ?_, ?_, ?_, ?_⟩, fun j hj => hother j fun he => hb (he ▸ hj)⟩
  · rw [hlibs, hnext]; exact h.lt
  · rw [hlibs]; exact h.ids
  · rw [hlibs]; exact h.keys
  · rw [hlibs]; exact fun x hx hbx => h.nb x hx (.inl hbx)
  · rw [hnext]; exact fun j hj => h.busyLt j (.inl hj)
  · rw [hlibs]; intro x hx; rw [hother _ (hne x hx)]; exact h.opened x hx
  · rw [hlibs]
    intro j hj hjb
    by_cases he : j = i.id
    · subst he; rw [hown]; exact .inl (life_of_opened ho)
    · rw [hother j he]; exact h.fin j hj fun hor => hor.elim hjb he
  · rw [hnext]
    intro j hj
    have : i.id < s.next := h.busyLt i.id (.inr rfl)
    rw [hother j (by omega)]; exact h.new j hj

theorem LibInv.insert {s : LibState} {busy : Nat → Prop} {i : LibInst} (rpath : Str)
    (h : LibInv s (fun j => busy j ∨ j = i.id)) (ho : LibOpened i (eventsOf i.id s.trace)) (hb : ¬ busy i.id) :
    LibInv (s.insert rpath i) busy ∧ (s.insert rpath i).next = s.next ∧
    ∀ j, busy j → eventsOf j (s.insert rpath i).trace = eventsOf j s.trace := by
  unfold LibState.insert
  cases hk : s.libs.any (·.1 == rpath) with
  | true =>
    rw [if_pos rfl]
    exact ⟨(h.unload ho hb).1, by rw [unload_eq], (h.unload ho hb).2⟩
  | false =>
    rw [if_neg (by simp)]
    refine ⟨⟨?_, ?_, ?_, ?_, ?_, ?_, ?_, h.new⟩, rfl, fun _ _ => rfl⟩
    · intro x hx
      rcases List.mem_cons.1 hx with rfl | hx
      · exact h.busyLt _ (.inr rfl)
      · exact h.lt x hx
    · refine List.nodup_cons.2 ⟨fun hm => ?_, h.ids⟩
      obtain ⟨x, hx, he⟩ := List.mem_map.1 hm
      exact h.nb x hx (.inr he)
    · refine List.nodup_cons.2 ⟨fun hm => ?_, h.keys⟩
      obtain ⟨x, hx, he⟩ := List.mem_map.1 hm
      have := List.any_eq_false.1 hk x hx
      exact this (beq_iff_eq.2 he)
    · intro x hx
      rcases List.mem_cons.1 hx with rfl | hx
      · exact hb
      · exact fun hbx => h.nb x hx (.inl hbx)
    · exact fun j hj => h.busyLt j (.inl hj)
    · intro x hx
      rcases List.mem_cons.1 hx with rfl | hx
      · exact ho
      · exact h.opened x hx
    · intro j hj hjb
      exact h.fin j (fun x hx => hj x (List.mem_cons_of_mem _ hx))
        (fun hor => hor.elim hjb fun he => hj (rpath, i) (List.mem_cons_self ..) he.symm)

theorem nodup_map_inj {α β : Type} {f : α → β} {l : List α} (h : (l.map f).Nodup) {x y : α} (hx : x ∈ l)
    (hy : y ∈ l) (he : f x = f y) : x = y := by
  induction l with
  | nil => cases hx
  | cons a l ih =>
    rw [List.map_cons, List.nodup_cons] at h
    rcases List.mem_cons.1 hx with hxa | hx' <;> rcases List.mem_cons.1 hy with hya | hy'
    · rw [hxa, hya]
    · exact absurd (by rw [← hxa, he]; exact List.mem_map_of_mem hy') h.1
    · exact absurd (by rw [← hya, ← he]; exact List.mem_map_of_mem hx') h.1
    · exact ih h.2 hx' hy'

theorem LibInv.remove {s : LibState} {busy : Nat → Prop} (h : LibInv s busy) (rpath : Str) :
    LibInv (s.remove rpath) busy ∧ (s.remove rpath).next = s.next ∧
    ∀ j, busy j → eventsOf j (s.remove rpath).trace = eventsOf j s.trace := by
  unfold LibState.remove
  cases hf : s.libs.find? (·.1 == rpath) with
  | none => exact ⟨h, rfl, fun _ _ => rfl⟩
  | some x =>
    have hx : x ∈ s.libs := List.mem_of_find?_eq_some hf
    have hxr : x.1 = rpath := by simpa using List.find?_some hf
    have hmem : ∀ y, y ∈ s.libs.filter (fun y => y.1 != rpath) ↔ y ∈ s.libs ∧ y.1 ≠ rpath := by
      intro y; simp [List.mem_filter]
    have hsub : List.Sublist (s.libs.filter (fun y => y.1 != rpath)) s.libs := List.filter_sublist
    have h1 : LibInv ({ s with libs := s.libs.filter (fun y => y.1 != rpath) })
        (fun j => busy j ∨ j = x.2.id) := by
      refine ⟨fun y hy => h.lt y ((hmem y).1 hy).1, (hsub.map _).nodup h.ids, (hsub.map _).nodup h.keys,
        ?_, ?_, fun y hy => h.opened y ((hmem y).1 hy).1, ?_, h.new⟩
      · intro y hy hor
        obtain ⟨hy1, hy2⟩ := (hmem y).1 hy
        rcases hor with hor | hor
        · exact h.nb y hy1 hor
        · exact hy2 (nodup_map_inj h.ids hy1 hx hor ▸ hxr)
      · intro j hj
        rcases hj with hj | rfl
        · exact h.busyLt j hj
        · exact h.lt x hx
      · intro j hj hjb
        refine h.fin j (fun y hy he => ?_) (fun hb => hjb (.inl hb))
        by_cases hyr : y.1 = rpath
        · have : y = x := nodup_map_inj h.keys hy hx (hyr.trans hxr.symm)
          exact hjb (.inr (by rw [← he, this]))
        · exact hj y ((hmem y).2 ⟨hy, hyr⟩) he
    have h2 := h1.unload (h.opened x hx) (h.nb x hx)
    exact ⟨h2.1, by simp only [unload_eq], h2.2⟩

/-- A new object before its constructor is done. -/
theorem LibInv.fresh {s : LibState} {busy : Nat → Prop} (h : LibInv s busy) (ev : List LibEvent)
    (hev : ∀ e ∈ ev, eventId e = s.next) :
    LibInv { s with next := s.next + 1, trace := s.trace ++ ev } (fun j => busy j ∨ j = s.next) ∧
    eventsOf s.next (s.trace ++ ev) = ev ∧
    ∀ j, busy j → eventsOf j (s.trace ++ ev) = eventsOf j s.trace := by
  have hother : ∀ j, j ≠ s.next → eventsOf j (s.trace ++ ev) = eventsOf j s.trace := by
    intro j hj
    rw [events_append, events_other hev hj, List.append_nil]
  refine ⟨⟨fun x hx => Nat.lt_succ_of_lt (h.lt x hx), h.ids, h.keys, ?_, ?_, ?_, ?_, ?_⟩, ?_, ?_⟩
  · intro x hx hor
    exact hor.elim (h.nb x hx) (Nat.ne_of_lt (h.lt x hx))
  · intro j hj
    rcases hj with hj | rfl
    · exact Nat.lt_succ_of_lt (h.busyLt j hj)
    · exact Nat.lt_succ_self _
  · intro x hx
    show LibOpened _ (eventsOf _ (s.trace ++ ev))
    rw [hother _ (Nat.ne_of_lt (h.lt x hx))]; exact h.opened x hx
  · intro j hj hjb
    show Life j (eventsOf j (s.trace ++ ev)) ∨ Leak j (eventsOf j (s.trace ++ ev))
    rw [hother j fun he => hjb (.inr he)]
    exact h.fin j hj fun hb => hjb (.inl hb)
  · intro j hj
    have : s.next + 1 ≤ j := hj
    show eventsOf j (s.trace ++ ev) = []
    rw [hother j (by omega)]; exact h.new j (by omega)
  · rw [events_append, events_own hev, h.new _ (Nat.le_refl _), List.nil_append]
  · exact fun j hj => hother j (Nat.ne_of_lt (h.busyLt j hj))

/-- The constructor threw. -/
theorem LibInv.throw {s : LibState} {busy : Nat → Prop} {i h0 : Nat} {sym : Str}
    (h : LibInv s (fun j => busy j ∨ j = i)) (ho : eventsOf i s.trace = [.opened i h0, .onLoad i sym])
    (hb : ¬ busy i) : LibInv { s with trace := s.trace ++ [.threw i] } busy ∧
    ∀ j, busy j → eventsOf j (s.trace ++ [.threw i]) = eventsOf j s.trace := by
  have hev : ∀ e ∈ [LibEvent.threw i], eventId e = i := by
    intro e he; cases List.mem_singleton.1 he; rfl
  have hother : ∀ j, j ≠ i → eventsOf j (s.trace ++ [.threw i]) = eventsOf j s.trace := by
    intro j hj
    rw [events_append, events_other hev hj, List.append_nil]
  have hown : eventsOf i (s.trace ++ [.threw i]) = [.opened i h0, .onLoad i sym, .threw i] := by
    rw [events_append, events_own hev, ho]; rfl
  refine ⟨⟨h.lt, h.ids, h.keys, fun x hx hbx => h.nb x hx (.inl hbx), fun j hj => h.busyLt j (.inl hj), ?_, ?_,
    ?_⟩, fun j hj => hother j fun he => hb (he ▸ hj)⟩
  · intro x hx
    show LibOpened _ (eventsOf _ (s.trace ++ _))
    rw [hother _ fun he => h.nb x hx (.inr he)]; exact h.opened x hx
  · intro j hj hjb
    show Life j (eventsOf j (s.trace ++ _)) ∨ Leak j (eventsOf j (s.trace ++ _))
    by_cases he : j = i
    · subst he; exact .inr ⟨h0, sym, hown⟩
    · rw [hother j he]; exact h.fin j hj fun hor => hor.elim hjb he
  · intro j hj
    have := h.busyLt i (.inr rfl)
    have hj' : s.next ≤ j := hj
    show eventsOf j (s.trace ++ _) = []
    rw [hother j (by omega)]; exact h.new j hj

mutual
theorem lib_step_inv (op : LibOp) : ∀ {s : LibState} {busy : Nat → Prop}, LibInv s busy →
    LibInv (s.step op) busy ∧ s.next ≤ (s.step op).next ∧
    ∀ j, busy j → eventsOf j (s.step op).trace = eventsOf j s.trace := by
  intro s busy h
  match op with
  | .remove rpath =>
    unfold LibState.step
    exact ⟨(h.remove rpath).1, Nat.le_of_eq (h.remove rpath).2.1.symm, (h.remove rpath).2.2⟩
  | .attach rpath first second hasLoad inner loadThrows hasUnload =>
    unfold LibState.step
    have hnb : ¬ busy s.next := fun hb => Nat.lt_irrefl _ (h.busyLt _ hb)
    cases libOpen rpath first second with
    | none =>
      obtain ⟨h1, h2, h3⟩ := h.fresh [] (fun _ he => nomatch he)
      rw [List.append_nil] at h1 h2
      obtain ⟨h4, h5, h6⟩ := h1.insert (i := ⟨s.next, none, [], hasUnload⟩) rpath h2 hnb
      exact ⟨h4, by rw [h5]; exact Nat.le_succ _, h6⟩
    | some hp =>
      obtain ⟨hd, path⟩ := hp
      cases hasLoad with
      | false =>
        simp only [Bool.false_eq_true, if_false]
        obtain ⟨h1, h2, h3⟩ := h.fresh [.opened s.next hd]
          (fun e he => by cases List.mem_singleton.1 he; rfl)
        obtain ⟨h4, h5, h6⟩ := h1.insert (i := ⟨s.next, some hd, path, hasUnload⟩) rpath (.inl h2) hnb
        exact ⟨h4, by rw [h5]; exact Nat.le_succ _, fun j hj => (h6 j hj).trans (h3 j hj)⟩
      | true =>
        simp only [if_true]
        obtain ⟨h1, h2, h3⟩ := h.fresh [.opened s.next hd, .onLoad s.next (loadSymbol path)]
          (fun e he => by
            rcases List.mem_cons.1 he with rfl | he
            · rfl
            · cases List.mem_singleton.1 he; rfl)
        have e1 : s.trace ++ [LibEvent.opened s.next hd, .onLoad s.next (loadSymbol path)] =
            s.trace ++ [.opened s.next hd] ++ [.onLoad s.next (loadSymbol path)] := by
          rw [List.append_assoc]; rfl
        rw [e1] at h1 h2 h3
        obtain ⟨h4, h5, h6⟩ := lib_run_inv inner h1
        have h7 := (h6 s.next (.inr rfl)).trans h2
        have h8 : ∀ j, busy j → _ = _ := fun j hj => (h6 j (.inl hj)).trans (h3 j hj)
        have hle := Nat.le_trans (Nat.le_succ _) h5
        cases loadThrows with
        | true =>
          simp only [if_true]
          obtain ⟨h9, h10⟩ := h4.throw h7 hnb
          exact ⟨h9, hle, fun j hj => (h10 j hj).trans (h8 j hj)⟩
        | false =>
          simp only [Bool.false_eq_true, if_false]
          obtain ⟨h9, h10, h11⟩ := h4.insert (i := ⟨s.next, some hd, path, hasUnload⟩) rpath (.inr h7) hnb
          exact ⟨h9, by rw [h10]; exact hle, fun j hj => (h11 j hj).trans (h8 j hj)⟩
theorem lib_run_inv (ops : List LibOp) : ∀ {s : LibState} {busy : Nat → Prop}, LibInv s busy →
    LibInv (s.run ops) busy ∧ s.next ≤ (s.run ops).next ∧
    ∀ j, busy j → eventsOf j (s.run ops).trace = eventsOf j s.trace := by
  intro s busy h
  match ops with
  | [] => unfold LibState.run; exact ⟨h, Nat.le_refl _, fun _ _ => rfl⟩
  | op :: ops =>
    unfold LibState.run
    obtain ⟨h1, h2, h3⟩ := lib_step_inv op h
    obtain ⟨h4, h5, h6⟩ := lib_run_inv ops h1
    exact ⟨h4, Nat.le_trans h2 h5, fun j hj => (h6 j hj).trans (h3 j hj)⟩
end

theorem lib_initial_inv : LibInv .initial (fun _ => False) where
  lt := fun _ h => nomatch h
  ids := List.nodup_nil
  keys := List.nodup_nil
  nb := fun _ h => nomatch h
  busyLt := fun _ h => h.elim
  opened := fun _ h => nomatch h
  fin := fun _ _ _ => .inl .nothing
  new := fun _ _ => rfl

theorem destroy_inv (order : List LibInst) : ∀ {s : LibState}, s.libs = [] →
    LibInv s (fun j => j ∈ order.map (·.id)) → (order.map (·.id)).Nodup →
    (∀ i ∈ order, LibOpened i (eventsOf i.id s.trace)) →
    (order.foldl LibState.unload s).libs = [] ∧ LibInv (order.foldl LibState.unload s) (fun _ => False) := by
  induction order with
  | nil => intro s hs h _ _; exact ⟨hs, by simpa using h⟩
  | cons i order ih =>
    intro s hs h hn ho
    rw [List.map_cons, List.nodup_cons] at hn
    have h1 : LibInv s (fun j => j ∈ order.map (·.id) ∨ j = i.id) := by
      have e : (fun j => j ∈ (i :: order).map (·.id)) = (fun j => j ∈ order.map (·.id) ∨ j = i.id) := by
        funext j; simp only [List.map_cons, List.mem_cons, or_comm]
      rwa [e] at h
    obtain ⟨h2, h3⟩ := h1.unload (ho i (List.mem_cons_self ..)) hn.1
    refine ih (by rw [unload_eq]; exact hs) h2 hn.2 fun i' hi' => ?_
    rw [h3 i'.id (List.mem_map_of_mem hi')]
    exact ho i' (List.mem_cons_of_mem _ hi')

/-! ### The property -/

/-- Whatever was attached and removed, also from within `JNI_OnLoad`, and whatever the loader answered: in
the end every object had a complete life, unless its load function threw an exception; then its library
stays open. -/
theorem libraries_exact (ops : List LibOp) {order : List LibInst}
    (hp : order.Perm ((LibState.initial.run ops).libs.map (·.2))) (i : Nat) :
    Life i (eventsOf i ((LibState.initial.run ops).destroy order).trace) ∨
    Leak i (eventsOf i ((LibState.initial.run ops).destroy order).trace) := by
  have h := (lib_run_inv ops lib_initial_inv).1
  generalize LibState.initial.run ops = s at h hp ⊢
  have hids : (order.map (·.id)).Perm (s.libs.map (·.2.id)) := by
    have := hp.map (·.id); rwa [List.map_map] at this
  have hmem : ∀ j, j ∈ order.map (·.id) ↔ ∃ x ∈ s.libs, x.2.id = j := by
    intro j; rw [hids.mem_iff, List.mem_map]
  have h1 : LibInv { s with libs := [] } (fun j => j ∈ order.map (·.id)) := by
    refine ⟨fun _ h => (nomatch h), List.nodup_nil, List.nodup_nil, fun _ h => (nomatch h), ?_,
      fun _ h => (nomatch h), ?_, h.new⟩
    · intro j hj
      obtain ⟨x, hx, rfl⟩ := (hmem j).1 hj
      exact h.lt x hx
    · intro j _ hj
      exact h.fin j (fun x hx he => hj ((hmem j).2 ⟨x, hx, he⟩)) id
  have h2 := (destroy_inv order rfl h1 (hids.nodup_iff.2 h.ids) fun i hi => by
    obtain ⟨x, hx, rfl⟩ := List.mem_map.1 (hp.mem_iff.1 hi)
    exact h.opened x hx)
  exact h2.2.fin i (by
    intro x hx
    have hx' : x ∈ (order.foldl LibState.unload { s with libs := [] }).libs := hx
    rw [h2.1] at hx'; cases hx') id

theorem mem_events {e : LibEvent} {l : List LibEvent} : e ∈ eventsOf (eventId e) l ↔ e ∈ l := by
  simp [eventsOf, List.mem_filter]

/-- If no load function throws every object has a complete life. -/
theorem libraries_balanced_partial (ops : List LibOp) {order : List LibInst}
    (hp : order.Perm ((LibState.initial.run ops).libs.map (·.2)))
    (hthrow : ∀ i, .threw i ∉ ((LibState.initial.run ops).destroy order).trace) (i : Nat) :
    Life i (eventsOf i ((LibState.initial.run ops).destroy order).trace) := by
  refine (libraries_exact ops hp i).resolve_right ?_
  rintro ⟨h, sym, he⟩
  refine hthrow i (mem_events.1 ?_)
  show LibEvent.threw i ∈ eventsOf i _
  rw [he]; simp

theorem Life.count {i : Nat} {l : List LibEvent} (h : Life i l) (hd : Nat) :
    l.count (.opened i hd) = l.count (.closed i hd) := by
  cases h with
  | nothing => rfl
  | balanced h l u hs hl hu =>
    rcases hl with rfl | rfl <;> rcases hu with rfl | rfl <;>
      (by_cases hh : h = hd <;> simp [hh])

/-- So the loader sees each handle closed as often as it was opened. -/
theorem handles_balanced_partial (ops : List LibOp) {order : List LibInst}
    (hp : order.Perm ((LibState.initial.run ops).libs.map (·.2)))
    (hthrow : ∀ i, .threw i ∉ ((LibState.initial.run ops).destroy order).trace) (i h : Nat) :
    ((LibState.initial.run ops).destroy order).trace.count (.opened i h) =
      ((LibState.initial.run ops).destroy order).trace.count (.closed i h) := by
  have hl := Life.count (libraries_balanced_partial ops hp hthrow i) h
  have key : ∀ (e : LibEvent) (l : List LibEvent), (eventsOf (eventId e) l).count e = l.count e := by
    intro e l
    unfold eventsOf
    rw [List.count_filter (by simp)]
  rw [← key (.opened i h), ← key (.closed i h)]
  exact hl

/-- At every moment a path has one entry at most. -/
theorem library_registered_once (ops : List LibOp) : ((LibState.initial.run ops).libs.map (·.1)).Nodup :=
  (lib_run_inv ops lib_initial_inv).1.keys

/-- While an object is in the map its library is open and its load function has been called, if it has one. -/
theorem library_open (ops : List LibOp) {x : Str × LibInst} (hx : x ∈ (LibState.initial.run ops).libs) :
    match x.2.handle with
    | none => eventsOf x.2.id (LibState.initial.run ops).trace = []
    | some h => eventsOf x.2.id (LibState.initial.run ops).trace = [.opened x.2.id h] ∨
      eventsOf x.2.id (LibState.initial.run ops).trace =
        [.opened x.2.id h, .onLoad x.2.id (loadSymbol x.2.path)] :=
  (lib_run_inv ops lib_initial_inv).1.opened x hx

theorem insert_free {l : List (Str × LibInst)} {rpath : Str} (hf : rpath ∉ l.map (·.1)) (tr : List LibEvent)
    (n : Nat) (i : LibInst) : LibState.insert ⟨l, tr, n⟩ rpath i = ⟨(rpath, i) :: l, tr, n⟩ := by
  unfold LibState.insert
  rw [if_neg]
  intro h
  obtain ⟨x, hx, he⟩ := List.any_eq_true.1 h
  exact hf (List.mem_map.2 ⟨x, hx, beq_iff_eq.1 he⟩)

theorem libOpen_static {rpath : Str} (hs : StaticName rpath) (second : Option Nat) :
    libOpen rpath none second = second.map fun h => (h, rpath) :=
  if_pos ⟨hs.1, fun h => (hs.2 _ h).1 rfl, fun h => (hs.2 _ h).2 rfl⟩

theorem libOpen_other {rpath : Str} (hs : ¬ StaticName rpath) (second : Option Nat) :
    libOpen rpath none second = none := by
  refine if_neg fun h => hs ⟨h.1, fun c hc => ⟨fun he => h.2.1 (he ▸ hc), fun he => h.2.2 (he ▸ hc)⟩⟩

theorem step_attach {s : LibState} {rpath : Str} (hf : rpath ∉ s.libs.map (·.1)) {first second : Option Nat}
    (hasLoad hasUnload : Bool) {h : Nat} {path : Str} (ho : libOpen rpath first second = some (h, path)) :
    s.step (.attach rpath first second hasLoad [] false hasUnload) =
      ⟨(rpath, ⟨s.next, some h, path, hasUnload⟩) :: s.libs,
        s.trace ++ .opened s.next h :: (if hasLoad then [.onLoad s.next (loadSymbol path)] else []),
        s.next + 1⟩ := by
  unfold LibState.step
  rw [ho]
  cases hasLoad with
  | true =>
    simp only [if_true, LibState.run, Bool.false_eq_true, if_false]
    refine (insert_free hf _ _ _).trans ?_
    simp only [List.append_assoc, List.singleton_append]
  | false =>
    simp only [Bool.false_eq_true, if_false]
    exact insert_free hf _ _ _

/-- A path that is not registered: the library found under the path is kept and its `JNI_OnLoad` is called;
otherwise, if the path is a plain name, the program itself with `JNI_OnLoad_name`; otherwise nothing is
opened, but the path is registered. -/
theorem library_attach {s : LibState} {rpath : Str} (hf : rpath ∉ s.libs.map (·.1)) (second : Option Nat)
    (hasLoad hasUnload : Bool) :
    (∀ h, s.step (.attach rpath (some h) second hasLoad [] false hasUnload) =
      ⟨(rpath, ⟨s.next, some h, [], hasUnload⟩) :: s.libs,
        s.trace ++ .opened s.next h :: (if hasLoad then [.onLoad s.next "JNI_OnLoad".toList] else []),
        s.next + 1⟩) ∧
    (∀ h, StaticName rpath → s.step (.attach rpath none (some h) hasLoad [] false hasUnload) =
      ⟨(rpath, ⟨s.next, some h, rpath, hasUnload⟩) :: s.libs,
        s.trace ++ .opened s.next h ::
          (if hasLoad then [.onLoad s.next ("JNI_OnLoad_".toList ++ rpath)] else []),
        s.next + 1⟩) ∧
    (second = none ∨ ¬ StaticName rpath → s.step (.attach rpath none second hasLoad [] false hasUnload) =
      ⟨(rpath, ⟨s.next, none, [], hasUnload⟩) :: s.libs, s.trace, s.next + 1⟩) := by
  refine ⟨fun h => step_attach hf hasLoad hasUnload rfl, fun h hs => ?_, fun h => ?_⟩
  · rw [step_attach hf hasLoad hasUnload (libOpen_static hs (some h))]
    simp only [loadSymbol, if_neg hs.1]
  · have ho : libOpen rpath none second = none := by
      by_cases hs : StaticName rpath
      · rw [libOpen_static hs, h.resolve_right (fun h => h hs)]; rfl
      · exact libOpen_other hs second
    unfold LibState.step
    rw [ho]
    exact insert_free hf _ _ _

example : "libfoo".toList ∉ LibState.initial.libs.map (·.1) ∧ StaticName "libfoo".toList ∧
    ¬ StaticName "./libfoo.so".toList ∧ ¬ StaticName "".toList := by
  refine ⟨by simp [LibState.initial], ⟨by decide, by decide⟩, fun h => ?_, fun h => h.1 rfl⟩
  exact (h.2 '.' (by decide)).2 rfl

/-- After `removeLibrary` the path is free and nothing else changed in the map. -/
theorem library_remove (s : LibState) (rpath : Str) :
    (s.step (.remove rpath)).libs = s.libs.filter (fun x => x.1 != rpath) := by
  unfold LibState.step LibState.remove
  cases hf : s.libs.find? (·.1 == rpath) with
  | none =>
    refine (List.filter_eq_self.2 fun x hx => ?_).symm
    have := List.find?_eq_none.1 hf x hx
    simpa using this
  | some x => simp only [unload_eq]

/-! ### What goes wrong -/

/-- A load function that throws leaves the library open forever. -/
theorem library_leak : ¬ ∀ (ops : List LibOp) (order : List LibInst),
    order.Perm ((LibState.initial.run ops).libs.map (·.2)) →
    ∀ i, Life i (eventsOf i ((LibState.initial.run ops).destroy order).trace) := by
  intro h
  have := Life.count (h [.attach ['a'] (some 7) none true [] true true] [] (.refl _) 0) 7
  revert this
  simp [LibState.run, LibState.step, libOpen, LibState.destroy, LibState.initial, eventsOf, eventId]

/-- A load that failed keeps the path: the next attempt loads the library and unloads it at once. -/
theorem library_after_failure :
    let ops := [LibOp.attach ['.'] none none true [] false true, .attach ['.'] (some 7) none true [] false true]
    (LibState.initial.run ops).libs = [(['.'], ⟨0, none, [], true⟩)] ∧
    (LibState.initial.run ops).trace = [.opened 1 7, .onLoad 1 "JNI_OnLoad".toList,
      .onUnload 1 "JNI_OnUnload".toList, .closed 1 7] := by
  simp [LibState.run, LibState.step, libOpen, LibState.initial, LibState.insert, LibState.unload, loadSymbol,
    unloadSymbol]

/-- Attaching a path twice loads the library again and unloads it at once. -/
theorem library_twice :
    let ops := [LibOp.attach ['a'] (some 7) none true [] false true, .attach ['a'] (some 7) none true [] false true]
    (LibState.initial.run ops).trace = [.opened 0 7, .onLoad 0 "JNI_OnLoad".toList, .opened 1 7,
      .onLoad 1 "JNI_OnLoad".toList, .onUnload 1 "JNI_OnUnload".toList, .closed 1 7] := by
  simp [LibState.run, LibState.step, libOpen, LibState.initial, LibState.insert, LibState.unload, loadSymbol,
    unloadSymbol]

/-- A library whose load function attaches another one and removes it, a statically linked one, a removal. -/
example :
    let ops := [LibOp.attach ['a'] (some 7) none true [.attach ['b'] (some 8) none true [] false true,
      .remove ['b']] false true, .attach ['s'] none (some 9) true [] false false, .remove ['a']]
    (LibState.initial.run ops).libs = [(['s'], ⟨2, some 9, ['s'], false⟩)] ∧
    (∀ i, .threw i ∉ ((LibState.initial.run ops).destroy [⟨2, some 9, ['s'], false⟩]).trace) ∧
    eventsOf 0 (LibState.initial.run ops).trace = [.opened 0 7, .onLoad 0 "JNI_OnLoad".toList,
      .onUnload 0 "JNI_OnUnload".toList, .closed 0 7] := by
  simp [LibState.run, LibState.step, libOpen, LibState.initial, LibState.insert, LibState.unload, loadSymbol,
    unloadSymbol, LibState.remove, LibState.destroy, eventsOf, eventId]

end Jnivm
