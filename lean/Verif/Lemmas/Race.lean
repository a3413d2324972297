import Verif.Spec.Race
/-! Helper lemmas for concurrent lookups. -/
namespace Jnivm
open Spec

theorem fieldKey_hits {k : FieldKey} {f : FieldRec} : k.hits f = true ↔ Spec.FieldKey.Names k f := by
  simp [FieldKey.hits, Spec.FieldKey.Names, and_assoc]

/-- What a lookup of `q` that starts now and meets nobody finds. -/
def Shared.known (inh : Inherited) (s : Shared) (q : Request) : Option Nat := (s.find q).or (inh.find q)

/-- The critical sections. -/
def Pc.holds : Pc → Bool
  | .idle => false
  | .search _ => true
  | .inherit q => q.isField
  | .create q => q.isField

structure RaceInv (inh : Inherited) (s0 s : Shared) : Prop where
  owner : ∀ t, (s.pc t).holds = true ↔ s.lock = some t
  missed : ∀ t k, Missed (s.pc t) (.field k) → s.find (.field k) = none
  orphan : ∀ t q, s.pc t = .create q → inh.find q = none
  fresh : ∀ f ∈ s.fields, f.id < s.next
  old : ∀ k id, inh.field k = some id → id < s.next
  serial : Serial inh.field s0.fields (fieldAnswers s.answers) s.fields

theorem _root_.Spec.Quiet.inv {inh : Inherited} {s : Shared} (h : Quiet inh s) : RaceInv inh s s where
  owner t := by rw [h.pc, h.lock]; simp [Pc.holds]
  missed t k hm := by rcases hm with hm | hm <;> rw [h.pc] at hm <;> exact nomatch hm
  orphan t q hm := by rw [h.pc] at hm; exact nomatch hm
  fresh := h.fresh
  old := h.old
  serial := by rw [h.answers]; exact .nil

/-- The five things a thread can do. -/
inductive Does (inh : Inherited) (s : Shared) (t : Nat) : Shared → Prop where
  | begin (q) : s.pc t = .idle → s.lock = none →
      Does inh s t { (s.setPc t (.search q)) with lock := some t }
  | found (q id) : s.pc t = .search q → s.find q = some id → Does inh s t (s.answer t q id true)
  | miss (q) : s.pc t = .search q → s.find q = none →
      Does inh s t { (s.setPc t (.inherit q)) with lock := if q.isField then s.lock else none }
  | base (q id) : s.pc t = .inherit q → inh.find q = some id → Does inh s t (s.answer t q id q.isField)
  | nobase (q) : s.pc t = .inherit q → inh.find q = none → Does inh s t (s.setPc t (.create q))
  | create (q) : s.pc t = .create q → Does inh s t ((s.append q).answer t q s.next q.isField)

theorem Shared.step_does {inh : Inherited} {s s' : Shared} {t : Nat} {q : Request}
    (h : s.step inh t q = some s') : Does inh s t s' := by
  unfold Shared.step at h
  cases hp : s.pc t with
  | idle =>
    simp only [hp] at h
    by_cases hl : s.lock = none
    · rw [if_pos hl] at h; cases h; exact .begin q hp hl
    · rw [if_neg hl] at h; exact nomatch h
  | search q' =>
    simp only [hp] at h
    cases hf : s.find q' with
    | some id => simp only [hf] at h; cases h; exact .found q' id hp hf
    | none => simp only [hf] at h; cases h; exact .miss q' hp hf
  | inherit q' =>
    simp only [hp] at h
    cases hf : inh.find q' with
    | some id => simp only [hf] at h; cases h; exact .base q' id hp hf
    | none => simp only [hf] at h; cases h; exact .nobase q' hp hf
  | create q' => simp only [hp] at h; cases h; exact .create q' hp

theorem find_fields_none {fs : List FieldRec} {k : FieldKey} (h : fs.find? k.hits = none) :
    ∀ g ∈ fs, ¬ Spec.FieldKey.Names k g := by
  intro g hg hn
  have := List.find?_eq_none.1 h g hg
  exact this (fieldKey_hits.2 hn)

theorem find_fields_split {fs : List FieldRec} {k : FieldKey} {f : FieldRec} (h : fs.find? k.hits = some f) :
    ∃ pre post, fs = pre ++ f :: post ∧ (∀ g ∈ pre, ¬ Spec.FieldKey.Names k g) ∧ Spec.FieldKey.Names k f := by
  obtain ⟨hf, pre, post, hs, hpre⟩ := List.find?_eq_some_iff_append.1 h
  refine ⟨pre, post, hs, ?_, fieldKey_hits.1 hf⟩
  intro g hg hn
  have := hpre g hg
  rw [fieldKey_hits.2 hn] at this
  exact nomatch this

theorem owner_enter {pc : Nat → Pc} {l : Option Nat} {t : Nat} {p : Pc}
    (h : ∀ u, (pc u).holds = true ↔ l = some u) (hl : l = none ∨ l = some t) (u : Nat) :
    (if u = t then p else pc u).holds = true ↔ (if p.holds then some t else none) = some u := by
  by_cases hu : u = t
  · subst hu; rw [if_pos rfl]; cases p.holds <;> simp
  · rw [if_neg hu, h u]
    rcases hl with hl | hl <;> rw [hl] <;> cases p.holds <;> simp [Ne.symm hu]

theorem owner_same {pc : Nat → Pc} {l : Option Nat} {t : Nat} {p : Pc}
    (h : ∀ u, (pc u).holds = true ↔ l = some u) (hl : l ≠ some t) (hp : p.holds = false) (u : Nat) :
    (if u = t then p else pc u).holds = true ↔ l = some u := by
  by_cases hu : u = t
  · subst hu; rw [if_pos rfl, hp]; simp [hl]
  · rw [if_neg hu, h u]

theorem find_append_other {fs : List FieldRec} {k k' : FieldKey} {f : FieldRec} (hf : k'.hits f = true)
    (h : fs.find? k.hits = none) (hk : k ≠ k') : (fs ++ [f]).find? k.hits = none := by
  rw [List.find?_append, h]
  have : k.hits f = false := by
    cases hh : k.hits f with
    | false => rfl
    | true =>
      have h1 := fieldKey_hits.1 hf
      have h2 := fieldKey_hits.1 hh
      exact absurd (by
        cases k; cases k'
        simp only [FieldKey.Names] at h1 h2
        simp [← h1.1, ← h1.2.1, ← h1.2.2, ← h2.1, ← h2.2.1, ← h2.2.2]) hk
  simp [this]

theorem made_hits (k : FieldKey) (n : Nat) : k.hits ⟨n, k.name, k.type, k.static, none, none⟩ = true := by
  simp [FieldKey.hits]

theorem fieldAnswers_field (t : Nat) (k : FieldKey) (id : Nat) (as : List Answer) :
    fieldAnswers (⟨t, .field k, id⟩ :: as) = (k, id) :: fieldAnswers as := rfl

theorem fieldAnswers_method (t : Nat) (k : MethodQuery) (id : Nat) (as : List Answer) :
    fieldAnswers (⟨t, .method k, id⟩ :: as) = fieldAnswers as := rfl

/-- A state that differs in nothing but where the threads are keeps what is said about the table. -/
theorem missed_set {s : Shared} {t : Nat} {p : Pc}
    (h : ∀ t k, Missed (s.pc t) (.field k) → s.find (.field k) = none)
    (hp : ∀ k, Missed p (.field k) → s.find (.field k) = none) (u : Nat) (k : FieldKey) :
    Missed (if u = t then p else s.pc u) (.field k) → s.find (.field k) = none := by
  by_cases hu : u = t
  · rw [if_pos hu]; exact hp k
  · rw [if_neg hu]; exact h u k

theorem none_set {inh : Inherited} {s : Shared} {t : Nat} {p : Pc}
    (h : ∀ t q, s.pc t = .create q → inh.find q = none)
    (hp : ∀ q, p = .create q → inh.find q = none) (u : Nat) (q : Request) :
    (if u = t then p else s.pc u) = .create q → inh.find q = none := by
  by_cases hu : u = t
  · rw [if_pos hu]; exact hp q
  · rw [if_neg hu]; exact h u q

theorem not_missed_idle {q : Request} : ¬ Missed .idle q := by rintro (h | h) <;> exact nomatch h

theorem RaceInv.step {inh : Inherited} {s0 s s' : Shared} {t : Nat} (h : RaceInv inh s0 s)
    (hd : Does inh s t s') : RaceInv inh s0 s' := by
  cases hd with
  | begin q hp hl =>
    refine ⟨fun u => ?_, missed_set h.missed ?_, none_set h.orphan ?_, h.fresh, h.old, h.serial⟩
    · exact owner_enter (p := .search q) h.owner (.inl hl) u
    · rintro k (hk | hk) <;> exact nomatch hk
    · intro q hk; exact nomatch hk
  | found q id hp hf =>
    have hl : s.lock = some t := (h.owner t).1 (by rw [hp]; rfl)
    refine ⟨fun u => ?_, missed_set h.missed ?_, none_set h.orphan ?_, h.fresh, h.old, ?_⟩
    · exact owner_enter (p := .idle) h.owner (.inr hl) u
    · exact fun k hk => absurd hk not_missed_idle
    · intro q hk; exact nomatch hk
    · cases q with
      | method k => exact h.serial
      | field k =>
        refine .cons h.serial ?_
        obtain ⟨f, hf', rfl⟩ := Option.map_eq_some_iff.1 hf
        obtain ⟨pre, post, hs, hpre, hn⟩ := find_fields_split hf'
        show Lookup _ s.fields k f.id s.fields
        rw [hs]
        exact .own hpre hn
  | miss q hp hf =>
    have hl : s.lock = some t := (h.owner t).1 (by rw [hp]; rfl)
    refine ⟨fun u => ?_, missed_set h.missed ?_, none_set h.orphan ?_, h.fresh, h.old, h.serial⟩
    · have := owner_enter (p := .inherit q) h.owner (.inr hl) u
      show (if u = t then Pc.inherit q else s.pc u).holds = true ↔ (if q.isField then s.lock else none) = some u
      rw [hl]; exact this
    · rintro k (hk | hk)
      · cases hk; exact hf
      · exact nomatch hk
    · intro q hk; exact nomatch hk
  | base q id hp hf =>
    refine ⟨fun u => ?_, missed_set h.missed ?_, none_set h.orphan ?_, h.fresh, h.old, ?_⟩
    · cases q with
      | field k =>
        have hl : s.lock = some t := (h.owner t).1 (by rw [hp]; rfl)
        exact owner_enter (p := .idle) h.owner (.inr hl) u
      | method k =>
        have hl : s.lock ≠ some t := fun hl => by
          have := (h.owner t).2 hl; rw [hp] at this; exact nomatch this
        exact owner_same (p := .idle) h.owner hl rfl u
    · exact fun k hk => absurd hk not_missed_idle
    · intro q hk; exact nomatch hk
    · cases q with
      | method k => exact h.serial
      | field k =>
        have hm := h.missed t k (.inl hp)
        refine .cons h.serial (.inherited (find_fields_none (Option.map_eq_none_iff.1 hm)) hf)
  | nobase q hp hf =>
    refine ⟨fun u => ?_, missed_set h.missed ?_, none_set h.orphan ?_, h.fresh, h.old, h.serial⟩
    · show (if u = t then Pc.create q else s.pc u).holds = true ↔ s.lock = some u
      cases q with
      | field k =>
        have hl : s.lock = some t := (h.owner t).1 (by rw [hp]; rfl)
        have := owner_enter (p := .create (.field k)) h.owner (.inr hl) u
        rw [hl]; exact this
      | method k =>
        have hl : s.lock ≠ some t := fun hl => by
          have := (h.owner t).2 hl; rw [hp] at this; exact nomatch this
        exact owner_same (p := .create (.method k)) h.owner hl rfl u
    · rintro k (hk | hk)
      · exact nomatch hk
      · cases hk; exact h.missed t k (.inl hp)
    · intro q hk; cases hk; exact hf
  | create q hp =>
    cases q with
    | method k =>
      have hl : s.lock ≠ some t := fun hl => by
        have := (h.owner t).2 hl; rw [hp] at this; exact nomatch this
      refine ⟨fun u => ?_, missed_set (s := s) h.missed ?_, none_set (s := s) h.orphan ?_, ?_, ?_, h.serial⟩
      · exact owner_same (p := .idle) h.owner hl rfl u
      · exact fun k hk => absurd hk not_missed_idle
      · intro q hk; exact nomatch hk
      · exact fun f hf => Nat.lt_succ_of_lt (h.fresh f hf)
      · exact fun k id hk => Nat.lt_succ_of_lt (h.old k id hk)
    | field k =>
      have hl : s.lock = some t := (h.owner t).1 (by rw [hp]; rfl)
      have hm := h.missed t k (.inr hp)
      have hn := h.orphan t _ hp
      refine ⟨fun u => ?_, fun u k' hk' => ?_, none_set (s := s) h.orphan ?_, ?_, ?_, ?_⟩
      · exact owner_enter (p := .idle) h.owner (.inr hl) u
      · by_cases hu : u = t
        · subst hu
          have : Missed (if u = u then Pc.idle else s.pc u) (.field k') := hk'
          rw [if_pos rfl] at this
          exact absurd this not_missed_idle
        · have : Missed (if u = t then Pc.idle else s.pc u) (.field k') := hk'
          rw [if_neg hu] at this
          have hh : (s.pc u).holds = true := by rcases this with h | h <;> rw [h] <;> rfl
          have := (h.owner u).1 hh
          rw [hl] at this
          exact absurd (Option.some.inj this).symm hu
      · intro q hk; exact nomatch hk
      · intro f hf
        rcases List.mem_append.1 hf with hf | hf
        · exact Nat.lt_succ_of_lt (h.fresh f hf)
        · cases List.mem_singleton.1 hf; exact Nat.lt_succ_self _
      · exact fun k id hk => Nat.lt_succ_of_lt (h.old k id hk)
      · refine .cons h.serial (.made (f := ⟨s.next, k.name, k.type, k.static, none, none⟩)
          (find_fields_none (Option.map_eq_none_iff.1 hm)) hn ⟨rfl, rfl, rfl⟩ ?_ ?_ rfl rfl)
        · exact fun g hg he => absurd (h.fresh g hg) (by rw [he]; exact Nat.lt_irrefl _)
        · exact fun k' hk' => absurd (h.old k' _ hk') (Nat.lt_irrefl _)

theorem RaceInv.reach {inh : Inherited} {s0 s : Shared} (hq : Quiet inh s0) (h : Interleaved inh s0 s) :
    RaceInv inh s0 s := by
  induction h with
  | start => exact hq.inv
  | step t q _ hs ih => exact ih.step (Shared.step_does hs)

theorem lookup_known {inh : FieldKey → Option Nat} {fs fs' : List FieldRec} {k : FieldKey} {id : Nat}
    (h : Lookup inh fs k id fs') : ((fs'.find? k.hits).map (·.id)).or (inh k) = some id := by
  cases h with
  | own hpre hn =>
    rename_i pre f post
    have : (pre ++ f :: post).find? k.hits = some f :=
      List.find?_eq_some_iff_append.2 ⟨fieldKey_hits.2 hn, pre, post, rfl, fun g hg => by
        cases hh : k.hits g with
        | false => rfl
        | true => exact absurd (fieldKey_hits.1 hh) (hpre g hg)⟩
    rw [this]; rfl
  | inherited hn hi =>
    have : fs.find? k.hits = none := List.find?_eq_none.2 fun g hg hh => hn g hg (fieldKey_hits.1 hh)
    rw [this, hi]; rfl
  | made hn hi hf =>
    rename_i f _ _ _
    have : fs.find? k.hits = none := List.find?_eq_none.2 fun g hg hh => hn g hg (fieldKey_hits.1 hh)
    rw [List.find?_append, this]
    simp [fieldKey_hits.2 hf]

theorem lookup_keeps {inh : FieldKey → Option Nat} {fs fs' : List FieldRec} {k k' : FieldKey} {id id' : Nat}
    (h : Lookup inh fs k id fs') (hk : ((fs.find? k'.hits).map (·.id)).or (inh k') = some id') :
    ((fs'.find? k'.hits).map (·.id)).or (inh k') = some id' := by
  cases h with
  | own hpre hn => exact hk
  | inherited hn hi => exact hk
  | made hn hi hf =>
    rename_i f _ _ _
    rw [List.find?_append]
    cases h1 : fs.find? k'.hits with
    | some g => rw [h1] at hk; exact hk
    | none =>
      by_cases he : k' = k
      · subst he; rw [h1, hi] at hk; exact nomatch hk
      · have := find_append_other (fieldKey_hits.2 hf) h1 he
        rw [List.find?_append, h1] at this
        rw [this]
        rw [h1] at hk; exact hk

theorem serial_known {inh : FieldKey → Option Nat} {fs0 fs : List FieldRec} {done : List (FieldKey × Nat)}
    (h : Serial inh fs0 done fs) :
    ∀ a ∈ done, ((fs.find? a.1.hits).map (·.id)).or (inh a.1) = some a.2 := by
  induction h with
  | nil => exact fun a ha => nomatch ha
  | cons _ hl ih =>
    intro a ha
    rcases List.mem_cons.1 ha with rfl | ha
    · exact lookup_known hl
    · exact lookup_keeps hl (ih a ha)

theorem serial_keeps {inh : FieldKey → Option Nat} {fs0 fs : List FieldRec} {done : List (FieldKey × Nat)}
    {k : FieldKey} {id : Nat} (h : Serial inh fs0 done fs)
    (hk : ((fs0.find? k.hits).map (·.id)).or (inh k) = some id) :
    ((fs.find? k.hits).map (·.id)).or (inh k) = some id := by
  induction h with
  | nil => exact hk
  | cons _ hl ih => exact lookup_keeps hl ih

theorem mem_fieldAnswers {as : List Answer} {a : Answer} {k : FieldKey} (h : a ∈ as)
    (hk : a.request = .field k) : (k, a.id) ∈ fieldAnswers as := by
  induction as with
  | nil => exact nomatch h
  | cons b as ih =>
    rcases List.mem_cons.1 h with rfl | h
    · obtain ⟨t, q, id⟩ := a
      cases hk
      exact List.mem_cons_self
    · have := ih h
      obtain ⟨t, q, id⟩ := b
      cases q with
      | field k => exact List.mem_cons_of_mem _ this
      | method k => exact this

theorem serial_count {inh : FieldKey → Option Nat} {fs0 fs : List FieldRec} {done : List (FieldKey × Nat)}
    (h : Serial inh fs0 done fs) (k : FieldKey) :
    fs.countP k.hits = fs0.countP k.hits ∨
      (fs0.countP k.hits = 0 ∧ inh k = none ∧ fs.countP k.hits = 1) := by
  induction h with
  | nil => exact .inl rfl
  | cons hs hl ih =>
    cases hl with
    | own hpre hn => exact ih
    | inherited hn hi => exact ih
    | made hn hi hf =>
      rename_i fs k' f _ _ _ _
      rw [List.countP_append]
      by_cases he : k = k'
      · subst he
        have h0 : fs.countP k.hits = 0 :=
          List.countP_eq_zero.2 fun g hg hh => hn g hg (fieldKey_hits.1 hh)
        have h1 : [f].countP k.hits = 1 := by simp [fieldKey_hits.2 hf]
        rcases ih with ih | ih
        · exact .inr ⟨by rw [← ih, h0], hi, by rw [h0, h1]⟩
        · rw [h0] at ih; exact absurd ih.2.2 (by decide)
      · have h1 : [f].countP k.hits = 0 := by
          refine List.countP_eq_zero.2 fun g hg hh => ?_
          cases List.mem_singleton.1 hg
          have := find_append_other (fs := []) (fieldKey_hits.2 hf) rfl he
          exact absurd hh (List.find?_eq_none.1 this f (by simp))
        rw [h1]; exact ih

/-- What is found stays found. -/
theorem Does.known {inh : Inherited} {s s' : Shared} {t : Nat} {k : MethodQuery} {id : Nat}
    (hd : Does inh s t s') (horphan : ∀ t q, s.pc t = .create q → inh.find q = none)
    (hk : s.known inh (.method k) = some id) : s'.known inh (.method k) = some id := by
  cases hd with
  | begin q hp hl => exact hk
  | found q i hp hf => exact hk
  | miss q hp hf => exact hk
  | base q i hp hf => exact hk
  | nobase q hp hf => exact hk
  | create q hp =>
    cases q with
    | field k' => exact hk
    | method k' =>
      have ho : inh.method k' = none := horphan t _ hp
      have hk : ((s.methods.find? k.key.hits).map MethodRec.id).or (inh.method k) = some id := hk
      show (((s.methods ++ [_]).find? k.key.hits).map MethodRec.id).or (inh.method k) = some id
      rw [List.find?_append]
      cases h1 : s.methods.find? k.key.hits with
      | some m => rw [h1] at hk; exact hk
      | none =>
        rw [h1] at hk
        have hk : inh.method k = some id := hk
        have hne : k ≠ k' := fun he => by rw [he, ho] at hk; exact nomatch hk
        have hno : k.key.hits ⟨s.next, k'.name, k'.signature, k'.static, none, none⟩ = false := by
          cases hh : k.key.hits ⟨s.next, k'.name, k'.signature, k'.static, none, none⟩ with
          | false => rfl
          | true =>
            refine absurd ?_ hne
            obtain ⟨a, b, c⟩ := k
            obtain ⟨a', b', c'⟩ := k'
            simp [MethodKey.hits, MethodQuery.key] at hh
            obtain ⟨⟨rfl, rfl⟩, rfl⟩ := hh
            rfl
        simp [hno, hk]

theorem step_found {inh : Inherited} {s : Shared} {t : Nat} {q q' : Request} {id : Nat}
    (hp : s.pc t = .search q') (hf : s.find q' = some id) :
    s.step inh t q = some (s.answer t q' id true) := by simp only [Shared.step, hp, hf]

theorem step_miss {inh : Inherited} {s : Shared} {t : Nat} {q q' : Request}
    (hp : s.pc t = .search q') (hf : s.find q' = none) :
    s.step inh t q =
      some { (s.setPc t (.inherit q')) with lock := if q'.isField then s.lock else none } := by
  simp only [Shared.step, hp, hf]

theorem step_base {inh : Inherited} {s : Shared} {t : Nat} {q q' : Request} {id : Nat}
    (hp : s.pc t = .inherit q') (hf : inh.find q' = some id) :
    s.step inh t q = some (s.answer t q' id q'.isField) := by simp only [Shared.step, hp, hf]

theorem step_nobase {inh : Inherited} {s : Shared} {t : Nat} {q q' : Request}
    (hp : s.pc t = .inherit q') (hf : inh.find q' = none) :
    s.step inh t q = some (s.setPc t (.create q')) := by simp only [Shared.step, hp, hf]

theorem step_create {inh : Inherited} {s : Shared} {t : Nat} {q q' : Request}
    (hp : s.pc t = .create q') :
    s.step inh t q = some ((s.append q').answer t q' s.next q'.isField) := by simp only [Shared.step, hp]

end Jnivm
