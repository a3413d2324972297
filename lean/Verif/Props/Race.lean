import Verif.Lemmas.Race
/-! C36: concurrent lookups of fields and methods. -/
namespace Jnivm
open Spec

variable {inh : Inherited} {s0 s s' : Shared}

/-- Whatever the schedule, field lookups behave as if each had been done at once when it returned. -/
theorem fields_linearizable (hq : Quiet inh s0) (h : Interleaved inh s0 s) :
    Serial inh.field s0.fields (fieldAnswers s.answers) s.fields := (RaceInv.reach hq h).serial

/-- All threads that ask for the same field get the same id. -/
theorem fields_agree (hq : Quiet inh s0) (h : Interleaved inh s0 s) {a b : Answer} {k : FieldKey}
    (ha : a ∈ s.answers) (hb : b ∈ s.answers) (hka : a.request = .field k) (hkb : b.request = .field k) :
    a.id = b.id := by
  have hs := fields_linearizable hq h
  have h1 := serial_known hs _ (mem_fieldAnswers ha hka)
  have h2 := serial_known hs _ (mem_fieldAnswers hb hkb)
  exact Option.some.inj (h1.symm.trans h2)

/-- A field is made at most once, and only if there was none, not even an inherited one. -/
theorem fields_made_once (hq : Quiet inh s0) (h : Interleaved inh s0 s) (k : FieldKey) :
    s.fields.countP k.hits = s0.fields.countP k.hits ∨
      (s0.fields.countP k.hits = 0 ∧ inh.field k = none ∧ s.fields.countP k.hits = 1) :=
  serial_count (fields_linearizable hq h) k

/-- A field known from the beginning, of the class or inherited, is what every thread gets. -/
theorem fields_known (hq : Quiet inh s0) (h : Interleaved inh s0 s) {a : Answer} {k : FieldKey} {id : Nat}
    (ha : a ∈ s.answers) (hka : a.request = .field k)
    (hk : (∃ pre f post, s0.fields = pre ++ f :: post ∧ (∀ g ∈ pre, ¬ Spec.FieldKey.Names k g) ∧
        Spec.FieldKey.Names k f ∧ f.id = id) ∨
      ((∀ g ∈ s0.fields, ¬ Spec.FieldKey.Names k g) ∧ inh.field k = some id)) : a.id = id := by
  have hs := fields_linearizable hq h
  have h1 := serial_known hs _ (mem_fieldAnswers ha hka)
  have h2 : ((s0.fields.find? k.hits).map (·.id)).or (inh.field k) = some id := by
    rcases hk with ⟨pre, f, post, he, hpre, hn, rfl⟩ | ⟨hn, hi⟩
    · rw [he]; exact lookup_known (.own hpre hn)
    · exact lookup_known (.inherited hn hi)
  exact Option.some.inj (h1.symm.trans (serial_keeps hs h2))

/-- No two threads are in the table of fields at the same time. -/
theorem fields_exclusive (hq : Quiet inh s0) (h : Interleaved inh s0 s) {t u : Nat}
    (ht : InFields (s.pc t)) (hu : InFields (s.pc u)) : t = u := by
  have hi := RaceInv.reach hq h
  have holds : ∀ t, InFields (s.pc t) → s.lock = some t := by
    intro t ht
    refine (hi.owner t).1 ?_
    cases hp : s.pc t with
    | idle => rw [hp] at ht; exact ht.elim
    | search q => rfl
    | inherit q => rw [hp] at ht; cases q with | field k => rfl | method k => exact ht.elim
    | create q => rw [hp] at ht; cases q with | field k => rfl | method k => exact ht.elim
  exact Option.some.inj ((holds t ht).symm.trans (holds u hu))

/-- A thread inside a lookup never waits, a thread that begins one waits only for a thread inside, and that
thread unlocks within three of its own steps. -/
theorem lookups_progress (hq : Quiet inh s0) (h : Interleaved inh s0 s) (t : Nat) (q : Request)
    (hw : s.step inh t q = none) :
    s.pc t = .idle ∧ ∃ u, u ≠ t ∧ s.lock = some u ∧
      ∃ s1, s.step inh u q = some s1 ∧ (s1.lock = none ∨
        ∃ s2, s1.step inh u q = some s2 ∧ (s2.lock = none ∨
          ∃ s3, s2.step inh u q = some s3 ∧ s3.lock = none)) := by
  have hi := RaceInv.reach hq h
  have hidle : s.pc t = .idle := by
    cases hp : s.pc t with
    | idle => rfl
    | search q' => simp only [Shared.step, hp] at hw; split at hw <;> exact nomatch hw
    | inherit q' => simp only [Shared.step, hp] at hw; split at hw <;> exact nomatch hw
    | create q' => simp only [Shared.step, hp] at hw; exact nomatch hw
  refine ⟨hidle, ?_⟩
  cases hl : s.lock with
  | none => simp [Shared.step, hidle, hl] at hw
  | some u =>
    have hu := (hi.owner u).2 hl
    have hut : u ≠ t := fun he => by rw [he, hidle] at hu; exact nomatch hu
    refine ⟨u, hut, rfl, ?_⟩
    have create : ∀ (r : Shared) (k : FieldKey), r.pc u = .create (.field k) →
        ∃ r', r.step inh u q = some r' ∧ r'.lock = none := by
      intro r k hp
      exact ⟨_, step_create hp, by simp [Shared.answer, Request.isField]⟩
    have inherit : ∀ (r : Shared) (k : FieldKey), r.pc u = .inherit (.field k) →
        ∃ r', r.step inh u q = some r' ∧ (r'.lock = none ∨
          ∃ r'', r'.step inh u q = some r'' ∧ r''.lock = none) := by
      intro r k hp
      cases hf : inh.find (.field k) with
      | some id => exact ⟨_, step_base hp hf, .inl (by simp [Shared.answer, Request.isField])⟩
      | none => exact ⟨_, step_nobase hp hf, .inr (create _ k (by simp [Shared.setPc]))⟩
    cases hp : s.pc u with
    | idle => rw [hp] at hu; exact nomatch hu
    | search q' =>
      cases hf : s.find q' with
      | some id => exact ⟨_, step_found hp hf, .inl (by simp [Shared.answer])⟩
      | none =>
        cases q' with
        | method k => exact ⟨_, step_miss hp hf, .inl (by simp [Request.isField])⟩
        | field k => exact ⟨_, step_miss hp hf, .inr (inherit _ k (by simp [Shared.setPc]))⟩
    | inherit q' =>
      cases q' with
      | method k => rw [hp] at hu; exact nomatch hu
      | field k =>
        obtain ⟨r, h1, h2⟩ := inherit s k hp
        refine ⟨r, h1, ?_⟩
        rcases h2 with h2 | ⟨r', h2, h3⟩
        · exact .inl h2
        · exact .inr ⟨r', h2, .inl h3⟩
    | create q' =>
      cases q' with
      | method k => rw [hp] at hu; exact nomatch hu
      | field k =>
        obtain ⟨r, h1, h2⟩ := create s k hp
        exact ⟨r, h1, .inl h2⟩

/-- Methods.  Missing: lookups that overlap.  If at some moment the method `k` can be found, in the class
or in a base class, and nobody is past its search for it, then every call that returns later returns this
method. -/
theorem methods_later_partial {k : MethodQuery} {id : Nat}
    (hs : (s.find (.method k)).or (inh.method k) = some id)
    (horphan : ∀ t q, s.pc t = .create q → inh.find q = none)
    (hm : ∀ u, ¬ Missed (s.pc u) (.method k)) (h : Interleaved inh s s') {a : Answer}
    (ha : a ∈ s'.answers) (hk : a.request = .method k) : a ∈ s.answers ∨ a.id = id := by
  -- a later miss of the own table means that it is inherited
  have inv : s'.known inh (.method k) = some id ∧ (∀ t q, s'.pc t = .create q → inh.find q = none) ∧
      (∀ u, Missed (s'.pc u) (.method k) → s'.pc u = .inherit (.method k) ∧ inh.method k = some id) ∧
      ∀ a ∈ s'.answers, a.request = .method k → a ∈ s.answers ∨ a.id = id := by
    clear ha hk a
    induction h with
    | start => exact ⟨hs, horphan, fun u hu => absurd hu (hm u), fun a ha _ => .inl ha⟩
    | step t q _ hst ih =>
      obtain ⟨i1, i2, i3, i4⟩ := ih
      have hd := Shared.step_does hst
      rename_i r r' _
      have setm : ∀ p : Pc, (Missed p (.method k) → p = .inherit (.method k) ∧ inh.method k = some id) →
          ∀ u, Missed (if u = t then p else r.pc u) (.method k) →
            (if u = t then p else r.pc u) = .inherit (.method k) ∧ inh.method k = some id := by
        intro p hp u
        by_cases hu : u = t
        · rw [if_pos hu]; exact hp
        · rw [if_neg hu]; exact i3 u
      have ans : ∀ (q : Request) (i : Nat), (q = .method k → i = id) →
          ∀ a ∈ (⟨t, q, i⟩ :: r.answers), a.request = .method k → a ∈ s.answers ∨ a.id = id := by
        intro q i hqi a ha hka
        rcases List.mem_cons.1 ha with rfl | ha
        · exact .inr (hqi hka)
        · exact i4 a ha hka
      refine ⟨hd.known i2 i1, ?_, ?_⟩
      · cases hd with
        | begin q hp hl => exact none_set i2 (fun q hk => nomatch hk)
        | found q i hp hf => exact none_set i2 (fun q hk => nomatch hk)
        | miss q hp hf => exact none_set i2 (fun q hk => nomatch hk)
        | base q i hp hf => exact none_set i2 (fun q hk => nomatch hk)
        | nobase q hp hf => exact none_set i2 (fun q hk => by cases hk; exact hf)
        | create q hp =>
          cases q <;> exact none_set (s := r) i2 (fun q hk => nomatch hk)
      · cases hd with
        | begin q hp hl => exact ⟨setm (.search q) (by rintro (h | h) <;> exact nomatch h), i4⟩
        | found q i hp hf =>
          refine ⟨setm .idle (fun h => absurd h not_missed_idle), ans q i ?_⟩
          rintro rfl
          have : (r.find (.method k)).or (inh.method k) = some id := i1
          rw [hf] at this
          exact Option.some.inj this
        | miss q hp hf =>
          refine ⟨setm (.inherit q) ?_, i4⟩
          rintro (h | h)
          · cases h
            have : (r.find (.method k)).or (inh.method k) = some id := i1
            rw [hf] at this
            exact ⟨rfl, this⟩
          · exact nomatch h
        | base q i hp hf =>
          refine ⟨setm .idle (fun h => absurd h not_missed_idle), ans q i ?_⟩
          rintro rfl
          have := (i3 t (.inl hp)).2
          have hf : inh.method k = some i := hf
          rw [hf] at this
          exact Option.some.inj this
        | nobase q hp hf =>
          refine ⟨setm (.create q) ?_, i4⟩
          rintro (h | h)
          · exact nomatch h
          · cases h
            have := (i3 t (.inl hp)).2
            have hf : inh.method k = none := hf
            rw [hf] at this
            exact nomatch this
        | create q hp =>
          have hne : q ≠ .method k := by
            rintro rfl
            have := (i3 t (.inr hp)).1
            rw [hp] at this
            exact nomatch this
          have : ∀ (x : Request), q = x → (r.append q).answers = r.answers ∧ (r.append q).pc = r.pc := by
            intro x _; cases q <;> exact ⟨rfl, rfl⟩
          have hap := this q rfl
          refine ⟨?_, ?_⟩
          · show ∀ u, Missed (if u = t then Pc.idle else (r.append q).pc u) (.method k) → _
            rw [hap.2]
            intro u hu
            have := setm .idle (fun h => absurd h not_missed_idle) u hu
            show (if u = t then Pc.idle else (r.append q).pc u) = _ ∧ _
            rw [hap.2]; exact this
          · show ∀ a ∈ (⟨t, q, r.next⟩ :: (r.append q).answers), _
            rw [hap.1]
            exact ans q r.next (fun h => absurd h hne)
  exact inv.2.2.2 a ha hk

/-- Methods known from the beginning: every thread gets the same. -/
theorem methods_known_partial (hq : Quiet inh s0) (h : Interleaved inh s0 s) {a : Answer} {k : MethodQuery}
    {id : Nat} (hs : (s0.find (.method k)).or (inh.method k) = some id) (ha : a ∈ s.answers)
    (hk : a.request = .method k) : a.id = id := by
  have := methods_later_partial hs (fun t q hp => by rw [hq.pc] at hp; exact nomatch hp)
    (fun u hu => by rw [hq.pc] at hu; exact not_missed_idle hu) h ha hk
  rw [hq.answers] at this
  exact this.resolve_left (fun h => nomatch h)

/-- Every method that is not known yet can be made twice: two threads get different ids for it. -/
theorem methods_disagree (hq : Quiet inh s0) {k : MethodQuery} (hf : s0.find (.method k) = none)
    (hi : inh.method k = none) :
    ∃ s a b, Interleaved inh s0 s ∧ a ∈ s.answers ∧ b ∈ s.answers ∧ a.request = .method k ∧
      b.request = .method k ∧ a.id ≠ b.id ∧ s.methods.length = s0.methods.length + 2 := by
  obtain ⟨lock, fields, methods, next, pc, answers⟩ := s0
  have hl : lock = none := hq.lock
  have hpc : ∀ t, pc t = .idle := hq.pc
  have ha : answers = [] := hq.answers
  subst hl ha
  have hf : (methods.find? k.key.hits).map MethodRec.id = none := hf
  let st : Nat → Shared → Option Shared := fun t s => s.step inh t (.method k)
  have run : ∃ s, ((st 0 ⟨none, fields, methods, next, pc, []⟩).bind fun s => (st 0 s).bind fun s =>
      (st 1 s).bind fun s => (st 1 s).bind fun s => (st 0 s).bind fun s => (st 1 s).bind fun s =>
      (st 0 s).bind (st 1)) = some s ∧ s.answers = [⟨1, .method k, next + 1⟩, ⟨0, .method k, next⟩] ∧
      s.methods.length = methods.length + 2 := by
    simp [st, Shared.step, hpc, Shared.setPc, Shared.find, hf, Inherited.find, hi, Request.isField,
      Shared.append, Shared.answer]
  obtain ⟨s, hrun, has, hlen⟩ := run
  simp only [Option.bind_eq_some_iff] at hrun
  obtain ⟨s1, h1, s2, h2, s3, h3, s4, h4, s5, h5, s6, h6, s7, h7, h8⟩ := hrun
  refine ⟨s, ⟨1, .method k, next + 1⟩, ⟨0, .method k, next⟩, ?_, by simp [has], by simp [has], rfl, rfl,
    by simp, hlen⟩
  exact .step _ _ (.step _ _ (.step _ _ (.step _ _ (.step _ _ (.step _ _ (.step _ _ (.step _ _ .start
    h1) h2) h3) h4) h5) h6) h7) h8

/-- And the two threads append to the same vector without synchronisation. -/
theorem methods_race (hq : Quiet inh s0) {k : MethodQuery} (hf : s0.find (.method k) = none)
    (hi : inh.method k = none) : ∃ s, Interleaved inh s0 s ∧ MethodRace s := by
  obtain ⟨lock, fields, methods, next, pc, answers⟩ := s0
  have hl : lock = none := hq.lock
  have hpc : ∀ t, pc t = .idle := hq.pc
  subst hl
  have hf : (methods.find? k.key.hits).map MethodRec.id = none := hf
  let st : Nat → Shared → Option Shared := fun t s => s.step inh t (.method k)
  have run : ∃ s, ((st 0 ⟨none, fields, methods, next, pc, answers⟩).bind fun s => (st 0 s).bind fun s =>
      (st 0 s).bind (st 1)) = some s ∧ s.pc 0 = .create (.method k) ∧ s.pc 1 = .search (.method k) := by
    simp [st, Shared.step, hpc, Shared.setPc, Shared.find, hf, Inherited.find, hi, Request.isField]
  obtain ⟨s, hrun, h0, h1'⟩ := run
  simp only [Option.bind_eq_some_iff] at hrun
  obtain ⟨s1, h1, s2, h2, s3, h3, h4⟩ := hrun
  exact ⟨s, .step _ _ (.step _ _ (.step _ _ (.step _ _ .start h1) h2) h3) h4,
    0, 1, k, k, by decide, h0, .inr h1'⟩

/-! ### Cases that meet the hypotheses -/

/-- A class with one field and one method; it inherits a field and a method. -/
def racy : Shared where
  lock := none
  fields := [⟨0, "a".toList, "I".toList, false, none, none⟩]
  methods := [⟨1, "f".toList, "()V".toList, false, none, none⟩]
  next := 10
  pc := fun _ => .idle
  answers := []

def racyBase : Inherited where
  field k := if k = ⟨false, "b".toList, "I".toList⟩ then some 2 else none
  method k := if k = ⟨false, "g".toList, "()V".toList⟩ then some 3 else none

theorem racy_quiet : Quiet racyBase racy where
  lock := rfl
  pc _ := rfl
  answers := rfl
  fresh := by decide
  old k id h := by
    by_cases hk : k = ⟨false, "b".toList, "I".toList⟩
    · simp only [racyBase, if_pos hk] at h; cases h; decide
    · simp only [racyBase, if_neg hk] at h; exact nomatch h

/-- A schedule. -/
def Shared.runs (inh : Inherited) (s : Shared) : List (Nat × Request) → Option Shared
  | [] => some s
  | (t, q) :: rest => (s.step inh t q).bind fun s => s.runs inh rest

theorem runs_interleaved {r : Shared} {ops : List (Nat × Request)} (h0 : Interleaved inh s0 r)
    (h : r.runs inh ops = some s) : Interleaved inh s0 s := by
  induction ops generalizing r with
  | nil => cases h; exact h0
  | cons o ops ih =>
    obtain ⟨r', h1, h2⟩ := Option.bind_eq_some_iff.1 h
    exact ih (.step _ _ h0 h1) h2

def askC : Request := .field ⟨false, "c".toList, "I".toList⟩
def askB : Request := .field ⟨false, "b".toList, "I".toList⟩
def askG : Request := .method ⟨false, "g".toList, "()V".toList⟩

/-- Two threads ask for a new field, one of them while the other is inside; a third for inherited members. -/
example : ∃ s, Interleaved racyBase racy s ∧
    s.answers = [⟨3, askG, 3⟩, ⟨3, askB, 2⟩, ⟨2, askC, 10⟩, ⟨1, askC, 10⟩] ∧ s.fields.length = 2 := by
  have h : ((racy.runs racyBase [(1, askC), (1, askC), (1, askC), (1, askC), (2, askC), (2, askC), (3, askB),
      (3, askB), (3, askB), (3, askG), (3, askG), (3, askG)]).map fun s => (s.answers, s.fields.length)) =
      some ([⟨3, askG, 3⟩, ⟨3, askB, 2⟩, ⟨2, askC, 10⟩, ⟨1, askC, 10⟩], 2) := by decide +kernel
  obtain ⟨s, hs, he⟩ := Option.map_eq_some_iff.1 h
  exact ⟨s, runs_interleaved .start hs, congrArg Prod.fst he, congrArg Prod.snd he⟩

/-- A thread that waits. -/
example : ∃ s, Interleaved racyBase racy s ∧ s.step racyBase 2 askC = none := by
  have h : ((racy.runs racyBase [(1, askC), (1, askC)]).map fun s => (s.step racyBase 2 askC).isNone) =
      some true := by decide +kernel
  obtain ⟨s, hs, he⟩ := Option.map_eq_some_iff.1 h
  exact ⟨s, runs_interleaved .start hs, Option.isNone_iff_eq_none.1 he⟩

/-- The hypotheses of `methods_later_partial`, `methods_known_partial`, `methods_disagree` and `methods_race`
hold for `racy`. -/
example : (racy.find askG).or (racyBase.find askG) = some 3 ∧
    racy.find (.method ⟨false, "h".toList, "()V".toList⟩) = none ∧
    racyBase.method ⟨false, "h".toList, "()V".toList⟩ = none := by decide

end Jnivm
