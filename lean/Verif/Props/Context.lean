import Verif.Spec.Context
/-! C45: `JniEnvContext` leaves the thread attached as it was. -/
namespace Jnivm
open Spec

/-- What holds for every thread: names are below `next`, and the thread-local pointer points to every
object someone holds. -/
structure Thr.Ok (th : Thr) (n : Nat) : Prop where
  tlsLt : ∀ e, th.tls = some e → e.id < n
  entLt : ∀ vm e, (vm, some e) ∈ th.entries → e.id < n
  ctxLt : ∀ c ∈ th.ctxs, ∀ e, c.env2 = some e → e.id < n
  entTls : ∀ vm e, (vm, some e) ∈ th.entries → th.tls = some e
  entVm : ∀ vm e, (vm, some e) ∈ th.entries → e.vm = vm
  ctxTls : ∀ c ∈ th.ctxs, ∀ e, c.env2 = some e → th.tls = some e
  ctxEnv : ∀ c ∈ th.ctxs, c.made ≠ none → c.env2 ≠ none

theorem Thr.Ok.mono {th : Thr} {n m : Nat} (h : th.Ok n) (hm : n ≤ m) : th.Ok m :=
  ⟨fun e he => Nat.lt_of_lt_of_le (h.tlsLt e he) hm, fun v e he => Nat.lt_of_lt_of_le (h.entLt v e he) hm,
    fun c hc e he => Nat.lt_of_lt_of_le (h.ctxLt c hc e he) hm, h.entTls, h.entVm, h.ctxTls, h.ctxEnv⟩

theorem alive_iff {th : Thr} {e : EnvObj} : th.alive e = true ↔
    (∃ vm, (vm, some e) ∈ th.entries) ∨ ∃ c ∈ th.ctxs, c.env2 = some e := by
  simp only [Thr.alive, Bool.or_eq_true, List.any_eq_true, beq_iff_eq]
  constructor
  · rintro (⟨⟨v, o⟩, h1, h2⟩ | h)
    · cases h2; exact .inl ⟨v, h1⟩
    · exact .inr h
  · rintro (⟨v, h⟩ | h)
    · exact .inl ⟨_, h, rfl⟩
    · exact .inr h

theorem lock_eq_some {th : Thr} {e : EnvObj} : th.lock = some e ↔ th.tls = some e ∧ th.alive e = true := by
  unfold Thr.lock
  cases h : th.tls with
  | none => simp
  | some x =>
    simp only [Option.filter]
    constructor
    · intro h
      split at h
      · cases h; exact ⟨rfl, ‹_›⟩
      · cases h
    · rintro ⟨h1, h2⟩
      cases h1
      rw [if_pos h2]

theorem Thr.Ok.lock_alive {th : Thr} {n : Nat} (h : th.Ok n) {e : EnvObj} (ha : th.alive e = true) :
    th.lock = some e := by
  refine lock_eq_some.2 ⟨?_, ha⟩
  rcases alive_iff.1 ha with ⟨v, hv⟩ | ⟨c, hc, he⟩
  · exact h.entTls v e hv
  · exact h.ctxTls c hc e he


theorem mem_erase {vm : Nat} {l : List (Nat × Option EnvObj)} {x : Nat × Option EnvObj} :
    x ∈ eraseEntry vm l ↔ x ∈ l ∧ x.1 ≠ vm := by
  simp [eraseEntry, List.mem_filter]

/-- Fewer holders. -/
theorem Thr.Ok.shrink {th th' : Thr} {n : Nat} (h : th.Ok n) (ht : th'.tls = th.tls)
    (he : ∀ v e, (v, some e) ∈ th'.entries → (v, some e) ∈ th.entries) (hc : ∀ c ∈ th'.ctxs, c ∈ th.ctxs) :
    th'.Ok n :=
  ⟨fun e h1 => h.tlsLt e (ht ▸ h1), fun v e h1 => h.entLt v e (he v e h1),
    fun c h1 => h.ctxLt c (hc c h1), fun v e h1 => ht ▸ h.entTls v e (he v e h1),
    fun v e h1 => h.entVm v e (he v e h1), fun c h1 e h2 => ht ▸ h.ctxTls c (hc c h1) e h2,
    fun c h1 => h.ctxEnv c (hc c h1)⟩

theorem not_alive_of_lock {th : Thr} {n : Nat} (h : th.Ok n) (hl : th.lock = none) (e : EnvObj) :
    th.alive e = false := by
  cases ha : th.alive e with
  | false => rfl
  | true => rw [h.lock_alive ha] at hl; cases hl

theorem lookup_mem {l : List (Nat × Option EnvObj)} {vm : Nat} {o : Option EnvObj}
    (h : l.lookup vm = some o) : (vm, o) ∈ l := by
  induction l with
  | nil => cases h
  | cons x l ih =>
    obtain ⟨v, p⟩ := x
    rw [List.lookup_cons] at h
    cases hv : vm == v with
    | true =>
      rw [hv] at h
      cases h
      rw [beq_iff_eq.1 hv]; exact List.mem_cons_self ..
    | false => rw [hv] at h; exact List.mem_cons_of_mem _ (ih h)

theorem envOf_mem {th : Thr} {vm : Nat} {e : EnvObj} (h : th.envOf vm = some e) : (vm, some e) ∈ th.entries := by
  unfold Thr.envOf at h
  cases hl : th.entries.lookup vm with
  | none => rw [hl] at h; cases h
  | some o => rw [hl] at h; cases h; exact lookup_mem hl

/-- The thread after an environment was made for it. -/
def Thr.created (th : Thr) (n vm : Nat) : Thr :=
  { th with tls := some ⟨n, vm⟩, entries := (vm, some ⟨n, vm⟩) :: eraseEntry vm th.entries }

theorem no_holder {th : Thr} {n : Nat} (h : th.Ok n) (hl : th.lock = none) :
    (∀ v e, (v, some e) ∉ th.entries) ∧ ∀ c ∈ th.ctxs, c.env2 = none := by
  refine ⟨fun v e hm => ?_, fun c hc => ?_⟩
  · have := not_alive_of_lock h hl e
    rw [alive_iff.2 (.inl ⟨v, hm⟩)] at this; cases this
  · cases he : c.env2 with
    | none => rfl
    | some e =>
      have := not_alive_of_lock h hl e
      rw [alive_iff.2 (.inr ⟨c, hc, he⟩)] at this; cases this

theorem created_entries {th : Thr} {n : Nat} (h : th.Ok n) (hl : th.lock = none) (vm : Nat) {v : Nat}
    {e : EnvObj} (hm : (v, some e) ∈ (th.created n vm).entries) : v = vm ∧ e = ⟨n, vm⟩ := by
  rcases List.mem_cons.1 hm with hm | hm
  · cases hm; exact ⟨rfl, rfl⟩
  · exact absurd (mem_erase.1 hm).1 ((no_holder h hl).1 v e)

theorem created_ok {th : Thr} {n : Nat} (h : th.Ok n) (hl : th.lock = none) (vm : Nat) :
    (th.created n vm).Ok (n + 1) := by
  have hents := @created_entries th n h hl vm
  have hnc := (no_holder h hl).2
  constructor
  · intro e he; cases he; exact Nat.lt_succ_self n
  · intro v e hm; rw [(hents hm).2]; exact Nat.lt_succ_self n
  · intro c hc e he; rw [hnc c hc] at he; cases he
  · intro v e hm; rw [(hents hm).2]; rfl
  · intro v e hm; rw [(hents hm).2, (hents hm).1]
  · intro c hc e he; rw [hnc c hc] at he; cases he
  · exact h.ctxEnv

theorem created_lock (th : Thr) (n vm : Nat) : (th.created n vm).lock = some ⟨n, vm⟩ :=
  lock_eq_some.2 ⟨rfl, alive_iff.2 (.inl ⟨vm, List.mem_cons_self ..⟩)⟩

/-- The thread after its entry in the map of `vm` was made null. -/
def Thr.nulled (th : Thr) (vm : Nat) : Thr :=
  { th with entries := (vm, none) :: eraseEntry vm th.entries }

theorem nulled_ok {th : Thr} {n : Nat} (h : th.Ok n) (vm : Nat) : (th.nulled vm).Ok n := by
  refine h.shrink rfl (fun v e hm => ?_) (fun c hc => hc)
  rcases List.mem_cons.1 hm with hm | hm
  · cases hm
  · exact (mem_erase.1 hm).1

theorem nulled_lock {th : Thr} {n : Nat} (h : th.Ok n) (hl : th.lock = none) (vm : Nat) :
    (th.nulled vm).lock = none := by
  refine Option.eq_none_iff_forall_ne_some.2 fun e he => ?_
  rcases alive_iff.1 (lock_eq_some.1 he).2 with ⟨v, hv⟩ | ⟨c, hc, he⟩
  · rcases List.mem_cons.1 hv with hv | hv
    · cases hv
    · exact (no_holder h hl).1 v e (mem_erase.1 hv).1
  · rw [(no_holder h hl).2 c hc] at he; cases he

theorem attach_eq (th : Thr) (n vm : Nat) : th.attach n vm =
    match th.envOf vm, (th.nulled vm).lock with
    | some _, _ => (th, n, .done)
    | none, some _ => (th.nulled vm, n, .throws .runtimeError)
    | none, none => ((th.nulled vm).created n vm, n + 1, .done) := by
  unfold Thr.attach
  cases th.envOf vm with
  | some e => rfl
  | none =>
    cases hl : (th.nulled vm).lock <;> (unfold Thr.nulled at hl; simp only [hl]; rfl)

theorem attach_ok {th : Thr} {n : Nat} (h : th.Ok n) (vm : Nat) :
    (th.attach n vm).1.Ok (th.attach n vm).2.1 ∧ n ≤ (th.attach n vm).2.1 := by
  rw [attach_eq]
  cases th.envOf vm with
  | some e => exact ⟨h, Nat.le_refl n⟩
  | none =>
    cases hl : (th.nulled vm).lock with
    | some e => exact ⟨nulled_ok h vm, Nat.le_refl n⟩
    | none => exact ⟨created_ok (nulled_ok h vm) hl vm, Nat.le_succ n⟩

/-- Attaching a thread that has no environment. -/
theorem attach_fresh {th : Thr} {n : Nat} (h : th.Ok n) (hl : th.lock = none) (vm : Nat) :
    th.attach n vm = ((th.nulled vm).created n vm, n + 1, .done) := by
  have henv : th.envOf vm = none := by
    cases he : th.envOf vm with
    | none => rfl
    | some e => exact absurd (envOf_mem he) ((no_holder h hl).1 vm e)
  rw [attach_eq, henv, nulled_lock h hl vm]

theorem Thr.Ok.push {th : Thr} {n : Nat} (h : th.Ok n) (v made : Option Nat) (hm : th.lock ≠ none ∨ made = none) :
    ({ th with ctxs := ⟨th.lock, v, made⟩ :: th.ctxs } : Thr).Ok n := by
  have ht : ∀ e, th.lock = some e → th.tls = some e := fun e he => (lock_eq_some.1 he).1
  constructor
  · exact h.tlsLt
  · exact h.entLt
  · intro c hc e he
    rcases List.mem_cons.1 hc with rfl | hc
    · exact h.tlsLt e (ht e he)
    · exact h.ctxLt c hc e he
  · exact h.entTls
  · exact h.entVm
  · intro c hc e he
    rcases List.mem_cons.1 hc with rfl | hc
    · exact ht e he
    · exact h.ctxTls c hc e he
  · intro c hc hmade
    rcases List.mem_cons.1 hc with rfl | hc
    · exact hm.elim id (fun h => absurd h hmade)
    · exact h.ctxEnv c hc hmade

theorem detach_ok {th : Thr} {n : Nat} (h : th.Ok n) (vm : Nat) : (th.detach vm).Ok n :=
  h.shrink rfl (fun _ _ hm => (mem_erase.1 hm).1) (fun _ hc => hc)

theorem enter_some {th : Thr} {e : EnvObj} (hl : th.lock = some e) (n vm : Nat) :
    th.step n (.enter vm) = ({ th with ctxs := ⟨some e, none, some vm⟩ :: th.ctxs }, n, .done) := by
  simp only [Thr.step, hl]

theorem enter_none {th : Thr} {n : Nat} (h : th.Ok n) (hl : th.lock = none) (vm : Nat) :
    th.step n (.enter vm) = ({ (th.nulled vm).created n vm with
      ctxs := ⟨some ⟨n, vm⟩, some vm, some vm⟩ :: th.ctxs }, n + 1, .done) := by
  simp only [Thr.step, hl, attach_fresh h hl, created_lock]
  rfl

theorem step_ok {th : Thr} {n : Nat} (h : th.Ok n) (op : CtxOp) :
    (th.step n op).1.Ok (th.step n op).2.1 ∧ n ≤ (th.step n op).2.1 := by
  cases op with
  | enter vm =>
    cases hl : th.lock with
    | some e =>
      rw [enter_some hl]
      have := h.push none (some vm) (.inl (by rw [hl]; simp))
      rw [hl] at this
      exact ⟨this, Nat.le_refl n⟩
    | none =>
      rw [enter_none h hl]
      have := (created_ok (nulled_ok h vm) (nulled_lock h hl vm) vm).push (some vm) (some vm)
        (.inl (by rw [created_lock]; simp))
      rw [created_lock] at this
      exact ⟨this, Nat.le_succ n⟩
  | enterDefault => exact ⟨h.push none none (.inr rfl), Nat.le_refl n⟩
  | leave =>
    cases hc : th.ctxs with
    | nil => simp only [Thr.step, hc]; exact ⟨h, Nat.le_refl n⟩
    | cons c cs =>
      have hcs : ∀ c' ∈ cs, c' ∈ th.ctxs := fun c' h' => by rw [hc]; exact List.mem_cons_of_mem _ h'
      cases hv : c.vm with
      | none =>
        simp only [Thr.step, hc, hv]
        exact ⟨h.shrink rfl (fun _ _ h => h) hcs, Nat.le_refl n⟩
      | some vm =>
        simp only [Thr.step, hc, hv]
        exact ⟨h.shrink rfl (fun _ _ hm => (mem_erase.1 hm).1) hcs, Nat.le_refl n⟩
  | attach vm => exact attach_ok h vm
  | detach vm => exact ⟨detach_ok h vm, Nat.le_refl n⟩
  | exit =>
    unfold Thr.step
    cases hl : th.lock with
    | none => exact ⟨h, Nat.le_refl n⟩
    | some e =>
      simp only
      cases (th.detach e.vm).lock <;> exact ⟨detach_ok h e.vm, Nat.le_refl n⟩

/-- A run of one thread while others take names in between. -/
inductive LRun : Thr → Nat → List CtxOp → Thr → Nat → List StepEnd → Prop where
  | nil {th n m} : n ≤ m → LRun th n [] th m []
  | cons {th n m op ops th' n' outs} : n ≤ m →
      LRun (th.step m op).1 (th.step m op).2.1 ops th' n' outs →
      LRun th n (op :: ops) th' n' ((th.step m op).2.2 :: outs)

theorem LRun.ok {th th' : Thr} {n n' : Nat} {ops : List CtxOp} {outs : List StepEnd}
    (h : LRun th n ops th' n' outs) (hok : th.Ok n) : th'.Ok n' ∧ n ≤ n' := by
  induction h with
  | nil hm => exact ⟨hok.mono hm, hm⟩
  | cons hm _ ih =>
    rename_i th n m op _ _ _ _ _
    have h1 := step_ok (hok.mono hm) op
    have h2 := ih h1.1
    exact ⟨h2.1, by omega⟩

theorem LRun.split {th th' : Thr} {n n' : Nat} {a b : List CtxOp} {outs : List StepEnd}
    (h : LRun th n (a ++ b) th' n' outs) : ∃ th1 n1 o1 o2, LRun th n a th1 n1 o1 ∧ LRun th1 n1 b th' n' o2 ∧
      outs = o1 ++ o2 := by
  induction a generalizing th n outs with
  | nil => exact ⟨th, n, [], outs, .nil (Nat.le_refl n), h, rfl⟩
  | cons op a ih =>
    cases h with
    | cons hm h =>
      obtain ⟨th1, n1, o1, o2, h1, h2, rfl⟩ := ih h
      exact ⟨th1, n1, _, o2, .cons hm h1, h2, rfl⟩

/-- What nested contexts leave behind. -/
theorem nested_effect {ops : List CtxOp} (hn : Nested ops) : ∀ {th th' : Thr} {n n' : Nat}
    {outs : List StepEnd}, th.Ok n → LRun th n ops th' n' outs →
    (∀ o ∈ outs, o = .done) ∧ th'.ctxs = th.ctxs ∧
    (∀ e, th.lock = some e → th' = th) ∧ (th.lock = none → th'.lock = none) := by
  induction hn with
  | nil =>
    intro th th' n n' outs hok h
    cases h
    exact ⟨by simp, rfl, fun _ _ => rfl, fun h => h⟩
  | enter vm _ _ ih1 ih2 =>
    rename_i inner rest hi hr
    intro th th' n n' outs hok h
    cases h with
    | @cons _ _ m _ _ _ _ outs' hm h =>
      have hok' := hok.mono hm
      have hs := (step_ok hok' (.enter vm)).1
      obtain ⟨th2, n2, o1, o2, hrun1, hrun2, rfl⟩ := LRun.split h
      have hok2 := (hrun1.ok hs).1
      obtain ⟨hd1, hc1, hsame, _⟩ := ih1 hs hrun1
      cases hl : th.lock with
      | some e =>
        rw [enter_some hl] at hs hrun1 hc1 hsame ⊢
        have hl1 : ({ th with ctxs := ⟨some e, none, some vm⟩ :: th.ctxs } : Thr).lock = some e := by
          refine lock_eq_some.2 ⟨(lock_eq_some.1 hl).1, ?_⟩
          exact alive_iff.2 (.inr ⟨_, List.mem_cons_self .., rfl⟩)
        cases hsame e hl1
        cases hrun2 with
        | @cons _ _ m2 _ _ _ _ o3 hm2 hrest =>
          have hstep : (({ th with ctxs := ⟨some e, none, some vm⟩ :: th.ctxs } : Thr).step m2 .leave) =
              (th, m2, .done) := rfl
          rw [hstep] at hrest ⊢
          obtain ⟨hd2, hc2, hsame2, _⟩ := ih2 (hok'.mono (Nat.le_trans (hrun1.ok hs).2 hm2)) hrest
          refine ⟨?_, hc2, fun e' h' => hsame2 e (by rw [hl]), fun h => by cases h⟩
          intro o ho
          simp only [List.mem_cons, List.mem_append] at ho
          rcases ho with rfl | ho | rfl | ho
          · rfl
          · exact hd1 o ho
          · rfl
          · exact hd2 o ho
      | none =>
        rw [enter_none hok' hl] at hs hrun1 hc1 hsame ⊢
        generalize hth1 : ({ (th.nulled vm).created m vm with
          ctxs := ⟨some ⟨m, vm⟩, some vm, some vm⟩ :: th.ctxs } : Thr) = th1 at hs hrun1 hc1 hsame
        have hl1 : th1.lock = some ⟨m, vm⟩ := by
          rw [← hth1]
          exact lock_eq_some.2 ⟨rfl, alive_iff.2 (.inr ⟨_, List.mem_cons_self .., rfl⟩)⟩
        cases hsame _ hl1
        cases hrun2 with
        | @cons _ _ m2 _ _ _ _ o3 hm2 hrest =>
          have hstep : th1.step m2 .leave =
              ({ ((th.nulled vm).created m vm).detach vm with ctxs := th.ctxs }, m2, .done) := by
            rw [← hth1]; rfl
          have hokL := (step_ok (hs.mono (Nat.le_trans (hrun1.ok hs).2 hm2)) .leave).1
          rw [hstep] at hrest hokL ⊢
          obtain ⟨hd2, hc2, _, hnone⟩ := ih2 hokL hrest
          refine ⟨?_, hc2, fun e' h' => (nomatch h'), fun _ => hnone ?_⟩
          · intro o ho
            simp only [List.mem_cons, List.mem_append] at ho
            rcases ho with rfl | ho | rfl | ho
            · rfl
            · exact hd1 o ho
            · rfl
            · exact hd2 o ho
          · refine Option.eq_none_iff_forall_ne_some.2 fun e he => ?_
            rcases alive_iff.1 (lock_eq_some.1 he).2 with ⟨v, hv⟩ | ⟨c, hc, he⟩
            · obtain ⟨hv1, hv2⟩ := mem_erase.1 hv
              exact hv2 (created_entries (nulled_ok hok' vm) (nulled_lock hok' hl vm) vm hv1).1
            · rw [(no_holder hok' hl).2 c hc] at he; cases he
  | enterDefault _ _ ih1 ih2 =>
    rename_i inner rest hi hr
    intro th th' n n' outs hok h
    cases h with
    | @cons _ _ m _ _ _ _ outs' hm h =>
      have hok' := hok.mono hm
      have hs := (step_ok hok' .enterDefault).1
      obtain ⟨th2, n2, o1, o2, hrun1, hrun2, rfl⟩ := LRun.split h
      obtain ⟨hok2, hle⟩ := hrun1.ok hs
      obtain ⟨hd1, hc1, hsame, hnone⟩ := ih1 hs hrun1
      cases hrun2 with
      | @cons _ _ m2 _ _ _ _ o3 hm2 hrest =>
        have hstep : th2.step m2 .leave = ({ th2 with ctxs := th.ctxs }, m2, .done) := by
          simp only [Thr.step, hc1]
        have hokL := (step_ok (hok2.mono hm2) .leave).1
        rw [hstep] at hrest hokL ⊢
        obtain ⟨hd2, hc2, hsame2, hnone2⟩ := ih2 hokL hrest
        refine ⟨?_, hc2, fun e he => ?_, fun hl => hnone2 ?_⟩
        · intro o ho
          simp only [List.mem_cons, List.mem_append] at ho
          rcases ho with rfl | ho | rfl | ho
          · rfl
          · exact hd1 o ho
          · rfl
          · exact hd2 o ho
        · have hl1 : (th.step m .enterDefault).1.lock = some e := by
            refine lock_eq_some.2 ⟨(lock_eq_some.1 he).1, ?_⟩
            exact alive_iff.2 (.inr ⟨_, List.mem_cons_self .., he⟩)
          cases hsame e hl1
          exact hsame2 e he
        · have hl1 : (th.step m .enterDefault).1.lock = none := by
            refine Option.eq_none_iff_forall_ne_some.2 fun e he => ?_
            have := (no_holder hok' hl)
            rcases alive_iff.1 (lock_eq_some.1 he).2 with ⟨v, hv⟩ | ⟨c, hc, he⟩
            · exact this.1 v e hv
            · rcases List.mem_cons.1 hc with rfl | hc
              · rw [hl] at he; cases he
              · rw [this.2 c hc] at he; cases he
          have hl2 := hnone hl1
          refine Option.eq_none_iff_forall_ne_some.2 fun e he => ?_
          have := (no_holder hok2 hl2)
          rcases alive_iff.1 (lock_eq_some.1 he).2 with ⟨v, hv⟩ | ⟨c, hc, he⟩
          · exact this.1 v e hv
          · rw [this.2 c (by rw [hc1]; exact List.mem_cons_of_mem _ hc)] at he; cases he

/-! ### Schedules of many threads -/

theorem run_cons (s : Threads) (t : Nat) (op : CtxOp) (l : List (Nat × CtxOp)) :
    s.run ((t, op) :: l) = (((s.step t op).1.run l).1, (t, (s.step t op).2) :: ((s.step t op).1.run l).2) :=
  rfl

/-- Seen from one thread a schedule is its own steps, others only take names in between. -/
theorem run_local (l : List (Nat × CtxOp)) : ∀ (s : Threads) (n t : Nat), n ≤ s.next →
    (∀ u, (s.thr u).Ok s.next) →
    (∀ u, ((s.run l).1.thr u).Ok (s.run l).1.next) ∧
    LRun (s.thr t) n (stepsOf t l) ((s.run l).1.thr t) (s.run l).1.next (stepsOf t (s.run l).2) := by
  induction l with
  | nil => intro s n t hn hok; exact ⟨hok, .nil hn⟩
  | cons x l ih =>
    obtain ⟨u, op⟩ := x
    intro s n t hn hok
    have hs := step_ok (hok u) op
    have hok1 : ∀ w, ((s.step u op).1.thr w).Ok (s.step u op).1.next := by
      intro w
      show (if w = u then _ else _ : Thr).Ok _
      by_cases hw : w = u
      · rw [if_pos hw]; exact hs.1
      · rw [if_neg hw]; exact (hok w).mono hs.2
    rw [run_cons]
    by_cases hu : u = t
    · subst hu
      have := ih (s.step u op).1 (s.step u op).1.next u (Nat.le_refl _) hok1
      refine ⟨this.1, ?_⟩
      have h2 := this.2
      have e1 : stepsOf u ((u, op) :: l) = op :: stepsOf u l := by simp [stepsOf]
      have e2 : ∀ o (q : List (Nat × StepEnd)), stepsOf u ((u, o) :: q) = o :: stepsOf u q := by
        intro o q; simp [stepsOf]
      rw [e1, e2]
      refine .cons hn ?_
      have e3 : (s.step u op).1.thr u = ((s.thr u).step s.next op).1 := if_pos rfl
      rw [e3] at h2
      exact h2
    · have hst : n ≤ (s.step u op).1.next := Nat.le_trans hn hs.2
      have := ih (s.step u op).1 n t hst hok1
      refine ⟨this.1, ?_⟩
      have h2 := this.2
      have e1 : stepsOf t ((u, op) :: l) = stepsOf t l := by simp [stepsOf, hu]
      have e2 : ∀ o (q : List (Nat × StepEnd)), stepsOf t ((u, o) :: q) = stepsOf t q := by
        intro o q; simp [stepsOf, hu]
      rw [e1, e2]
      have e3 : (s.step u op).1.thr t = s.thr t := if_neg (fun h => hu h.symm)
      rw [e3] at h2
      exact h2

theorem initial_ok (u : Nat) : (Threads.initial.thr u).Ok 0 := by
  constructor <;> intros <;> first | contradiction | (rename_i h; cases h) | (rename_i h _; cases h) | (rename_i h _ _; cases h)

theorem _root_.Spec.CtxReachable.ok {s : Threads} (h : CtxReachable s) (t : Nat) : (s.thr t).Ok s.next := by
  obtain ⟨l, rfl⟩ := h
  exact (run_local l .initial 0 t (Nat.le_refl 0) initial_ok).1 t

/-! ### The property -/

/-- Whatever the other threads do meanwhile, a thread that makes and destroys contexts in a properly nested
way, of any VMs and to any depth, completes every step, has for every VM the environment it had before, and
the same outer contexts.  If it had an environment nothing about the thread changed at all. -/
theorem contexts_restore {s : Threads} (hs : CtxReachable s) (t : Nat) (l : List (Nat × CtxOp))
    (hn : Nested (stepsOf t l)) :
    (∀ o ∈ stepsOf t (s.run l).2, o = .done) ∧
    (∀ vm, ((s.run l).1.thr t).envOf vm = (s.thr t).envOf vm) ∧
    ((s.run l).1.thr t).lock = (s.thr t).lock ∧
    ((s.run l).1.thr t).ctxs = (s.thr t).ctxs ∧
    ((s.thr t).lock ≠ none → (s.run l).1.thr t = s.thr t) := by
  have hall : ∀ u, (s.thr u).Ok s.next := fun u => hs.ok u
  obtain ⟨hok', hrun⟩ := run_local l s s.next t (Nat.le_refl _) hall
  obtain ⟨hd, hc, hsame, hnone⟩ := nested_effect hn (hall t) hrun
  refine ⟨hd, ?_, ?_, hc, ?_⟩
  · intro vm
    cases hl : (s.thr t).lock with
    | some e => rw [hsame e hl]
    | none =>
      have h1 := (no_holder (hall t) hl).1
      have h2 := (no_holder (hok' t) (hnone hl)).1
      have noEnv : ∀ th : Thr, (∀ v e, (v, some e) ∉ th.entries) → th.envOf vm = none := by
        intro th h
        cases he : th.envOf vm with
        | none => rfl
        | some e => exact absurd (envOf_mem he) (h vm e)
      rw [noEnv _ h1, noEnv _ h2]
  · cases hl : (s.thr t).lock with
    | some e => rw [hsame e hl, hl]
    | none => exact hnone hl
  · intro h
    cases hl : (s.thr t).lock with
    | some e => exact hsame e hl
    | none => exact absurd hl h

/-- At every moment each living context that was made for a VM hands out an environment, and it is the
environment `JniEnvContext::env` refers to on this thread. -/
theorem context_has_env {s : Threads} (hs : CtxReachable s) {t : Nat} {c : Ctx} (hc : c ∈ (s.thr t).ctxs)
    (hm : c.made ≠ none) : ∃ e, c.getJniEnv = .ok e ∧ (s.thr t).lock = some e := by
  cases he : c.env2 with
  | none => exact absurd he ((hs.ok t).ctxEnv c hc hm)
  | some e =>
    refine ⟨e, by simp only [Ctx.getJniEnv, he], ?_⟩
    exact (hs.ok t).lock_alive (alive_iff.2 (.inr ⟨c, hc, he⟩))

/-- A step of one thread changes nothing of another. -/
theorem other_threads (s : Threads) {t u : Nat} (h : u ≠ t) (op : CtxOp) : (s.step t op).1.thr u = s.thr u :=
  if_neg h

/-- A thread that ends with no context left is detached from the VM its environment belongs to, and never
aborts the process. -/
theorem exit_detaches {s : Threads} (hs : CtxReachable s) {t : Nat} (hc : (s.thr t).ctxs = []) :
    (s.step t .exit).2 = .done ∧ ((s.step t .exit).1.thr t).lock = none ∧
    ∀ vm, ((s.step t .exit).1.thr t).envOf vm = none := by
  have hok := hs.ok t
  have key : ∀ e, (s.thr t).lock = some e → ((s.thr t).detach e.vm).lock = none := by
    intro e he
    refine Option.eq_none_iff_forall_ne_some.2 fun e' he' => ?_
    rcases alive_iff.1 (lock_eq_some.1 he').2 with ⟨v, hv⟩ | ⟨c, hcm, _⟩
    · obtain ⟨h1, h2⟩ := mem_erase.1 hv
      have ht : e' = e := Option.some.inj ((hok.entTls v e' h1).symm.trans (lock_eq_some.1 he).1)
      exact h2 (by rw [← ht]; exact (hok.entVm v e' h1).symm)
    · have : c ∈ (s.thr t).ctxs := hcm
      rw [hc] at this; cases this
  have noEnv : ∀ {th : Thr} {n : Nat}, th.Ok n → th.lock = none → ∀ vm, th.envOf vm = none := by
    intro th n h hl vm
    cases he : th.envOf vm with
    | none => rfl
    | some e => exact absurd (envOf_mem he) ((no_holder h hl).1 vm e)
  have e3 : (s.step t .exit).1.thr t = ((s.thr t).step s.next .exit).1 := if_pos rfl
  have e4 : (s.step t .exit).2 = ((s.thr t).step s.next .exit).2.2 := rfl
  rw [e3, e4]
  cases hl : (s.thr t).lock with
  | none =>
    simp only [Thr.step, hl]
    exact ⟨trivial, trivial, noEnv hok hl⟩
  | some e =>
    simp only [Thr.step, hl, key e hl]
    exact ⟨trivial, trivial, noEnv (detach_ok hok e.vm) (key e hl)⟩

theorem envOf_created (th : Thr) (n vm : Nat) : (th.created n vm).envOf vm = some ⟨n, vm⟩ := by
  show (List.lookup vm ((vm, some (⟨n, vm⟩ : EnvObj)) :: eraseEntry vm th.entries)).join = _
  rw [List.lookup_cons, beq_self_eq_true]
  rfl

/-- Attaching a thread that is attached to the VM changes nothing; attaching one without any environment
gives it one of this VM that no thread had before. -/
theorem attach_result {s : Threads} (hs : CtxReachable s) (t vm : Nat) :
    (∀ e, (s.thr t).envOf vm = some e → e.vm = vm ∧ (s.step t (.attach vm)).2 = .done ∧
      (s.step t (.attach vm)).1.thr t = s.thr t) ∧
    ((s.thr t).lock = none → ∃ e : EnvObj, (s.step t (.attach vm)).2 = .done ∧
      ((s.step t (.attach vm)).1.thr t).envOf vm = some e ∧ e.vm = vm ∧
      ∀ u v e', (s.thr u).envOf v = some e' → e'.id ≠ e.id) := by
  have e3 : (s.step t (.attach vm)).1.thr t = ((s.thr t).attach s.next vm).1 := if_pos rfl
  have e4 : (s.step t (.attach vm)).2 = ((s.thr t).attach s.next vm).2.2 := rfl
  rw [e3, e4]
  refine ⟨fun e he => ?_, fun hl => ⟨⟨s.next, vm⟩, ?_⟩⟩
  · rw [attach_eq, he]
    exact ⟨(hs.ok t).entVm vm e (envOf_mem he), rfl, rfl⟩
  · rw [attach_fresh (hs.ok t) hl]
    refine ⟨rfl, envOf_created .., rfl, fun u v e' he => ?_⟩
    exact Nat.ne_of_lt ((hs.ok u).entLt v e' (envOf_mem he))

theorem attach_tls {th : Thr} {n vm : Nat} (h : ∀ e, th.tls = some e → e.vm = vm) :
    ∀ e, (th.attach n vm).1.tls = some e → e.vm = vm := by
  rw [attach_eq]
  cases th.envOf vm with
  | some x => exact h
  | none =>
    cases (th.nulled vm).lock with
    | some x => exact h
    | none => intro e he; cases he; rfl

theorem step_tls {th : Thr} {n vm : Nat} {op : CtxOp} (h : ∀ e, th.tls = some e → e.vm = vm)
    (ho : OnlyVm vm op) : ∀ e, (th.step n op).1.tls = some e → e.vm = vm := by
  cases op with
  | enter v =>
    cases ho
    cases hl : th.lock with
    | some e => simp only [Thr.step, hl]; exact h
    | none =>
      have := attach_tls (n := n) h
      rcases hr : th.attach n vm with ⟨th1, n1, r⟩
      rw [hr] at this
      cases r <;> (simp only [Thr.step, hl, hr]; exact this)
  | enterDefault => exact h
  | leave =>
    cases hc : th.ctxs with
    | nil => simp only [Thr.step, hc]; exact h
    | cons c cs =>
      cases hv : c.vm with
      | none => simp only [Thr.step, hc, hv]; exact h
      | some w => simp only [Thr.step, hc, hv]; exact h
  | attach v => cases ho; exact attach_tls h
  | detach v => exact h
  | exit =>
    cases hl : th.lock with
    | none => simp only [Thr.step, hl]; exact h
    | some e =>
      cases hl2 : (th.detach e.vm).lock <;> (simp only [Thr.step, hl, hl2]; exact h)

theorem LRun.tls {th th' : Thr} {n n' vm : Nat} {ops : List CtxOp} {outs : List StepEnd}
    (h : LRun th n ops th' n' outs) (hv : ∀ e, th.tls = some e → e.vm = vm)
    (ho : ∀ op ∈ ops, OnlyVm vm op) : ∀ e, th'.tls = some e → e.vm = vm := by
  induction h with
  | nil _ => exact hv
  | cons _ _ ih =>
    exact ih (step_tls hv (ho _ (List.mem_cons_self ..))) (fun o h => ho o (List.mem_cons_of_mem _ h))

/-- A context's environment belongs to the VM it was made for if the thread never attaches to another. -/
theorem context_vm (l : List (Nat × CtxOp)) {t vm : Nat} {c : Ctx} (ho : ∀ op ∈ stepsOf t l, OnlyVm vm op)
    (hc : c ∈ ((Threads.initial.run l).1.thr t).ctxs) (hm : c.made ≠ none) :
    ∃ e, c.getJniEnv = .ok e ∧ e.vm = vm := by
  obtain ⟨e, he, hl⟩ := context_has_env ⟨l, rfl⟩ hc hm
  have hrun := (run_local l .initial 0 t (Nat.le_refl 0) initial_ok).2
  exact ⟨e, he, hrun.tls (fun _ h => nomatch h) ho e (lock_eq_some.1 hl).1⟩

/-- But a context made for VM 1 hands out the environment of VM 0 on a thread attached to VM 0. -/
theorem context_wrong_vm : ∃ s, CtxReachable s ∧ ∃ c ∈ (s.thr 0).ctxs, c.made = some 1 ∧
    c.getJniEnv = .ok ⟨0, 0⟩ ∧ (s.thr 0).envOf 1 = none :=
  ⟨_, ⟨[(0, .attach 0), (0, .enter 1)], rfl⟩, ⟨some ⟨0, 0⟩, none, some 1⟩, List.mem_cons_self .., rfl, rfl, rfl⟩

/-- A default context on a thread without environment has none to hand out. -/
theorem context_default_throws : ∃ s, CtxReachable s ∧ ∃ c ∈ (s.thr 0).ctxs,
    c.getJniEnv = .throws .runtimeError :=
  ⟨_, ⟨[(0, .enterDefault)], rfl⟩, ⟨none, none, none⟩, List.mem_cons_self .., rfl⟩

/-- Without nesting the attachment is lost: detaching by hand inside of a context makes the next attach of
the same VM throw and the thread have no environment in the VM's map. -/
theorem detach_inside_context : ∃ s, CtxReachable s ∧ (s.step 0 (.attach 0)).2 = .throws .runtimeError ∧
    ((s.step 0 (.attach 0)).1.thr 0).envOf 0 = none :=
  ⟨_, ⟨[(0, .enter 0), (0, .detach 0)], rfl⟩, rfl, rfl⟩

/-- A thread that ends inside a context aborts the process. -/
theorem exit_inside_context : ∃ s, CtxReachable s ∧ (s.step 0 .exit).2 = .aborts :=
  ⟨_, ⟨[(0, .enter 0)], rfl⟩, rfl⟩

/-- Three contexts of two VMs on thread 0, two of them nested, while thread 1 attaches. -/
example : Nested (stepsOf 0 [(0, .enter 0), (1, .attach 1), (0, .enter 1), (0, .leave), (1, .enter 0),
    (0, .leave), (0, .enterDefault), (0, .leave)]) ∧ CtxReachable Threads.initial :=
  ⟨.enter 0 (inner := [.enter 1, .leave]) (rest := [.enterDefault, .leave])
    (.enter 1 (inner := []) (rest := []) .nil .nil)
    (.enterDefault (inner := []) (rest := []) .nil .nil), [], rfl⟩

/-- A thread attached before. -/
example : ∃ s, CtxReachable s ∧ (s.thr 0).lock = some ⟨0, 3⟩ ∧ (s.thr 0).ctxs = [] :=
  ⟨_, ⟨[(0, .attach 3)], rfl⟩, rfl, rfl⟩

end Jnivm
