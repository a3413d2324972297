import Verif.Spec.Lifetime
import Verif.Props.Context
/-! Helpers for C74. -/
namespace Jnivm
open Spec

theorem lookup_erase_ne {v w : Nat} (h : w ≠ v) (l : List (Nat × Option EnvObj)) :
    (eraseEntry v l).lookup w = l.lookup w := by
  induction l with
  | nil => rfl
  | cons x l ih =>
    obtain ⟨k, o⟩ := x
    unfold eraseEntry at ih ⊢
    by_cases hk : k = v
    · subst hk
      rw [List.filter_cons_of_neg (by simp), ih, List.lookup_cons, show (w == k) = false from beq_false_of_ne h]
    · rw [List.filter_cons_of_pos (by simpa using hk), List.lookup_cons, List.lookup_cons, ih]

theorem lookup_erase_eq (v : Nat) (l : List (Nat × Option EnvObj)) : (eraseEntry v l).lookup v = none := by
  cases h : (eraseEntry v l).lookup v with
  | none => rfl
  | some o => exact absurd rfl (mem_erase.1 (lookup_mem h)).2

theorem envOf_detach_ne (th : Thr) {v w : Nat} (h : w ≠ v) : (th.detach v).envOf w = th.envOf w := by
  unfold Thr.envOf Thr.detach
  rw [lookup_erase_ne h]

theorem envOf_detach_eq (th : Thr) (v : Nat) : (th.detach v).envOf v = none := by
  unfold Thr.envOf Thr.detach
  rw [lookup_erase_eq]; rfl

/-! ### Steps of contexts -/

theorem attach_entries {th : Thr} {n v w : Nat} {o : Option EnvObj} (h : (w, o) ∈ (th.attach n v).1.entries) :
    (∃ o', (w, o') ∈ th.entries) ∨ w = v := by
  rw [attach_eq] at h
  cases he : th.envOf v with
  | some x => rw [he] at h; exact .inl ⟨o, h⟩
  | none =>
    rw [he] at h
    have nul : ∀ {o}, (w, o) ∈ (th.nulled v).entries → (∃ o', (w, o') ∈ th.entries) ∨ w = v := by
      intro o h
      rcases List.mem_cons.1 h with h | h
      · exact .inr (by cases h; rfl)
      · exact .inl ⟨o, (mem_erase.1 h).1⟩
    cases hl : (th.nulled v).lock with
    | some x => rw [hl] at h; exact nul h
    | none =>
      rw [hl] at h
      rcases List.mem_cons.1 h with h | h
      · exact .inr (by cases h; rfl)
      · exact nul (mem_erase.1 h).1

theorem attach_ctxs (th : Thr) (n v : Nat) : (th.attach n v).1.ctxs = th.ctxs := by
  rw [attach_eq]
  cases th.envOf v with
  | some x => rfl
  | none => cases (th.nulled v).lock <;> rfl

theorem step_entries {th : Thr} {n : Nat} {op : CtxOp} {w : Nat} {o : Option EnvObj}
    (h : (w, o) ∈ (th.step n op).1.entries) : (∃ o', (w, o') ∈ th.entries) ∨ th.calls op = some w := by
  cases op with
  | enter v =>
    cases hl : th.lock with
    | some e => simp only [Thr.step, hl] at h; exact .inl ⟨o, h⟩
    | none =>
      have key : (w, o) ∈ (th.attach n v).1.entries := by
        rcases hr : th.attach n v with ⟨th1, n1, r⟩
        simp only [Thr.step, hl, hr] at h
        cases r <;> exact h
      rcases attach_entries key with h | rfl
      · exact .inl h
      · exact .inr (by simp [Thr.calls, hl])
  | enterDefault => exact .inl ⟨o, h⟩
  | leave =>
    cases hc : th.ctxs with
    | nil => simp only [Thr.step, hc] at h; exact .inl ⟨o, h⟩
    | cons c cs =>
      cases hv : c.vm with
      | none => simp only [Thr.step, hc, hv] at h; exact .inl ⟨o, h⟩
      | some x =>
        simp only [Thr.step, hc, hv] at h
        exact .inl ⟨o, (mem_erase.1 h).1⟩
  | attach v =>
    rcases attach_entries h with h | rfl
    · exact .inl h
    · exact .inr rfl
  | detach v => exact .inl ⟨o, (mem_erase.1 h).1⟩
  | exit =>
    cases hl : th.lock with
    | none => simp only [Thr.step, hl] at h; exact .inl ⟨o, h⟩
    | some e =>
      cases hl2 : (th.detach e.vm).lock with
      | none => simp only [Thr.step, hl, hl2] at h; exact .inl ⟨o, (mem_erase.1 h).1⟩
      | some x => simp only [Thr.step, hl, hl2] at h; exact .inl ⟨o, (mem_erase.1 h).1⟩

theorem step_ctxs {th : Thr} {n : Nat} (hok : th.Ok n) {op : CtxOp} {c : Ctx} (h : c ∈ (th.step n op).1.ctxs) :
    c ∈ th.ctxs ∨ ((∀ v, c.vm = some v → th.calls op = some v) ∧
      ∀ e, c.env2 = some e → th.lock = some e ∨ th.calls op = some e.vm) := by
  cases op with
  | enter v =>
    cases hl : th.lock with
    | some e =>
      simp only [Thr.step, hl] at h
      rcases List.mem_cons.1 h with rfl | h
      · exact .inr ⟨fun _ h => (nomatch h), fun _ h => .inl h⟩
      · exact .inl h
    | none =>
      rw [enter_none hok hl] at h
      rcases List.mem_cons.1 h with rfl | h
      · refine .inr ⟨fun w h => ?_, fun e h => .inr ?_⟩
        · cases h; simp [Thr.calls, hl]
        · cases h; simp [Thr.calls, hl]
      · exact .inl h
  | enterDefault =>
    rcases List.mem_cons.1 h with rfl | h
    · exact .inr ⟨fun _ h => (nomatch h), fun _ h => .inl h⟩
    · exact .inl h
  | leave =>
    cases hc : th.ctxs with
    | nil => simp only [Thr.step, hc] at h; exact .inl h
    | cons c cs =>
      cases hv : c.vm <;> (simp only [Thr.step, hc, hv] at h; exact .inl (List.mem_cons_of_mem _ h))
  | attach v => rw [show (th.step n (.attach v)).1.ctxs = _ from attach_ctxs ..] at h; exact .inl h
  | detach v => exact .inl h
  | exit =>
    cases hl : th.lock with
    | none => simp only [Thr.step, hl] at h; exact .inl h
    | some e =>
      cases hl2 : (th.detach e.vm).lock <;> (simp only [Thr.step, hl, hl2] at h; exact .inl h)

/-! ### Invariants -/

/-- Holds in every state. -/
structure ProcInv (p : Process) : Prop where
  ok : ∀ u, (p.threads.thr u).Ok p.threads.next
  entries : ∀ u v o, (v, o) ∈ (p.threads.thr u).entries → p.vms v = .alive

/-- Holds if all steps were careful. -/
structure CareInv (p : Process) : Prop extends ProcInv p where
  ctxVm : ∀ u, ∀ c ∈ (p.threads.thr u).ctxs, ∀ v, c.vm = some v → p.vms v = .alive
  ctxEnv : ∀ u, ∀ c ∈ (p.threads.thr u).ctxs, ∀ e, c.env2 = some e → p.vms e.vm = .alive

theorem initial_careInv : CareInv .initial :=
  ⟨⟨initial_ok, fun _ _ _ h => nomatch h⟩, fun _ _ h => (nomatch h), fun _ _ h => (nomatch h)⟩

/-- What `make` does if the thread has no environment. -/
def Thr.gets (th : Thr) (n v : Nat) : Thr :=
  { th with tls := some ⟨n, v⟩, entries := (v, some ⟨n, v⟩) :: th.entries }

theorem gets_ok {th : Thr} {n : Nat} (h : th.Ok n) (hl : th.lock = none) (v : Nat) : (th.gets n v).Ok (n + 1) := by
  obtain ⟨he, hc⟩ := no_holder h hl
  have only : ∀ w e, (w, some e) ∈ (th.gets n v).entries → w = v ∧ e = ⟨n, v⟩ := by
    intro w e hm
    rcases List.mem_cons.1 hm with hm | hm
    · cases hm; exact ⟨rfl, rfl⟩
    · exact absurd hm (he w e)
  refine ⟨?_, ?_, ?_, ?_, ?_, ?_, ?_⟩
  · intro e he; cases he; exact Nat.lt_succ_self n
  · intro w e hm; rw [(only w e hm).2]; exact Nat.lt_succ_self n
  · intro c hm e h1; rw [hc c hm] at h1; exact nomatch h1
  · intro w e hm; rw [(only w e hm).2]; rfl
  · intro w e hm; rw [(only w e hm).1, (only w e hm).2]
  · intro c hm e h1; rw [hc c hm] at h1; exact nomatch h1
  · exact h.ctxEnv

/-- The state after a VM was made. -/
def Process.made (p : Process) (t v : Nat) : Process :=
  (Process.mk (p.threads.set t ((p.threads.thr t).gets p.threads.next v) (p.threads.next + 1)) p.vms).setVm v .alive

theorem make_none {p : Process} {t : Nat} (hl : (p.threads.thr t).lock = none) (v : Nat) :
    p.make t v = (p.made t v, .done) := by
  unfold Process.make
  simp only [hl]
  rfl

theorem make_some {p : Process} {t : Nat} {e : EnvObj} (hl : (p.threads.thr t).lock = some e) (v : Nat) :
    p.make t v = (p, .throws .runtimeError) := by
  unfold Process.make
  simp only [hl]

theorem set_thr (s : Threads) (t : Nat) (th : Thr) (n u : Nat) :
    (s.set t th n).thr u = if u = t then th else s.thr u := rfl

/-- A step of a thread alone. -/
theorem set_ok {s : Threads} (h : ∀ u, (s.thr u).Ok s.next) {t : Nat} {th : Thr} {n : Nat} (ht : th.Ok n)
    (hn : s.next ≤ n) : ∀ u, ((s.set t th n).thr u).Ok (s.set t th n).next := by
  intro u
  rw [set_thr]
  by_cases hu : u = t
  · rw [if_pos hu]; exact ht
  · rw [if_neg hu]; exact (h u).mono hn

theorem step_threads (s : Threads) (t : Nat) (op : CtxOp) :
    (s.step t op).1 = s.set t ((s.thr t).step s.next op).1 ((s.thr t).step s.next op).2.1 := rfl

theorem ctx_step {p : Process} {t : Nat} {op : CtxOp} (h : ∀ v, (p.threads.thr t).calls op = some v → p.vms v = .alive) :
    p.step t (.ctx op) = .ok ({ p with threads := (p.threads.step t op).1 }, .ended (p.threads.step t op).2) := by
  cases hc : (p.threads.thr t).calls op with
  | none => simp only [Process.step, hc]
  | some v => simp only [Process.step, hc]; rw [if_pos (h v hc)]

theorem ctx_step_inv {p q : Process} {t : Nat} {op : CtxOp} {e : ProcEnd} (h : p.step t (.ctx op) = .ok (q, e)) :
    (∀ v, (p.threads.thr t).calls op = some v → p.vms v = .alive) ∧
    q = { p with threads := (p.threads.step t op).1 } ∧ e = .ended (p.threads.step t op).2 := by
  cases hc : (p.threads.thr t).calls op with
  | none =>
    simp only [Process.step, hc] at h
    cases h
    exact ⟨fun _ h => (nomatch h), rfl, rfl⟩
  | some v =>
    simp only [Process.step, hc] at h
    by_cases hv : p.vms v = .alive
    · rw [if_pos hv] at h
      cases h
      exact ⟨fun w h => by cases h; exact hv, rfl, rfl⟩
    · rw [if_neg hv] at h; exact nomatch h

/-- Steps that only look. -/
theorem use_same {p q : Process} {t : Nat} {e : ProcEnd} (h : p.step t .use = .ok (q, e)) : q = p := by
  simp only [Process.step] at h
  split at h
  · cases h; rfl
  · split at h
    · split at h
      · cases h; rfl
      · exact nomatch h
    · cases h; rfl
    · exact nomatch h
    · exact nomatch h

theorem direct_same {p q : Process} {t v : Nat} {e : ProcEnd} (h : p.step t (.direct v) = .ok (q, e)) : q = p := by
  simp only [Process.step] at h
  split at h
  · split at h
    · cases h; rfl
    · exact nomatch h
  · exact nomatch h

theorem make_step {p q : Process} {t v : Nat} {e : ProcEnd} (h : p.step t (.make v) = .ok (q, e)) :
    q = p ∨ (p.vms v = .unmade ∧ (p.threads.thr t).lock = none ∧
      q = p.made t v) := by
  simp only [Process.step] at h
  by_cases hv : p.vms v = .unmade
  · rw [if_pos hv] at h
    cases h
    cases hl : (p.threads.thr t).lock with
    | some x => rw [make_some hl]; exact .inl rfl
    | none => rw [make_none hl]; exact .inr ⟨hv, rfl, rfl⟩
  · rw [if_neg hv] at h; cases h; exact .inl rfl

theorem destroy_step {p q : Process} {t v : Nat} {e : ProcEnd} (h : p.step t (.destroy v) = .ok (q, e)) :
    p.vms v = .alive ∧ q = ({ p with threads := p.threads.forget v } : Process).setVm v .gone ∧
      e = .ended .done := by
  simp only [Process.step] at h
  by_cases hv : p.vms v = .alive
  · rw [if_pos hv] at h
    cases h
    exact ⟨hv, rfl, rfl⟩
  · rw [if_neg hv] at h; exact nomatch h

theorem procInv_step {p q : Process} {t : Nat} {op : ProcOp} {e : ProcEnd} (inv : ProcInv p)
    (h : p.step t op = .ok (q, e)) : ProcInv q := by
  cases op with
  | make v =>
    rcases make_step h with rfl | ⟨hv, hl, rfl⟩
    · exact inv
    · refine ⟨set_ok inv.ok (gets_ok (inv.ok t) hl v) (Nat.le_succ _), fun u w o hm => ?_⟩
      simp only [Process.made, Process.setVm] at hm ⊢
      by_cases hw : w = v
      · rw [if_pos hw]
      · rw [if_neg hw]
        rw [set_thr] at hm
        by_cases hu : u = t
        · rw [if_pos hu] at hm
          rcases List.mem_cons.1 hm with hm | hm
          · cases hm; exact absurd rfl hw
          · exact inv.entries t w o hm
        · rw [if_neg hu] at hm; exact inv.entries u w o hm
  | destroy v =>
    obtain ⟨hv, rfl, _⟩ := destroy_step h
    refine ⟨fun u => detach_ok (inv.ok u) v, fun u w o hm => ?_⟩
    obtain ⟨h1, h2⟩ := mem_erase.1 (show (w, o) ∈ eraseEntry v (p.threads.thr u).entries from hm)
    simp only [Process.setVm]
    rw [if_neg h2]
    exact inv.entries u w o h1
  | ctx op =>
    obtain ⟨hc, rfl, _⟩ := ctx_step_inv h
    obtain ⟨h1, h2⟩ := step_ok (inv.ok t) op
    refine ⟨set_ok inv.ok h1 h2, fun u w o hm => ?_⟩
    rw [show (p.threads.step t op).1 = _ from step_threads .., set_thr] at hm
    by_cases hu : u = t
    · rw [if_pos hu] at hm
      rcases step_entries hm with ⟨o', hm⟩ | hm
      · exact inv.entries t w o' hm
      · exact hc w hm
    · rw [if_neg hu] at hm; exact inv.entries u w o hm
  | use => rw [use_same h]; exact inv
  | direct v => rw [direct_same h]; exact inv

theorem _root_.Jnivm.CareInv.lock {p : Process} (inv : CareInv p) {u : Nat} {e : EnvObj}
    (h : (p.threads.thr u).lock = some e) : p.vms e.vm = .alive := by
  rcases alive_iff.1 (lock_eq_some.1 h).2 with ⟨v, hv⟩ | ⟨c, hc, he⟩
  · rw [(inv.ok u).entVm v e hv]; exact inv.entries u v _ hv
  · exact inv.ctxEnv u c hc e he

theorem careInv_step {p q : Process} {t : Nat} {op : ProcOp} {e : ProcEnd} (inv : CareInv p) (hc : Careful p t op)
    (h : p.step t op = .ok (q, e)) : CareInv q := by
  suffices hs : (∀ u, ∀ c ∈ (q.threads.thr u).ctxs, ∀ v, c.vm = some v → q.vms v = .alive) ∧
      ∀ u, ∀ c ∈ (q.threads.thr u).ctxs, ∀ e, c.env2 = some e → q.vms e.vm = .alive from
    ⟨procInv_step inv.toProcInv h, hs.1, hs.2⟩
  cases op with
  | make v =>
    rcases make_step h with rfl | ⟨hv, hl, rfl⟩
    · exact ⟨inv.ctxVm, inv.ctxEnv⟩
    · have key : ∀ u, ((p.threads.set t ((p.threads.thr t).gets p.threads.next v) (p.threads.next + 1)).thr u).ctxs =
          (p.threads.thr u).ctxs := by
        intro u
        rw [set_thr]
        by_cases hu : u = t
        · rw [if_pos hu, hu]; rfl
        · rw [if_neg hu]
      refine ⟨fun u c hc w hw => ?_, fun u c hc e he => ?_⟩
      · have := inv.ctxVm u c (key u ▸ hc) w hw
        simp only [Process.made, Process.setVm]
        rw [if_neg (fun h => by rw [h, hv] at this; exact nomatch this)]
        exact this
      · have := inv.ctxEnv u c (key u ▸ hc) e he
        simp only [Process.made, Process.setVm]
        rw [if_neg (fun h => by rw [h, hv] at this; exact nomatch this)]
        exact this
  | destroy v =>
    obtain ⟨hv, rfl, _⟩ := destroy_step h
    refine ⟨fun u c hm w hw => ?_, fun u c hm e he => ?_⟩
    · simp only [Process.setVm]
      rw [if_neg (fun h : w = v => (hc.2 u c hm).1 (h ▸ hw))]
      exact inv.ctxVm u c hm w hw
    · simp only [Process.setVm]
      rw [if_neg ((hc.2 u c hm).2 e he)]
      exact inv.ctxEnv u c hm e he
  | ctx op =>
    obtain ⟨ha, rfl, _⟩ := ctx_step_inv h
    refine ⟨fun u c hm w hw => ?_, fun u c hm e he => ?_⟩
    all_goals
      rw [show (p.threads.step t op).1 = _ from step_threads .., set_thr] at hm
      by_cases hu : u = t
      case neg =>
        rw [if_neg hu] at hm
        first | exact inv.ctxVm u c hm w hw | exact inv.ctxEnv u c hm e he
      rw [if_pos hu] at hm
      rcases step_ctxs (inv.ok t) hm with hm | ⟨h1, h2⟩
    · exact inv.ctxVm t c hm w hw
    · exact ha w (h1 w hw)
    · exact inv.ctxEnv t c hm e he
    · rcases h2 e he with h | h
      · exact inv.lock h
      · exact ha _ h
  | use => rw [use_same h]; exact ⟨inv.ctxVm, inv.ctxEnv⟩
  | direct v => rw [direct_same h]; exact ⟨inv.ctxVm, inv.ctxEnv⟩

/-- A careful step is defined. -/
theorem careful_ok {p : Process} {t : Nat} {op : ProcOp} (inv : CareInv p) (hc : Careful p t op) :
    ∃ q e, p.step t op = .ok (q, e) ∧ ∀ x, e = .env x → p.vms x.vm = .alive := by
  cases op with
  | make v =>
    simp only [Process.step]
    by_cases hv : p.vms v = .unmade
    · rw [if_pos hv]; exact ⟨_, _, rfl, fun _ h => (nomatch h)⟩
    · rw [if_neg hv]; exact ⟨_, _, rfl, fun _ h => (nomatch h)⟩
  | destroy v =>
    simp only [Process.step]
    rw [if_pos hc.1]
    exact ⟨_, _, rfl, fun _ h => (nomatch h)⟩
  | ctx op =>
    refine ⟨_, _, ctx_step (fun v hv => ?_), fun _ h => (nomatch h)⟩
    cases op with
    | enter w =>
      simp only [Thr.calls] at hv
      split at hv
      · cases hv; exact hc
      · exact nomatch hv
    | enterDefault => exact nomatch hv
    | leave =>
      cases hx : (p.threads.thr t).ctxs with
      | nil => simp only [Thr.calls, hx] at hv; exact nomatch hv
      | cons c cs =>
        simp only [Thr.calls, hx] at hv
        exact inv.ctxVm t c (by rw [hx]; exact List.mem_cons_self) v hv
    | attach w => cases hv; exact hc
    | detach w => cases hv; exact hc
    | exit =>
      cases hl : (p.threads.thr t).lock with
      | none => simp only [Thr.calls, hl] at hv; exact nomatch hv
      | some e =>
        simp only [Thr.calls, hl] at hv
        cases hv
        exact inv.lock hl
  | use =>
    cases hx : (p.threads.thr t).ctxs with
    | nil => simp only [Process.step, hx]; exact ⟨_, _, rfl, fun _ h => (nomatch h)⟩
    | cons c cs =>
      cases he : c.env2 with
      | none => simp only [Process.step, hx, Ctx.getJniEnv, he]; exact ⟨_, _, rfl, fun _ h => (nomatch h)⟩
      | some e =>
        have ha := inv.ctxEnv t c (by rw [hx]; exact List.mem_cons_self) e he
        simp only [Process.step, hx, Ctx.getJniEnv, he]
        rw [if_pos ha]
        exact ⟨_, _, rfl, fun x h => by cases h; exact ha⟩
  | direct v =>
    cases he : (p.threads.thr t).envOf v with
    | none => exact absurd he hc.2
    | some e =>
      simp only [Process.step, he]
      rw [if_pos hc.1]
      refine ⟨_, _, rfl, fun x h => ?_⟩
      cases h
      rw [(inv.ok t).entVm v e (envOf_mem he)]
      exact hc.1

theorem run_procInv {l : List (Nat × ProcOp)} : ∀ {p q : Process} {es : List (Nat × ProcEnd)}, ProcInv p →
    p.run l = .ok (q, es) → ProcInv q := by
  induction l with
  | nil => intro p q es inv h; cases h; exact inv
  | cons x l ih =>
    obtain ⟨t, op⟩ := x
    intro p q es inv h
    obtain ⟨⟨p1, e⟩, h1, h2⟩ := Res.bind_eq_ok.1 h
    obtain ⟨⟨p2, es2⟩, h3, h4⟩ := Res.bind_eq_ok.1 h2
    cases h4
    exact ih (procInv_step inv h1) h3

theorem _root_.Spec.ProcReachable.inv {p : Process} (h : ProcReachable p) : ProcInv p := by
  obtain ⟨l, es, h⟩ := h
  exact run_procInv initial_careInv.toProcInv h

/-! ### Threads that keep to themselves -/

/-- Contexts that were made when there was no VM. -/
def EmptyCtxs (cs : List Ctx) (vars : List (Option Nat)) : Prop :=
  vars = cs.map (fun _ => none) ∧ ∀ c ∈ cs, c.env2 = none ∧ c.vm = none

/-- The state of a thread with these variables. -/
inductive Owns (th : Thr) : List (Option Nat) → Prop where
  | idle {vars : List (Option Nat)} : EmptyCtxs th.ctxs vars → (∀ v e, (v, some e) ∉ th.entries) → Owns th vars
  | busy {vars : List (Option Nat)} (v : Nat) (e : EnvObj) (A B : List Ctx) : th.ctxs = A ++ B → EmptyCtxs B vars →
      (∀ c ∈ A, c.env2 = some e ∧ c.vm = none) → e.vm = v → th.tls = some e → th.envOf v = some e →
      (∀ w x, (w, some x) ∈ th.entries → w = v ∧ x = e) → Owns th (A.map (fun _ => none) ++ some v :: vars)

theorem _root_.Jnivm.EmptyCtxs.no_vm {cs : List Ctx} {vars : List (Option Nat)} (h : EmptyCtxs cs vars) (v : Nat) :
    some v ∉ vars := by
  rw [h.1]; simp

theorem idle_lock {th : Thr} {vars : List (Option Nat)} (h : EmptyCtxs th.ctxs vars)
    (he : ∀ v e, (v, some e) ∉ th.entries) : th.lock = none := by
  cases hl : th.lock with
  | none => rfl
  | some e =>
    rcases alive_iff.1 (lock_eq_some.1 hl).2 with ⟨v, hv⟩ | ⟨c, hc, h2⟩
    · exact absurd hv (he v e)
    · rw [(h.2 c hc).1] at h2; exact nomatch h2

theorem busy_lock {th : Thr} {v : Nat} {e : EnvObj} (ht : th.tls = some e) (he : th.envOf v = some e) :
    th.lock = some e :=
  lock_eq_some.2 ⟨ht, alive_iff.2 (.inl ⟨v, envOf_mem he⟩)⟩

/-- Another VM is destroyed. -/
theorem owns_detach {th : Thr} {vars : List (Option Nat)} (h : Owns th vars) {w : Nat} (hw : some w ∉ vars) :
    Owns (th.detach w) vars := by
  cases h with
  | idle h1 h2 => exact .idle h1 fun v e hm => h2 v e (mem_erase.1 hm).1
  | busy v e A B h1 h2 h3 h4 h5 h6 h7 =>
    refine .busy v e A B h1 h2 h3 h4 h5 ?_ fun x y hm => h7 x y (mem_erase.1 hm).1
    rw [envOf_detach_ne th (fun h => hw (by simp [h])), h6]

/-- Its own VM is destroyed. -/
theorem owns_destroy {th : Thr} {vars : List (Option Nat)} {v : Nat} (h : Owns th (some v :: vars)) :
    Owns (th.detach v) vars ∧ ∀ w, some w ∉ vars := by
  generalize hg : some v :: vars = g at h
  cases h with
  | idle h1 h2 => exact absurd (by rw [← hg]; exact List.mem_cons_self) (h1.no_vm v)
  | busy w e A B h1 h2 h3 h4 h5 h6 h7 =>
    cases A with
    | cons a A => exact nomatch hg
    | nil =>
      obtain ⟨rfl, rfl⟩ : v = w ∧ vars = _ := by simpa using hg
      refine ⟨.idle (by rw [show (th.detach v).ctxs = B from h1]; exact h2) fun x y hm => ?_, h2.no_vm⟩
      have := mem_erase.1 hm
      exact this.2 (h7 x y this.1).1

theorem owns_make {th : Thr} {vars : List (Option Nat)} (h : Owns th vars) (hn : ∀ w, some w ∉ vars) (n v : Nat) :
    th.lock = none ∧ Owns (th.gets n v) (some v :: vars) := by
  cases h with
  | idle h1 h2 =>
    refine ⟨idle_lock h1 h2, .busy v ⟨n, v⟩ [] th.ctxs rfl h1 (fun c hc => nomatch hc) rfl rfl ?_ ?_⟩
    · show (List.lookup v ((v, some (⟨n, v⟩ : EnvObj)) :: th.entries)).join = _
      rw [List.lookup_cons, beq_self_eq_true]
      rfl
    · intro w x hm
      rcases List.mem_cons.1 hm with hm | hm
      · cases hm; exact ⟨rfl, rfl⟩
      · exact absurd hm (h2 w x)
  | busy w e A B h1 h2 h3 h4 h5 h6 h7 => exact absurd (by simp) (hn w)

theorem owns_enter {th : Thr} {vars : List (Option Nat)} (h : Owns th vars) (c : Ctx) (hv : c.vm = none)
    (he : c.env2 = th.lock) : Owns { th with ctxs := c :: th.ctxs } (none :: vars) := by
  cases h with
  | idle h1 h2 =>
    rw [idle_lock h1 h2] at he
    refine .idle ⟨by rw [h1.1]; rfl, fun d hd => ?_⟩ h2
    rcases List.mem_cons.1 hd with rfl | hd
    · exact ⟨he, hv⟩
    · exact h1.2 d hd
  | busy v e A B h1 h2 h3 h4 h5 h6 h7 =>
    rw [busy_lock h5 h6] at he
    refine .busy v e (c :: A) B (by simp [h1]) h2 (fun d hd => ?_) h4 h5 h6 h7
    rcases List.mem_cons.1 hd with rfl | hd
    · exact ⟨he, hv⟩
    · exact h3 d hd

theorem owns_leave {th : Thr} {vars : List (Option Nat)} (h : Owns th (none :: vars)) :
    ∃ c cs, th.ctxs = c :: cs ∧ c.vm = none ∧ Owns { th with ctxs := cs } vars ∧
      (∀ v, some v ∈ vars → ∃ e, c.env2 = some e ∧ e.vm = v) := by
  generalize hg : none :: vars = g at h
  cases h with
  | idle h1 h2 =>
    obtain ⟨h3, h4⟩ := h1
    cases hc : th.ctxs with
    | nil => rw [hc] at h3; rw [h3] at hg; exact nomatch hg
    | cons c cs =>
      rw [hc, ← hg] at h3
      have h3 : vars = cs.map (fun _ => none) := by simpa using h3
      refine ⟨c, cs, rfl, (h4 c (by rw [hc]; exact List.mem_cons_self)).2, .idle ⟨h3, fun d hd => ?_⟩ h2, fun v hv => ?_⟩
      · exact h4 d (by rw [hc]; exact List.mem_cons_of_mem _ hd)
      · rw [h3] at hv; simp at hv
  | busy v e A B h1 h2 h3 h4 h5 h6 h7 =>
    cases A with
    | nil => exact nomatch hg
    | cons c A =>
      obtain rfl : vars = A.map (fun _ => none) ++ some v :: _ := by simpa using hg
      have hc := h3 c List.mem_cons_self
      refine ⟨c, A ++ B, h1, hc.2, .busy v e A B rfl h2 (fun d hd => h3 d (List.mem_cons_of_mem _ hd)) h4 h5 h6 h7, fun w hw => ?_⟩
      rcases List.mem_append.1 hw with hw | hw
      · simp at hw
      · rcases List.mem_cons.1 hw with hw | hw
        · cases hw; exact ⟨e, hc.1, h4⟩
        · exact absurd hw (h2.no_vm w)

theorem owns_vm {th : Thr} {vars : List (Option Nat)} (h : Owns th vars) {v : Nat} (hv : some v ∈ vars) :
    ∃ e, e.vm = v ∧ th.envOf v = some e ∧ th.lock = some e := by
  cases h with
  | idle h1 _ => exact absurd hv (h1.no_vm v)
  | busy w e A B h1 h2 h3 h4 h5 h6 h7 =>
    obtain rfl : v = w := by
      rcases List.mem_append.1 hv with hv | hv
      · simp at hv
      · rcases List.mem_cons.1 hv with hv | hv
        · cases hv; rfl
        · exact absurd hv (h2.no_vm v)
    exact ⟨e, h4, h6, busy_lock h5 h6⟩

/-- The state of all threads with these variables and the steps they will take; `M` are all VMs that are made. -/
structure Apart (M : List (Nat × Nat)) (p : Process) (vars : Nat → List (Option Nat)) (l : List (Nat × ProcOp)) : Prop where
  owns : ∀ u, Owns (p.threads.thr u) (vars u)
  auto : ∀ u, Automatic (vars u) (stepsOf u l)
  alive : ∀ u v, some v ∈ vars u → p.vms v = .alive ∧ (u, v) ∈ M
  one : ∀ u u' v, some v ∈ vars u → some v ∈ vars u' → u = u'
  new : ∀ x ∈ makes l, p.vms x.2 = .unmade ∧ x ∈ M
  distinct : ((makes l).map (·.2)).Nodup

theorem stepsOf_same (t : Nat) (op : ProcOp) (l : List (Nat × ProcOp)) : stepsOf t ((t, op) :: l) = op :: stepsOf t l := by
  simp [stepsOf]

theorem stepsOf_other {t u : Nat} (h : u ≠ t) (op : ProcOp) (l : List (Nat × ProcOp)) :
    stepsOf u ((t, op) :: l) = stepsOf u l := by
  simp [stepsOf, Ne.symm h]

/-- The variables of thread `t` are replaced. -/
def setVars (vars : Nat → List (Option Nat)) (t : Nat) (x : List (Option Nat)) : Nat → List (Option Nat) :=
  fun u => if u = t then x else vars u

theorem setVars_same (vars : Nat → List (Option Nat)) (t : Nat) : setVars vars t (vars t) = vars := by
  funext u
  unfold setVars
  by_cases h : u = t
  · rw [if_pos h, h]
  · rw [if_neg h]

theorem setVars_pop {vars : Nat → List (Option Nat)} {t u : Nat} {x : List (Option Nat)} {a : Option Nat}
    (h : vars t = a :: x) {v : Nat} (hv : some v ∈ setVars vars t x u) : some v ∈ vars u := by
  unfold setVars at hv
  by_cases hu : u = t
  · rw [if_pos hu] at hv; rw [hu, h]; exact List.mem_cons_of_mem _ hv
  · rw [if_neg hu] at hv; exact hv

/-- A step that changes only thread `t` and no VM. -/
theorem Apart.local {M : List (Nat × Nat)} {p : Process} {vars : Nat → List (Option Nat)} {t : Nat} {op : ProcOp}
    {l : List (Nat × ProcOp)} (h : Apart M p vars ((t, op) :: l)) (hm : makes ((t, op) :: l) = makes l)
    {th : Thr} {n : Nat} {x : List (Option Nat)} (ho : Owns th x) (ha : Automatic x (stepsOf t l))
    (hx : ∀ v, some v ∈ x → some v ∈ vars t) :
    Apart M { p with threads := p.threads.set t th n } (setVars vars t x) l := by
  have sub : ∀ u v, some v ∈ setVars vars t x u → some v ∈ vars u := by
    intro u v hv
    unfold setVars at hv
    by_cases hu : u = t
    · rw [if_pos hu] at hv; rw [hu]; exact hx v hv
    · rw [if_neg hu] at hv; exact hv
  refine ⟨fun u => ?_, fun u => ?_, fun u v hv => h.alive u v (sub u v hv),
    fun u u' v h1 h2 => h.one u u' v (sub u v h1) (sub u' v h2), fun y hy => h.new y (hm ▸ hy), hm ▸ h.distinct⟩
  · unfold setVars
    rw [set_thr]
    by_cases hu : u = t
    · rw [if_pos hu, if_pos hu]; exact ho
    · rw [if_neg hu, if_neg hu]; exact h.owns u
  · unfold setVars
    by_cases hu : u = t
    · rw [if_pos hu, hu]; exact ha
    · rw [if_neg hu]
      have := h.auto u
      rwa [stepsOf_other hu] at this

theorem makes_make (t v : Nat) (l : List (Nat × ProcOp)) : makes ((t, .make v) :: l) = (t, v) :: makes l := rfl

theorem same_thread (p : Process) (t : Nat) : p = { p with threads := p.threads.set t (p.threads.thr t) p.threads.next } := by
  obtain ⟨⟨thr, n⟩, vms⟩ := p
  simp only [Threads.set]
  congr 2
  funext u
  by_cases h : u = t
  · rw [if_pos h, h]
  · rw [if_neg h]

theorem apart_run (M : List (Nat × Nat)) : ∀ (l : List (Nat × ProcOp)) {p : Process} {vars : Nat → List (Option Nat)},
    Apart M p vars l → ∃ q es, p.run l = .ok (q, es) ∧
      ∀ x ∈ es, x.2 = .ended .done ∨ ∃ e : EnvObj, x.2 = .env e ∧ (x.1, e.vm) ∈ M := by
  intro l
  induction l with
  | nil => intro p vars _; exact ⟨p, [], rfl, fun _ h => nomatch h⟩
  | cons y l ih =>
    obtain ⟨t, op⟩ := y
    intro p vars h
    -- one step, then the others
    suffices hs : ∃ p1 vars1 e, p.step t op = .ok (p1, e) ∧ Apart M p1 vars1 l ∧
        (e = .ended .done ∨ ∃ x : EnvObj, e = .env x ∧ (t, x.vm) ∈ M) by
      obtain ⟨p1, vars1, e, h1, h2, h3⟩ := hs
      obtain ⟨q, es, h4, h5⟩ := ih h2
      refine ⟨q, (t, e) :: es, ?_, fun x hx => ?_⟩
      · simp only [Process.run, h1, h4, Res.bind_ok]
      · rcases List.mem_cons.1 hx with rfl | hx
        · exact h3
        · exact h5 x hx
    have ha := h.auto t
    rw [stepsOf_same] at ha
    generalize hvars : vars t = vt at ha
    have hown := h.owns t
    rw [hvars] at hown
    cases ha with
    | make hn ha =>
      rename_i v
      have hv := (h.new (t, v) (by rw [makes_make]; exact List.mem_cons_self))
      obtain ⟨hl, ho⟩ := owns_make hown hn p.threads.next v
      have hd := h.distinct
      rw [makes_make, List.map_cons, List.nodup_cons] at hd
      have nov : ∀ u, some v ∉ vars u := fun u hm => by
        have := (h.alive u v hm).1; rw [hv.1] at this; exact nomatch this
      refine ⟨p.made t v, setVars vars t (some v :: vt), .ended .done, ?_, ⟨fun u => ?_, fun u => ?_, fun u w hw => ?_,
        fun u u' w h1 h2 => ?_, fun x hx => ?_, hd.2⟩, .inl rfl⟩
      · simp only [Process.step]
        rw [if_pos hv.1, make_none hl]
      · unfold setVars
        show Owns ((p.threads.set t _ _).thr u) _
        rw [set_thr]
        by_cases hu : u = t
        · rw [if_pos hu, if_pos hu]; exact ho
        · rw [if_neg hu, if_neg hu]; exact h.owns u
      · unfold setVars
        by_cases hu : u = t
        · rw [if_pos hu, hu]; exact ha
        · rw [if_neg hu]
          have := h.auto u
          rwa [stepsOf_other hu] at this
      · unfold setVars at hw
        simp only [Process.made, Process.setVm]
        by_cases hu : u = t
        · rw [if_pos hu] at hw
          rcases List.mem_cons.1 hw with hw | hw
          · cases hw; rw [if_pos rfl, hu]; exact ⟨rfl, hv.2⟩
          · exact absurd hw (hn w)
        · rw [if_neg hu] at hw
          rw [if_neg (fun he : w = v => nov u (he ▸ hw))]
          exact h.alive u w hw
      · unfold setVars at h1 h2
        have key : ∀ u, (if u = t then some v :: vt else vars u) = some v :: vt ∧ u = t ∨
            (if u = t then some v :: vt else vars u) = vars u ∧ u ≠ t := by
          intro u
          by_cases hu : u = t
          · exact .inl ⟨if_pos hu, hu⟩
          · exact .inr ⟨if_neg hu, hu⟩
        have first : ∀ w, some w ∈ some v :: vt → w = v := by
          intro w hw
          rcases List.mem_cons.1 hw with hw | hw
          · cases hw; rfl
          · exact absurd hw (hn w)
        rcases key u with ⟨e1, hu⟩ | ⟨e1, hu⟩ <;> rcases key u' with ⟨e2, hu'⟩ | ⟨e2, hu'⟩ <;> rw [e1] at h1 <;> rw [e2] at h2
        · rw [hu, hu']
        · exact absurd (first w h1 ▸ h2) (nov u')
        · exact absurd (first w h2 ▸ h1) (nov u)
        · exact h.one u u' w h1 h2
      · have := h.new x (by rw [makes_make]; exact List.mem_cons_of_mem _ hx)
        simp only [Process.made, Process.setVm]
        rw [if_neg (fun he : x.2 = v => hd.1 (List.mem_map.2 ⟨x, hx, he⟩))]
        exact this
    | destroy ha =>
      rename_i rest v
      have hm : some v ∈ vars t := by rw [hvars]; exact List.mem_cons_self
      have hv := (h.alive t v hm).1
      obtain ⟨ho, hno⟩ := owns_destroy hown
      have gone : ∀ u w, some w ∈ setVars vars t rest u → w ≠ v ∧ some w ∈ vars u := by
        intro u w hw
        refine ⟨fun he => ?_, setVars_pop hvars hw⟩
        unfold setVars at hw
        by_cases hu : u = t
        · rw [if_pos hu] at hw; exact hno w hw
        · rw [if_neg hu] at hw; exact hu (h.one u t v (he ▸ hw) hm)
      refine ⟨({ p with threads := p.threads.forget v } : Process).setVm v .gone, setVars vars t rest, .ended .done, ?_,
        ⟨fun u => ?_, fun u => ?_, fun u w hw => ?_, fun u u' w h1 h2 => h.one u u' w (gone u w h1).2 (gone u' w h2).2,
          fun x hx => ?_, h.distinct⟩, .inl rfl⟩
      · simp only [Process.step]; rw [if_pos hv]
      · show Owns ((p.threads.thr u).detach v) _
        unfold setVars
        by_cases hu : u = t
        · rw [if_pos hu, hu]; exact ho
        · rw [if_neg hu]
          exact owns_detach (h.owns u) fun hw => hu (h.one u t v hw hm)
      · unfold setVars
        by_cases hu : u = t
        · rw [if_pos hu, hu]; exact ha
        · rw [if_neg hu]
          have := h.auto u
          rwa [stepsOf_other hu] at this
      · obtain ⟨h1, h2⟩ := gone u w hw
        simp only [Process.setVm]
        rw [if_neg h1]
        exact h.alive u w h2
      · have := h.new x hx
        simp only [Process.setVm]
        rw [if_neg (fun he : x.2 = v => by rw [he, hv] at this; exact nomatch this.1)]
        exact this
    | enter hm ha =>
      rename_i v
      obtain ⟨e, _, _, hl⟩ := owns_vm hown hm
      refine ⟨_, setVars vars t (none :: vt), _, ctx_step (fun w hw => ?_), h.local rfl (n := ((p.threads.thr t).step p.threads.next (.enter v)).2.1)
        (th := ((p.threads.thr t).step p.threads.next (.enter v)).1) ?_ ha (fun w hw => ?_), .inl ?_⟩
      · simp only [Thr.calls, hl] at hw; exact nomatch hw
      · rw [enter_some hl]
        exact owns_enter hown _ rfl hl.symm
      · rcases List.mem_cons.1 hw with hw | hw
        · exact nomatch hw
        · rw [hvars]; exact hw
      · show ProcEnd.ended ((p.threads.thr t).step p.threads.next (.enter v)).2.2 = _
        rw [enter_some hl]
    | enterDefault ha =>
      refine ⟨_, setVars vars t (none :: vt), _, ctx_step (fun w hw => nomatch hw), h.local rfl (n := p.threads.next)
        (th := ((p.threads.thr t).step p.threads.next .enterDefault).1) (owns_enter hown _ rfl rfl) ha (fun w hw => ?_), .inl rfl⟩
      rcases List.mem_cons.1 hw with hw | hw
      · exact nomatch hw
      · rw [hvars]; exact hw
    | leave ha =>
      rename_i rest
      obtain ⟨c, cs, hc, hcv, ho, _⟩ := owns_leave hown
      have hst : (p.threads.thr t).step p.threads.next .leave = ({ p.threads.thr t with ctxs := cs }, p.threads.next, .done) := by
        simp only [Thr.step, hc, hcv]
      refine ⟨_, setVars vars t rest, _, ctx_step (fun w hw => ?_), h.local rfl (n := ((p.threads.thr t).step p.threads.next .leave).2.1)
        (th := ((p.threads.thr t).step p.threads.next .leave).1) ?_ ha (fun w hw => ?_), .inl ?_⟩
      · simp only [Thr.calls, hc, hcv] at hw; exact nomatch hw
      · rw [hst]; exact ho
      · rw [hvars]; exact List.mem_cons_of_mem _ hw
      · show ProcEnd.ended ((p.threads.thr t).step p.threads.next .leave).2.2 = _
        rw [hst]
    | use hm ha =>
      rename_i outer v
      obtain ⟨c, cs, hc, _, _, he⟩ := owns_leave hown
      obtain ⟨e, he, hev⟩ := he v hm
      have hv := h.alive t v (by rw [hvars]; exact List.mem_cons_of_mem _ hm)
      have := h.local rfl (th := p.threads.thr t) (n := p.threads.next) (x := none :: outer) hown ha (fun w hw => by rw [hvars]; exact hw)
      refine ⟨_, _, .env e, ?_, this, .inr ⟨e, rfl, hev ▸ hv.2⟩⟩
      simp only [Process.step, hc, Ctx.getJniEnv, he]
      rw [if_pos (hev ▸ hv.1)]
      congr 2
      exact same_thread p t
    | direct hm ha =>
      rename_i v
      obtain ⟨e, hev, he, _⟩ := owns_vm hown hm
      have hv := h.alive t v (by rw [hvars]; exact hm)
      have := h.local rfl (th := p.threads.thr t) (n := p.threads.next) (x := vt) hown ha (fun w hw => by rw [hvars]; exact hw)
      refine ⟨_, _, .env e, ?_, this, .inr ⟨e, rfl, hev ▸ hv.2⟩⟩
      simp only [Process.step, he]
      rw [if_pos hv.1]
      congr 2
      exact same_thread p t

end Jnivm
