import Verif.Lemmas.Lifetime
/-!
C74: VMs can be made and destroyed, several at a time and one after the other.
-/
namespace Jnivm
open Spec

/-! ## No use after destruction -/

/-- If every step is careful nothing undefined happens, and every environment that is used belongs to a VM that
exists.  Afterwards all environments that threads and contexts hold belong to VMs that exist. -/
theorem life_safe_partial (l : List (Nat × ProcOp)) (h : CarefulRun .initial l) :
    ∃ q es, Process.initial.run l = .ok (q, es) ∧
      ∀ u e, ((q.threads.thr u).lock = some e ∨ (∃ c ∈ (q.threads.thr u).ctxs, c.env2 = some e) ∨
        ∃ v, (q.threads.thr u).envOf v = some e) → q.vms e.vm = .alive := by
  suffices H : ∀ (l : List (Nat × ProcOp)) (p : Process), CareInv p → CarefulRun p l →
      ∃ q es, p.run l = .ok (q, es) ∧ CareInv q by
    obtain ⟨q, es, h1, inv⟩ := H l .initial initial_careInv h
    refine ⟨q, es, h1, fun u e he => ?_⟩
    rcases he with he | ⟨c, hc, he⟩ | ⟨v, hv⟩
    · exact inv.lock he
    · exact inv.ctxEnv u c hc e he
    · rw [(inv.ok u).entVm v e (envOf_mem hv)]
      exact inv.entries u v _ (envOf_mem hv)
  intro l
  induction l with
  | nil => intro p inv _; exact ⟨p, [], rfl, inv⟩
  | cons x l ih =>
    intro p inv h
    cases h with
    | cons hc hn =>
      rename_i t op
      obtain ⟨q, e, h1, _⟩ := careful_ok inv hc
      obtain ⟨r, es, h2, h3⟩ := ih q (careInv_step inv hc h1) (hn q e h1)
      exact ⟨r, (t, e) :: es, by simp only [Process.run, h1, h2, Res.bind_ok], h3⟩

/-- In such programs a context that was made for a VM always has an environment to use. -/
theorem life_use_partial (l : List (Nat × ProcOp)) (h : CarefulRun .initial l) {q : Process} {es : List (Nat × ProcEnd)}
    (hq : Process.initial.run l = .ok (q, es)) {t : Nat} {c : Ctx} {cs : List Ctx}
    (hc : (q.threads.thr t).ctxs = c :: cs) (hm : c.made ≠ none) :
    ∃ e, q.step t .use = .ok (q, .env e) ∧ q.vms e.vm = .alive := by
  obtain ⟨q', es', h1, h2⟩ := life_safe_partial l h
  rw [hq] at h1
  cases h1
  have inv : ProcInv q := Spec.ProcReachable.inv ⟨l, es, hq⟩
  have hmem : c ∈ (q.threads.thr t).ctxs := by rw [hc]; exact List.mem_cons_self
  cases he : c.env2 with
  | none => exact absurd he ((inv.ok t).ctxEnv c hmem hm)
  | some e =>
    have ha := h2 t e (.inr (.inl ⟨c, hmem, he⟩))
    refine ⟨e, ?_, ha⟩
    simp only [Process.step, hc, Ctx.getJniEnv, he]
    rw [if_pos ha]

/-- The main thread makes a VM and destroys it after a worker used it in a context; a second VM follows. -/
example : CarefulRun .initial [(0, .make 0), (1, .ctx (.enter 0)), (1, .use), (0, .direct 0), (1, .ctx .leave), (0, .destroy 0),
    (0, .make 1), (1, .ctx (.enter 1))] := by
  have take : ∀ {p : Process} {t : Nat} {op : ProcOp} {l : List (Nat × ProcOp)} (q : Process) (e : ProcEnd),
      p.step t op = .ok (q, e) → Careful p t op → CarefulRun q l → CarefulRun p ((t, op) :: l) := by
    intro p t op l q e h hc hr
    refine .cons hc fun q' e' h' => ?_
    rw [h] at h'
    cases h'
    exact hr
  refine take _ _ rfl trivial (take _ _ rfl rfl (take _ _ rfl trivial (take _ _ rfl ⟨rfl, fun h => nomatch h⟩
    (take _ _ rfl trivial (take _ _ rfl ⟨rfl, fun u c hc => ?_⟩ (take _ _ rfl trivial (take _ _ rfl rfl (.nil _))))))))
  match u with
  | 0 => exact nomatch (show c ∈ ([] : List Ctx) from hc)
  | 1 => exact nomatch (show c ∈ ([] : List Ctx) from hc)
  | _ + 2 => exact nomatch (show c ∈ ([] : List Ctx) from hc)

/-! ## Making VMs -/

/-- A VM can be made exactly in a thread without environment, whatever other threads and VMs there are.  The thread is
attached to it by an environment that nobody had before, and all else is the same. -/
theorem life_make {p : Process} (hp : ProcReachable p) {v : Nat} (hv : p.vms v = .unmade) (t : Nat) :
    ((p.threads.thr t).lock = none → ∃ q e, p.step t (.make v) = .ok (q, .ended .done) ∧ q.vms v = .alive ∧
      (q.threads.thr t).envOf v = some e ∧ e.vm = v ∧ (q.threads.thr t).lock = some e ∧
      (∀ u w x, (p.threads.thr u).envOf w = some x → x.id ≠ e.id) ∧
      (∀ u, u ≠ t → q.threads.thr u = p.threads.thr u) ∧ ∀ w, w ≠ v → q.vms w = p.vms w) ∧
    ((p.threads.thr t).lock ≠ none → p.step t (.make v) = .ok (p, .ended (.throws .runtimeError))) := by
  have inv := hp.inv
  refine ⟨fun hl => ⟨p.made t v, ⟨p.threads.next, v⟩, ?_, ?_, ?_, rfl, ?_, ?_, ?_, ?_⟩, fun hl => ?_⟩
  · simp only [Process.step]; rw [if_pos hv, make_none hl]
  · simp only [Process.made, Process.setVm, if_true]
  · show ((p.threads.set t _ _).thr t).envOf v = _
    rw [set_thr, if_pos rfl]
    show (List.lookup v ((v, some (⟨p.threads.next, v⟩ : EnvObj)) :: _)).join = _
    rw [List.lookup_cons, beq_self_eq_true]
    rfl
  · show ((p.threads.set t _ _).thr t).lock = _
    rw [set_thr, if_pos rfl]
    exact lock_eq_some.2 ⟨rfl, alive_iff.2 (.inl ⟨v, List.mem_cons_self⟩)⟩
  · exact fun u w x hx => Nat.ne_of_lt ((inv.ok u).entLt w x (envOf_mem hx))
  · intro u hu
    show (p.threads.set t _ _).thr u = _
    rw [set_thr, if_neg hu]
  · intro w hw
    simp only [Process.made, Process.setVm]; rw [if_neg hw]
  · cases h : (p.threads.thr t).lock with
    | none => exact absurd h hl
    | some e => simp only [Process.step]; rw [if_pos hv, make_some h]

example : ∃ p, ProcReachable p ∧ p.vms 1 = .unmade ∧ (p.threads.thr 0).lock ≠ none ∧ (p.threads.thr 1).lock = none :=
  ⟨_, ⟨[(0, .make 0)], _, rfl⟩, rfl, (fun h => nomatch h), rfl⟩

/-! ## Destroying VMs -/

/-- Destroying a VM takes its environments from all threads and leaves all other VMs, environments and contexts. -/
theorem life_destroy {p : Process} (hp : ProcReachable p) {v : Nat} (hv : p.vms v = .alive) (t : Nat) :
    ∃ q, p.step t (.destroy v) = .ok (q, .ended .done) ∧ q.vms v = .gone ∧ (∀ w, w ≠ v → q.vms w = p.vms w) ∧
      ∀ u, (q.threads.thr u).envOf v = none ∧ (q.threads.thr u).ctxs = (p.threads.thr u).ctxs ∧
        (∀ w, w ≠ v → (q.threads.thr u).envOf w = (p.threads.thr u).envOf w) ∧
        ∀ e, e.vm ≠ v → ((q.threads.thr u).lock = some e ↔ (p.threads.thr u).lock = some e) := by
  have inv := hp.inv
  refine ⟨({ p with threads := p.threads.forget v } : Process).setVm v .gone, ?_, ?_, fun w hw => ?_, fun u =>
    ⟨envOf_detach_eq _ v, rfl, fun w hw => envOf_detach_ne _ hw, fun e he => ?_⟩⟩
  · simp only [Process.step]; rw [if_pos hv]
  · simp only [Process.setVm, if_true]
  · simp only [Process.setVm]; rw [if_neg hw]
  · show ((p.threads.thr u).detach v).lock = some e ↔ _
    rw [lock_eq_some, lock_eq_some, alive_iff, alive_iff]
    refine and_congr Iff.rfl (or_congr ⟨fun ⟨w, h⟩ => ⟨w, (mem_erase.1 h).1⟩, fun ⟨w, h⟩ => ⟨w, mem_erase.2 ⟨h, ?_⟩⟩⟩ Iff.rfl)
    exact fun h' => he (((inv.ok u).entVm w e h).trans h')

/-- A thread without contexts is free to make another VM, or to attach to one, when its VM was destroyed. -/
theorem life_restart {p : Process} (hp : ProcReachable p) {v w : Nat} (hv : p.vms v = .alive) (hw : p.vms w = .unmade)
    (t : Nat) {u : Nat} (hc : (p.threads.thr u).ctxs = []) (ha : (p.threads.thr u).envOf v ≠ none) :
    ∃ q r, p.step t (.destroy v) = .ok (q, .ended .done) ∧ (q.threads.thr u).lock = none ∧
      q.step u (.make w) = .ok (r, .ended .done) := by
  obtain ⟨l, es, hl⟩ := hp
  obtain ⟨q, h1, h2, h3, h4⟩ := life_destroy ⟨l, es, hl⟩ hv t
  have inv : ProcInv p := Spec.ProcReachable.inv ⟨l, es, hl⟩
  have hlock : (q.threads.thr u).lock = none := by
    obtain ⟨a, b, c, d⟩ := h4 u
    cases hx : (q.threads.thr u).lock with
    | none => rfl
    | some e =>
      have ok := (procInv_step inv h1).ok u
      rcases alive_iff.1 (lock_eq_some.1 hx).2 with ⟨x, hm⟩ | ⟨y, hm, _⟩
      · have hq := (destroy_step h1).2.1
        rw [hq] at hm
        obtain ⟨hm1, hm2⟩ := mem_erase.1 (show (x, some e) ∈ eraseEntry v (p.threads.thr u).entries from hm)
        cases hev : (p.threads.thr u).envOf v with
        | none => exact absurd hev ha
        | some e' =>
          have e1 := (inv.ok u).entTls v e' (envOf_mem hev)
          have e2 := (inv.ok u).entTls x e hm1
          rw [e1] at e2
          cases e2
          exact absurd (((inv.ok u).entVm x e hm1).symm.trans ((inv.ok u).entVm v e (envOf_mem hev))) hm2
      · rw [b, hc] at hm; exact nomatch hm
  have hwv : w ≠ v := fun h => by rw [h, hv] at hw; exact nomatch hw
  have hrun : Process.initial.run (l ++ [(t, .destroy v)]) = .ok (q, es ++ [(t, .ended .done)]) := by
    have app : ∀ (l : List (Nat × ProcOp)) (p0 : Process) (es : List (Nat × ProcEnd)), p0.run l = .ok (p, es) →
        p0.run (l ++ [(t, .destroy v)]) = .ok (q, es ++ [(t, .ended .done)]) := by
      intro l
      induction l with
      | nil =>
        intro p0 es h
        cases h
        simp only [List.nil_append, Process.run, h1, Res.bind_ok]
      | cons x l ih =>
        obtain ⟨t', op⟩ := x
        intro p0 es h
        obtain ⟨⟨p1, e⟩, g1, g2⟩ := Res.bind_eq_ok.1 h
        obtain ⟨⟨p2, es2⟩, g3, g4⟩ := Res.bind_eq_ok.1 g2
        cases g4
        simp only [List.cons_append, Process.run, g1, Res.bind_ok, ih p1 es2 g3]
    exact app l _ es hl
  obtain ⟨r, e, h5, _⟩ := (life_make ⟨_, _, hrun⟩ (by rw [h3 w hwv]; exact hw) u).1 hlock
  exact ⟨q, r, h1, hlock, h5⟩

example : ∃ p, ProcReachable p ∧ p.vms 0 = .alive ∧ p.vms 1 = .unmade ∧ (p.threads.thr 0).ctxs = [] ∧
    (p.threads.thr 0).envOf 0 ≠ none :=
  ⟨_, ⟨[(0, .make 0)], _, rfl⟩, rfl, rfl, rfl, fun h => nomatch h⟩

/-! ## A VM per thread -/

/-- Threads whose VMs and contexts are local variables, each with its own VMs, never disturb each other, in whatever
order their steps are taken: every step succeeds, and the environments they work with are those of their own VMs. -/
theorem life_isolated (l : List (Nat × ProcOp)) (ha : ∀ t, Automatic [] (stepsOf t l))
    (hd : ((makes l).map (·.2)).Nodup) :
    ∃ q es, Process.initial.run l = .ok (q, es) ∧
      ∀ x ∈ es, x.2 = .ended .done ∨ ∃ e : EnvObj, x.2 = .env e ∧ (x.1, e.vm) ∈ makes l :=
  apart_run (makes l) l (vars := fun _ => [])
    ⟨fun _ => .idle ⟨rfl, fun _ h => nomatch h⟩ (fun _ _ h => nomatch h), ha, fun _ _ h => (nomatch h),
      fun _ _ _ h => (nomatch h), fun _ h => ⟨rfl, h⟩, hd⟩

/-- Two threads with a VM each, one of them with a second one later. -/
example : (∀ t, Automatic [] (stepsOf t [(0, .make 0), (1, .ctx .enterDefault), (1, .make 1), (0, .ctx (.enter 0)), (0, .use),
      (1, .direct 1), (0, .ctx .leave), (0, .destroy 0), (0, .make 2), (1, .destroy 1)])) ∧
    ((makes [(0, .make 0), (1, .ctx .enterDefault), (1, .make 1), (0, .ctx (.enter 0)), (0, .use),
      (1, .direct 1), (0, .ctx .leave), (0, .destroy 0), (0, .make 2), (1, .destroy 1)]).map (·.2)).Nodup := by
  refine ⟨fun t => ?_, by decide⟩
  match t with
  | 0 =>
    exact .make (by simp) (.enter (by simp) (.use (v := 0) (by simp) (.leave (.destroy (.make (by simp) (.nil _))))))
  | 1 => exact .enterDefault (.make (by simp) (.direct (by simp) (.destroy (.nil _))))
  | _ + 2 => simp [stepsOf]; exact .nil _

/-! ## What goes wrong otherwise -/

/-- C74 fails: there cannot be two VMs in one thread. -/
theorem life_two_vms : ∃ p, ProcReachable p ∧ p.vms 1 = .unmade ∧
    p.step 0 (.make 1) = .ok (p, .ended (.throws .runtimeError)) :=
  ⟨_, ⟨[(0, .make 0)], _, rfl⟩, rfl, rfl⟩

/-- C74 fails: a context made for VM 1, which exists all the time, is undefined after VM 0 was destroyed, because in a
thread attached to VM 0 it uses that one's environment. -/
theorem life_borrowed : ∃ p, ProcReachable p ∧ p.vms 1 = .alive ∧
    (∃ c cs, (p.threads.thr 0).ctxs = c :: cs ∧ c.made = some 1) ∧ p.step 0 .use = .ub .dangling :=
  ⟨_, ⟨[(0, .make 0), (1, .make 1), (0, .ctx (.enter 1)), (0, .destroy 0)], _, rfl⟩, rfl, ⟨_, _, rfl, rfl⟩, rfl⟩

/-- A context that is destroyed after its VM detaches from it, which is undefined. -/
theorem life_late_context : ∃ p, ProcReachable p ∧ p.step 1 (.ctx .leave) = .ub .dangling :=
  ⟨_, ⟨[(0, .make 0), (1, .ctx (.enter 0)), (0, .destroy 0)], _, rfl⟩, rfl⟩

/-- The end of a thread is undefined if a context, of whatever kind, was made in it and is still there although the VM
was destroyed. -/
theorem life_late_thread : ∃ p, ProcReachable p ∧ (∃ c, (p.threads.thr 0).ctxs = [c] ∧ c.vm = none) ∧
    p.step 0 (.ctx .exit) = .ub .dangling :=
  ⟨_, ⟨[(0, .make 0), (0, .ctx .enterDefault), (0, .destroy 0)], _, rfl⟩, ⟨_, rfl, rfl⟩, rfl⟩

/-- `findClass` and the like are undefined in a thread that is not attached, although the VM exists. -/
theorem life_direct : ∃ p, ProcReachable p ∧ p.vms 0 = .alive ∧ p.step 1 (.direct 0) = .ub .nullDeref :=
  ⟨_, ⟨[(0, .make 0)], _, rfl⟩, rfl, rfl⟩

end Jnivm
