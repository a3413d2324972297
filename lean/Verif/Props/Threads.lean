import Verif.Lemmas.HeapObjs
import Verif.Spec.Pending
/-!
Properties of environments (C35), of the separation of threads (C38) and of the pending exception
(C25).  A history is any interleaving of calls by any number of threads.
-/
namespace Jnivm
open Spec

/-! ## C35: one environment per attached thread -/

/-- Attaching an attached thread returns its environment and changes nothing; attaching a detached
one makes an environment with one empty frame and no exception. -/
theorem attach_exact {h : Heap} (hr : HeapReachable h) (t : Nat) :
    (∀ e, h.envs t = some e → HeapOp.attach.run h t = .ok (h, .env e.eid)) ∧
    (h.envs t = none → ∃ h' e, HeapOp.attach.run h t = .ok (h', .env e.eid) ∧ h'.envs t = some e ∧
      e.frames = [[]] ∧ e.pending = none ∧ (∀ u, u ≠ t → h'.envs u = h.envs u) ∧ h'.objs = h.objs) := by
  constructor
  · intro e he
    have : (h.attach t) = (h, e.eid) := by simp [Heap.attach, he]
    simp only [HeapOp.run, HeapOp.exec, HeapOp.needsEnv, Bool.false_and, Bool.false_eq_true, if_false,
      HeapOp.body, this, Res.bind_ok, Heap.collect_of_allHeld hr.inv.held]
  · intro he
    have hx : HeapOp.attach.run h t = .ok ((h.attach t).1.collect, .env (h.attach t).2) := by
      simp [HeapOp.run, HeapOp.exec, HeapOp.needsEnv, HeapOp.body]
      rfl
    have hatt : h.attach t = ({ h.setEnv t h.newEnv with
        nthreads := max h.nthreads (t + 1), nextEnv := h.nextEnv + 1 }, h.nextEnv) := by
      simp [Heap.attach, he]
    refine ⟨_, h.newEnv, by rw [hx, hatt]; rfl, ?_, rfl, rfl, ?_, ?_⟩
    · simp
    · intro u hu; simp [hu]
    · -- nothing is released
      have hobj : ∀ i, ({ h.setEnv t h.newEnv with
          nthreads := max h.nthreads (t + 1), nextEnv := h.nextEnv + 1 } : Heap).collect.objs i = h.objs i := by
        intro i
        have s := Heap.step_attach hr.inv.toPre t
        rw [hatt] at s
        cases ho : h.objs i with
        | none =>
          cases ho' : ({ h.setEnv t h.newEnv with
            nthreads := max h.nthreads (t + 1), nextEnv := h.nextEnv + 1 } : Heap).collect.objs i with
          | none => rfl
          | some o' =>
            have := Heap.collect_sub ho'
            simp only [Heap.setEnv_objs] at this
            rw [ho] at this; cases this
        | some o =>
          have hall : ({ h.setEnv t h.newEnv with
              nthreads := max h.nthreads (t + 1), nextEnv := h.nextEnv + 1 } : Heap).AllHeld := by
            intro j oj hoj
            have hoj' : h.objs j = some oj := hoj
            refine (Heap.held_iff s.pre.bound).2 ?_
            rcases (Heap.held_iff hr.inv.bound).1 (hr.inv.held j oj hoj') with hroot | ⟨k, hk⟩
            · refine .inl (Heap.mem_roots.2 ?_)
              rcases Heap.mem_roots.1 hroot with h1 | h1 | ⟨u, e, hu, heu, h1⟩
              · exact .inl h1
              · exact .inr (.inl h1)
              · refine .inr (.inr ⟨u, e, ?_, ?_, h1⟩)
                · show u < max h.nthreads (t + 1); omega
                · have hut : u ≠ t := by rintro rfl; rw [he] at heu; cases heu
                  simp [hut, heu]
            · exact .inr ⟨k, hk⟩
          rw [Heap.collect_of_allHeld hall]
          exact ho
      exact funext hobj

/-- While a thread does not detach it keeps its environment, whatever happens in any thread; so all
its `AttachCurrentThread` and `GetEnv` return the same. -/
theorem env_stable {h h' : Heap} (hr : HeapReachable h) {t : Nat} {e : Env} (he : h.envs t = some e)
    {ops : List (Nat × HeapOp)} (hn : (t, HeapOp.detach) ∉ ops) (hx : runHeap h ops = .ok h') :
    ∃ e', h'.envs t = some e' ∧ e'.eid = e.eid ∧ HeapOp.attach.run h' t = .ok (h', .env e.eid) := by
  have hr' := hr.steps hx
  have key : ∃ e', h'.envs t = some e' ∧ e'.eid = e.eid := by
    clear hr'
    induction ops generalizing h e with
    | nil =>
      have hx : h = h' := by injection hx
      subst hx
      exact ⟨e, he, rfl⟩
    | cons x ops ih =>
      obtain ⟨u, op⟩ := x
      obtain ⟨⟨h1, out⟩, hx1, hx2⟩ := Res.bind_eq_ok.1 hx
      have : ∃ e1, h1.envs t = some e1 ∧ e1.eid = e.eid := by
        by_cases hut : u = t
        · subst hut
          obtain ⟨e1, h2, h3, _⟩ := Heap.effect_run hr.inv.toPre he hx1 (by
            rintro rfl; exact hn (by simp))
          exact ⟨e1, h2, h3⟩
        · rw [(runStep hr.inv.toPre hx1).others t (Ne.symm hut)]
          exact ⟨e, he, rfl⟩
      obtain ⟨e1, he1, heq⟩ := this
      obtain ⟨e', he', heq'⟩ := ih (hr.step hx1) he1 (fun hm => hn (by simp [hm])) hx2
      exact ⟨e', he', heq'.trans heq⟩
  obtain ⟨e', he', heq⟩ := key
  exact ⟨e', he', heq, heq ▸ (attach_exact hr' t).1 e' he'⟩

/-- Different threads never share an environment. -/
theorem env_distinct {h : Heap} (hr : HeapReachable h) {t u : Nat} {e e' : Env}
    (ht : h.envs t = some e) (hu : h.envs u = some e') (heq : e.eid = e'.eid) : t = u :=
  hr.inv.eidInj t u e e' ht hu heq

/-- The environment of a detached thread is gone for good: no thread ever gets it again, and until
the thread attaches again every call through it is an access to a destroyed object. -/
theorem detached_gone {h h1 h2 : Heap} (hr : HeapReachable h) {t : Nat} {e : Env} {out : Out}
    (he : h.envs t = some e) (hd : HeapOp.detach.run h t = .ok (h1, out))
    {ops : List (Nat × HeapOp)} (hx : runHeap h1 ops = .ok h2) :
    (∀ u e', h2.envs u = some e' → e'.eid ≠ e.eid) ∧
    ((t, HeapOp.attach) ∉ ops → h2.envs t = none ∧
      ∀ op : HeapOp, op.needsEnv = true → op.run h2 t = .ub .dangling) := by
  have h1envs : h1.envs t = none ∧ (∀ u, u ≠ t → h1.envs u = h.envs u) ∧ h1.nextEnv = h.nextEnv := by
    simp only [HeapOp.run, HeapOp.exec, HeapOp.needsEnv, Bool.false_and, Bool.false_eq_true, if_false,
      HeapOp.body, Res.bind_ok] at hd
    injection hd with hd; injection hd with hd _
    subst hd
    refine ⟨by simp [Heap.detach], fun u hu => by simp [Heap.detach, hu], by simp [Heap.detach]⟩
  have hr1 := hr.step hd
  constructor
  · have key : e.eid < h2.nextEnv ∧ ∀ u e', h2.envs u = some e' → e'.eid ≠ e.eid := by
      refine Along.induct (P := fun _ _ _ => True)
        (Q := fun h => e.eid < h.nextEnv ∧ ∀ u e', h.envs u = some e' → e'.eid ≠ e.eid)
        (fun h u op h' out hi hq _ hx => ?_) hr1.inv ⟨?_, ?_⟩ Along.trivial hx
      · have hnext := Heap.run_nextEnv hi.toPre hx
        refine ⟨Nat.lt_of_lt_of_le hq.1 hnext.1, fun v e' he' => ?_⟩
        by_cases hvu : v = u
        · subst hvu
          rcases hnext.2 e' he' with ⟨e0, he0, heq⟩ | hge
          · rw [heq]; exact hq.2 v e0 he0
          · have := hq.1; omega
        · rw [(runStep hi.toPre hx).others v hvu] at he'
          exact hq.2 v e' he'
      · rw [h1envs.2.2]; exact hr.inv.eid t e he
      · intro u e' he' heq
        by_cases hut : u = t
        · subst hut; rw [h1envs.1] at he'; cases he'
        · rw [h1envs.2.1 u hut] at he'
          exact hut (env_distinct hr he' he heq)
    exact key.2
  · intro hna
    have key : h2.envs t = none := by
      clear he
      have h1none := h1envs.1
      clear h1envs hd
      induction ops generalizing h1 with
      | nil =>
        have hx : h1 = h2 := by injection hx
        subst hx; exact h1none
      | cons x ops ih =>
        obtain ⟨u, op⟩ := x
        obtain ⟨⟨h3, out3⟩, hx1, hx2⟩ := Res.bind_eq_ok.1 hx
        refine ih hx2 (hr1.step hx1) (fun hm => hna (by simp [hm])) ?_
        by_cases hut : u = t
        · subst hut
          obtain ⟨h4, hx4, rfl⟩ := Heap.run_ok hx1
          obtain ⟨hb, hne⟩ := Heap.exec_ok hx4
          cases op <;> simp only [HeapOp.needsEnv, forall_const] at hne <;>
            first | (obtain ⟨e, h2⟩ := hne; rw [h1none] at h2; cases h2) | skip
          case attach => exact absurd (by simp) hna
          case detach =>
            simp only [HeapOp.body] at hb
            injection hb with hb; injection hb with hb _
            subst hb
            simp [Heap.detach]
        · rw [(runStep hr1.inv.toPre hx1).others t (Ne.symm hut)]
          exact h1none
    refine ⟨key, fun op hop => ?_⟩
    simp only [HeapOp.run, HeapOp.exec, hop, key, Option.isNone_none, Bool.and_self, if_true]
    rfl

/-- Two threads attach, one detaches and attaches again: three environments. -/
example : ∃ h h1 h2 e out, HeapReachable h ∧ h.envs 1 = some e ∧ e.eid = 1 ∧
    HeapOp.detach.run h 1 = .ok (h1, out) ∧
    runHeap h1 [(2, .attach), (0, .newObject none), (1, .attach)] = .ok h2 ∧
    (∃ e2, h2.envs 1 = some e2 ∧ e2.eid = 3) := by
  obtain ⟨h, hx, hr, hp⟩ := reachable_of (ops := [(1, .attach), (0, .attach)])
    (p := fun h => (h.envs 1).any fun e => e.eid == 1 &&
      (HeapOp.detach.run h 1).holds fun x =>
        (runHeap x.1 [(2, .attach), (0, .newObject none), (1, .attach)]).holds fun h2 =>
          (h2.envs 1).any fun e => e.eid == 3) (by decide +kernel)
  obtain ⟨e, he, hp⟩ := Option.any_eq_true _ _ |>.1 hp
  simp only [Bool.and_eq_true, beq_iff_eq, Res.holds_iff] at hp
  obtain ⟨heq, ⟨h1, out⟩, hx1, h2, hx2, hp⟩ := hp
  obtain ⟨e2, he2, hp⟩ := Option.any_eq_true _ _ |>.1 hp
  exact ⟨h, h1, h2, e, out, hr, he, heq, hx1, hx2, e2, he2, by simpa using hp⟩

/-! ## C38: threads do not see each other's frames and exceptions -/

/-- Whatever the other threads do, the environment of a thread (all frames, recycled frames, the
pending exception) stays as it is. -/
theorem thread_private {h h' : Heap} (hr : HeapReachable h) {t : Nat} {ops : List (Nat × HeapOp)}
    (ho : ∀ x ∈ ops, x.1 ≠ t) (hx : runHeap h ops = .ok h') : h'.envs t = h.envs t := by
  induction ops generalizing h with
  | nil => have hx : h = h' := by injection hx
           rw [hx]
  | cons x ops ih =>
    obtain ⟨u, op⟩ := x
    obtain ⟨⟨h1, out⟩, hx1, hx2⟩ := Res.bind_eq_ok.1 hx
    rw [ih (hr.step hx1) (fun y hy => ho y (by simp [hy])) hx2]
    exact (runStep hr.inv.toPre hx1).others t (Ne.symm (ho (u, op) (by simp)))

/-- The effect of a thread's own call on its frames depends only on its frames, on the object the
argument denotes and on the returned reference; on its pending exception, only on what is thrown. -/
theorem own_effect {h h' : Heap} (hr : HeapReachable h) {t : Nat} {e : Env} {op : HeapOp} {out : Out}
    (he : h.envs t = some e) (hx : op.run h t = .ok (h', out)) (hd : op ≠ .detach) :
    ∃ e', h'.envs t = some e' ∧
      (∃ pre, e'.frames = pre ∧ match op with
        | .pushLocalFrame => pre = [] :: e.frames
        | .popLocalFrame r => ∃ x, Denotes h r x ∧
            (∀ f g fs, e.frames = f :: g :: fs → pre = (g ++ x.toList) :: fs) ∧
            (∀ f, e.frames = [f] → pre = [x.toList])
        | .deleteLocalRef r => (∀ x, Denotes h r (some x) → pre = Heap.eraseLocal x e.frames) ∧
            (Denotes h r none → pre = e.frames)
        | _ => ∃ f fs l, e.frames = f :: fs ∧ pre = (f ++ l) :: fs) ∧
      (¬ TouchesPending op → e'.pending = e.pending) := by
  have hp := hr.inv.toPre
  obtain ⟨h1, hx1, rfl⟩ := Heap.run_ok hx
  obtain ⟨⟨e', he', _, hf, hpend⟩, _⟩ := Heap.effect_exec hp he hx1 hd
  refine ⟨e', by simpa using he', ⟨e'.frames, rfl, ?_⟩, ?_⟩
  · obtain ⟨f, fs, hfs⟩ := List.exists_cons_of_ne_nil (hp.frames t e he)
    cases op <;> simp only [Heap.FrameEffect] at hf <;> simp only
    case pushLocalFrame => exact hf
    case popLocalFrame r =>
      obtain ⟨x, hdn, hf, _⟩ := hf
      refine ⟨x, (Heap.denote_iff hp).1 hdn, fun f g gs h2 => ?_, fun f h2 => ?_⟩
      · rw [hf, h2]; rfl
      · rw [hf, h2]; rfl
    case deleteLocalRef r =>
      obtain ⟨x, hdn, hf⟩ := hf
      refine ⟨fun y hy => ?_, fun hy => ?_⟩
      · rw [(Heap.denote_iff hp).2 hy] at hdn; cases hdn; exact hf
      · rw [(Heap.denote_iff hp).2 hy] at hdn; cases hdn; exact hf
    case newGlobalRef => exact ⟨f, fs, [], hfs, by rw [hf, hfs, List.append_nil]⟩
    case newWeakGlobalRef => exact ⟨f, fs, [], hfs, by rw [hf, hfs, List.append_nil]⟩
    case newMember => exact ⟨f, fs, [], hfs, by rw [hf, hfs, List.append_nil]⟩
    case newStatics => exact ⟨f, fs, [], hfs, by rw [hf, hfs, List.append_nil]⟩
    case classObject => exact ⟨f, fs, [], hfs, by rw [hf, hfs, List.append_nil]⟩
    case fromReflected =>
      obtain ⟨l, hf⟩ := hf
      exact ⟨f, fs, l, hfs, by rw [hf, hfs]; rfl⟩
    all_goals exact ⟨f, fs, _, hfs, by rw [hf, hfs]; rfl⟩
  · intro hnt
    cases op <;> simp only [Heap.PendingEffect] at hpend <;>
      first | exact hpend | exact absurd trivial hnt

example : ∃ h h' e, HeapReachable h ∧ h.envs 0 = some e ∧ e.frames = [[], [9]] ∧ e.pending = some 10 ∧
    runHeap h [(1, .attach), (1, .newLocalRef (some 9)), (1, .raise .badCast), (1, .exceptionClear),
      (1, .deleteLocalRef (some 9)), (1, .popLocalFrame none), (1, .detach)] = .ok h' := by
  obtain ⟨h, hx, hr, hp⟩ := reachable_of (ops := [(0, .newObject none), (0, .raise .badCast),
      (0, .pushLocalFrame)])
    (p := fun h => (h.envs 0).any fun e => e.frames == [[], [9]] && e.pending == some 10 &&
      (runHeap h [(1, .attach), (1, .newLocalRef (some 9)), (1, .raise .badCast), (1, .exceptionClear),
        (1, .deleteLocalRef (some 9)), (1, .popLocalFrame none), (1, .detach)]).holds fun _ => true)
    (by decide +kernel)
  obtain ⟨e, he, hp⟩ := Option.any_eq_true _ _ |>.1 hp
  simp only [Bool.and_eq_true, beq_iff_eq, Res.holds_iff] at hp
  obtain ⟨⟨h1, h2⟩, h', hx', _⟩ := hp
  exact ⟨h, h', e, hr, he, h1, h2, hx'⟩

/-! ## C25: the pending exception -/

/-- What `ExceptionCheck` and `ExceptionOccurred` report is the pending exception. -/
theorem reports_pending {h : Heap} (hr : HeapReachable h) {t : Nat} {e : Env}
    (he : h.envs t = some e) : Reports h t e.pending := by
  have hp := hr.inv.toPre
  constructor
  · refine ⟨h.collect, ?_⟩
    rw [HeapOp.run, Heap.exec_of_body he, HeapOp.body, Heap.exceptionCheck, Heap.env_ok.2 he]
    rfl
  · obtain ⟨h', hx⟩ := Heap.toJNI?_exists hp (s := h.typeClass "java/lang/Throwable".toList)
      (i := e.pending) he (fun j hj => hp.rootsEnv he (.inr hj)) (fun c hc => hp.typeClass hc)
    refine ⟨h'.collect, ?_⟩
    rw [HeapOp.run, Heap.exec_of_body he, HeapOp.body, Heap.exceptionOccurred, Heap.env_ok.2 he,
      Res.bind_ok, hx]
    rfl

theorem reports_fun {h : Heap} {t : Nat} {x y : Option Nat} (hx : Reports h t x) (hy : Reports h t y) :
    x = y := by
  obtain ⟨_, h1, hx⟩ := hx
  obtain ⟨_, h2, hy⟩ := hy
  rw [hx] at hy
  injection hy with hy; injection hy with _ hy; injection hy

/-- A call that neither raises nor clears leaves the pending exception; the other threads' calls
always do. -/
theorem pending_unchanged {h h' : Heap} (hr : HeapReachable h) {t : Nat} {e : Env}
    (he : h.envs t = some e) {ops : List (Nat × HeapOp)}
    (hq : ∀ op, (t, op) ∈ ops → ¬ TouchesPending op) (hx : runHeap h ops = .ok h') :
    ∃ e', h'.envs t = some e' ∧ e'.pending = e.pending ∧ Reports h' t e.pending := by
  have hr' := hr.steps hx
  have key : ∃ e', h'.envs t = some e' ∧ e'.pending = e.pending := by
    clear hr'
    induction ops generalizing h e with
    | nil =>
      have hx : h = h' := by injection hx
      subst hx
      exact ⟨e, he, rfl⟩
    | cons x ops ih =>
      obtain ⟨u, op⟩ := x
      obtain ⟨⟨h1, out⟩, hx1, hx2⟩ := Res.bind_eq_ok.1 hx
      have : ∃ e1, h1.envs t = some e1 ∧ e1.pending = e.pending := by
        by_cases hut : u = t
        · subst hut
          have hnt := hq op (by simp)
          obtain ⟨e1, h2, _, h3⟩ := own_effect hr he hx1 (by rintro rfl; exact hnt trivial)
          exact ⟨e1, h2, h3 hnt⟩
        · rw [(runStep hr.inv.toPre hx1).others t (Ne.symm hut)]
          exact ⟨e, he, rfl⟩
      obtain ⟨e1, he1, heq⟩ := this
      obtain ⟨e', he', heq'⟩ := ih (hr.step hx1) he1 (fun op hm => hq op (by simp [hm])) hx2
      exact ⟨e', he', heq'.trans heq⟩
  obtain ⟨e', he', heq⟩ := key
  exact ⟨e', he', heq, heq ▸ reports_pending hr' he'⟩

/-- After an exception is raised, and until the next raise, clear or detach of the same thread,
`ExceptionCheck` is true and `ExceptionOccurred` returns exactly this exception.  Partial form of C25,
because `Throw` of null (or of a cleared weak reference) clears: see `throw_null_clears`. -/
theorem pending_raised_partial {h h1 h2 : Heap} (hr : HeapReachable h) {t x : Nat} {op : HeapOp}
    {out : Out} (hx1 : op.run h t = .ok (h1, out)) (hraise : Raises h h1 x op)
    {ops : List (Nat × HeapOp)} (hq : ∀ op, (t, op) ∈ ops → ¬ TouchesPending op)
    (hx : runHeap h1 ops = .ok h2) :
    Reports h2 t (some x) := by
  have hp := hr.inv.toPre
  obtain ⟨h1', hx1', rfl⟩ := Heap.run_ok hx1
  obtain ⟨hb, hne⟩ := Heap.exec_ok hx1'
  have hneed : op.needsEnv = true := by cases op <;> first | rfl | exact hraise.elim
  obtain ⟨e, he⟩ := hne hneed
  have hd : op ≠ .detach := by rintro rfl; cases hneed
  obtain ⟨⟨e', he', _, _, hpend⟩, _⟩ := Heap.effect_exec hp he hx1' hd
  have he'' : h1'.collect.envs t = some e' := by simpa using he'
  have hpx : e'.pending = some x := by
    cases op <;> try exact hraise.elim
    case throw r =>
      simp only [Heap.PendingEffect] at hpend
      have hden := (Heap.denote_iff hp).2 hraise
      rw [Heap.cast, hden, Res.bind_ok] at hpend
      obtain ⟨o, ho, _⟩ := Heap.denotes_ok hp hraise
      simp only [ho] at hpend
      split at hpend
      · injection hpend with hpend; exact hpend.symm
      · cases hpend
    case raise p =>
      obtain ⟨h3, h4⟩ := hpend
      rw [h3]
      obtain ⟨hge, o, ho, _⟩ := hraise
      have := (hr.step hx1).inv.bound x o ho
      have hn : h1'.next = h.next + 1 := by
        obtain ⟨e2, _, hb⟩ := Res.bind_eq_ok.1 (Heap.outUnit_ok hb).1
        cases hb
        rfl
      rw [Heap.collect_next, hn] at this
      rw [show x = h.next by omega]
  obtain ⟨e2, _, _, hrep⟩ := pending_unchanged (hr.step hx1) he'' hq hx
  rw [hpx] at hrep
  exact hrep

/-- After `ExceptionClear`, or after attaching, no exception is reported until one is raised. -/
theorem pending_cleared {h h1 h2 : Heap} (hr : HeapReachable h) {t : Nat} {op : HeapOp} {out : Out}
    (hx1 : op.run h t = .ok (h1, out))
    (hop : op = .exceptionClear ∨ op = .attach ∧ h.envs t = none)
    {ops : List (Nat × HeapOp)} (hq : ∀ op, (t, op) ∈ ops → ¬ TouchesPending op)
    (hx : runHeap h1 ops = .ok h2) : Reports h2 t none := by
  have hp := hr.inv.toPre
  have : ∃ e1, h1.envs t = some e1 ∧ e1.pending = none := by
    rcases hop with rfl | ⟨rfl, hn⟩
    · obtain ⟨h1', hx1', rfl⟩ := Heap.run_ok hx1
      obtain ⟨hb, hne⟩ := Heap.exec_ok hx1'
      obtain ⟨e, he⟩ := hne rfl
      obtain ⟨⟨e', he', _, _, hpend⟩, _⟩ := Heap.effect_exec hp he hx1' (by simp)
      exact ⟨e', by simpa using he', hpend⟩
    · obtain ⟨h', e, hx', he', _, hpe, _⟩ := (attach_exact hr t).2 hn
      rw [hx1] at hx'
      injection hx' with hx'; injection hx' with hx' _
      subst hx'
      exact ⟨e, he', hpe⟩
  obtain ⟨e1, he1, hpe⟩ := this
  obtain ⟨e2, _, _, hrep⟩ := pending_unchanged (hr.step hx1) he1 hq hx
  rw [hpe] at hrep
  exact hrep

/-- The exception object stays alive while it is pending. -/
theorem pending_live {h : Heap} (hr : HeapReachable h) {t i : Nat} {e : Env} (he : h.envs t = some e)
    (hp : e.pending = some i) : ∃ o p, h.objs i = some o ∧ o.kind = .throwable p :=
  hr.pending t e i he hp

/-- An exception caught from a hooked function, then thrown again by reference; other threads raise
and clear theirs. -/
example : ∃ h h1 h2 out, HeapReachable h ∧ (HeapOp.throw (some 10)).run h 0 = .ok (h1, out) ∧
    Raises h h1 9 (.throw (some 10)) ∧
    runHeap h1 [(0, .deleteLocalRef (some 9)), (0, .pushLocalFrame), (1, .attach), (1, .raise .badCast),
      (1, .exceptionClear), (0, .newObject none), (0, .popLocalFrame none)] = .ok h2 ∧
    ¬ HasLocal h2 0 9 := by
  obtain ⟨h, hx, hr, hp⟩ := reachable_of (ops := [(0, .raise .noSuchMethod), (0, .exceptionOccurred),
      (0, .newGlobalRef (some 9)), (0, .exceptionClear)])
    (p := fun h => h.denote (some 10) == .ok (some 9) &&
      ((HeapOp.throw (some 10)).run h 0).holds fun x =>
        (runHeap x.1 [(0, .deleteLocalRef (some 9)), (0, .pushLocalFrame), (1, .attach),
          (1, .raise .badCast), (1, .exceptionClear), (0, .newObject none),
          (0, .popLocalFrame none)]).holds fun h2 => (h2.envs 0).all fun e => e.frames.all fun f =>
            !f.contains 9) (by decide +kernel)
  simp only [Bool.and_eq_true, beq_iff_eq, Res.holds_iff] at hp
  obtain ⟨hd, ⟨h1, out⟩, hx1, h2, hx2, hnl⟩ := hp
  refine ⟨h, h1, h2, out, hr, hx1, (Heap.denote_iff hr.inv.toPre).1 hd, hx2, ?_⟩
  rintro ⟨e, he, f, hf, hi⟩
  simp only [he, Option.all_some, List.all_eq_true] at hnl
  have := hnl f hf
  simp [hi] at this

/-- C25 fails for `Throw` of null: it raises nothing but clears the pending exception. -/
theorem throw_null_clears : ∃ h h1 h2 out1 out2, HeapReachable h ∧
    (HeapOp.raise .badCast).run h 0 = .ok (h1, out1) ∧ Reports h1 0 (some 9) ∧
    (HeapOp.throw none).run h1 0 = .ok (h2, out2) ∧ Reports h2 0 none := by
  obtain ⟨h, hx, hr, hp⟩ := reachable_of (ops := [])
    (p := fun h => ((HeapOp.raise .badCast).run h 0).holds fun x =>
      (x.1.envs 0).any (fun e => e.pending == some 9) &&
      ((HeapOp.throw none).run x.1 0).holds fun y => (y.1.envs 0).any fun e => e.pending == none)
    (by decide +kernel)
  simp only [Bool.and_eq_true, Res.holds_iff] at hp
  obtain ⟨⟨h1, out1⟩, hx1, hp1, ⟨h2, out2⟩, hx2, hp2⟩ := hp
  obtain ⟨e1, he1, hp1⟩ := Option.any_eq_true _ _ |>.1 hp1
  obtain ⟨e2, he2, hp2⟩ := Option.any_eq_true _ _ |>.1 hp2
  have r1 := reports_pending (hr.step hx1) he1
  have r2 := reports_pending ((hr.step hx1).step hx2) he2
  rw [beq_iff_eq.1 hp1] at r1
  rw [beq_iff_eq.1 hp2] at r2
  exact ⟨h, h1, h2, out1, out2, hr, hx1, r1, hx2, r2⟩

end Jnivm
