import Verif.Lemmas.ThreadsRun
import Verif.Props.Nested
/-!
C81: threads that run nested code at the same time.
-/
namespace Jnivm
open Spec
open Heap hiding Live

/-- C81. A thread that is not interrupted does what Model/Nested.lean says: the steps of its code come to the same
end in the same state. -/
theorem thread_alone (d2f : BitVec 64 → BitVec 32) (fs : Natives) (depth : Nat → Nat) (s : Nat → Script) (vm : Vm)
    (t : Nat) : ∃ n, ∀ m, n ≤ m →
      EndedAs (((Starts d2f fs depth s vm).run (List.replicate m t)).prog t)
        ((Starts d2f fs depth s vm).run (List.replicate m t)).vm ((s t).run d2f (fs.code d2f t (depth t)) t vm) := by
  have hg := goes_script (goes_code d2f fs t (depth t)).1 (goes_code d2f fs t (depth t)).2 d2f t (s t) vm .ret .raise
  have key : ∀ {p' : Prog} {vm' : Vm}, p'.Ended →
      StepsTo ((s t).prog d2f fs (fs.steps d2f t (depth t)) t .ret .raise) vm p' vm' →
      ∃ n, ∀ m, n ≤ m → ((Starts d2f fs depth s vm).run (List.replicate m t)).vm = vm' ∧
        ((Starts d2f fs depth s vm).run (List.replicate m t)).prog t = p' := by
    intro p' vm' he hr
    obtain ⟨n, h1, h2⟩ := reaches_pool (t := t) hr (Starts d2f fs depth s vm) rfl rfl
    refine ⟨n, fun m hm => ?_⟩
    obtain ⟨j, rfl⟩ := Nat.exists_eq_add_of_le hm
    rw [← List.replicate_append_replicate, Pool.run_append, run_replicate_ended (by rw [h2]; exact he)]
    exact ⟨h1, h2⟩
  generalize (s t).run d2f (fs.code d2f t (depth t)) t vm = o at hg
  cases o with
  | returns v a =>
    obtain ⟨n, h⟩ := key (p' := (.ret a)) trivial hg
    exact ⟨n, fun m hm => ⟨(h m hm).2, (h m hm).1⟩⟩
  | raises v e =>
    obtain ⟨n, h⟩ := key (p' := (.raise e)) trivial hg
    exact ⟨n, fun m hm => ⟨(h m hm).2, (h m hm).1⟩⟩
  | ub u =>
    obtain ⟨v, hg⟩ := hg
    obtain ⟨n, h⟩ := key (p' := (.ub u)) trivial hg
    exact ⟨n, fun m hm => (h m hm).2⟩
  | aborts =>
    obtain ⟨v, hg⟩ := hg
    obtain ⟨n, h⟩ := key (p' := .aborts) trivial hg
    exact ⟨n, fun m hm => (h m hm).2⟩
  | diverges =>
    obtain ⟨v, hg⟩ := hg
    obtain ⟨n, h⟩ := key (p' := .diverges) trivial hg
    exact ⟨n, fun m hm => (h m hm).2⟩

/-- C81. Whatever code the threads run, with functions that call each other through the VM, and in whatever order
their steps are done: at every moment the state is one that calls made one after the other lead to, namely calls that
the threads make themselves and those that running a function consists of. -/
theorem threads_by_calls (d2f : BitVec 64 → BitVec 32) {fs : Natives} {P : Nat → JniOp → Prop} (hf : ∀ t, fs.Only (P t))
    (depth : Nat → Nat) {s : Nat → Script} (hs : ∀ t, (s t).Only (P t)) {vm : Vm} (hr : JniReachable vm)
    (sched : List Nat) :
    ByThreads (fun t op => t ∈ sched ∧ (P t op ∨ CallsOwn op)) vm ((Starts d2f fs depth s vm).run sched).vm :=
  (pool_run (I := JniReachable) (R := fun t => ByCallsOf t fun op => P t op ∨ CallsOwn op)
    (S := ByThreads fun t op => t ∈ sched ∧ (P t op ∨ CallsOwn op)) (fun _ _ _ h h' => h'.reachable h)
    (.refl _) (fun _ _ _ h h' => h.trans h') sched
    (fun _ ht _ _ h => h.threads fun _ ho => ⟨ht, ho⟩) (Starts d2f fs depth s vm) hr
    fun t => thread_does d2f (hf t) (depth t) t (hs t)).1

/-- C81. So every moment is one between two calls: all invariants of histories of calls hold. -/
theorem threads_reachable (d2f : BitVec 64 → BitVec 32) (fs : Natives) (depth : Nat → Nat) (s : Nat → Script) {vm : Vm}
    (hr : JniReachable vm) (sched : List Nat) : JniReachable ((Starts d2f fs depth s vm).run sched).vm :=
  (threads_by_calls d2f (P := fun _ _ => True) (fun _ => natives_only_true fs) depth (fun _ => only_true _) hr
    sched).reachable hr

/-- Sample for `thread_alone`, `threads_by_calls` and `threads_reachable`: two threads run the sample at the same
time, and a third one ends at once. -/
example : (∀ _ : Nat, sampleNatives.Only fun op => op = .heap (.findClass "New".toList) ∨ op = .heap .exceptionCheck) ∧
    (∀ t : Nat, (if t < 2 then sampleScript else .ret 5).Only
      fun op => op = .heap (.findClass "New".toList) ∨ op = .heap .exceptionCheck) ∧ ∃ vm, JniReachable vm := by
  refine ⟨fun _ => sampleNatives_only (.inl rfl), fun t => ?_, ?_⟩
  · split
    · exact fun _ => ⟨.inr rfl, fun _ => trivial⟩
    · trivial
  · obtain ⟨vm, as, hx, S⟩ := sample_nested
    exact ⟨vm, S.reach⟩

/-- C81. A thread that does nothing meanwhile keeps its local references, its pending exception and what is left of
its code. -/
theorem threads_others (d2f : BitVec 64 → BitVec 32) (fs : Natives) (depth : Nat → Nat) (s : Nat → Script) {vm : Vm}
    (hr : JniReachable vm) {sched : List Nat} {t : Nat} (ht : t ∉ sched) :
    ((Starts d2f fs depth s vm).run sched).vm.heap.envs t = vm.heap.envs t ∧
    ((Starts d2f fs depth s vm).run sched).prog t = (s t).thread d2f fs (depth t) t :=
  ⟨byThreads_env hr (threads_by_calls d2f (P := fun _ _ => True) (fun _ => natives_only_true fs) depth
      (fun _ => only_true _) hr sched) fun _ h => ht h.1, run_prog_other ht _⟩

/-- C81. Classes stay where they are and what they are, whatever the threads do: every thread may keep their
addresses. -/
theorem threads_class_refs (d2f : BitVec 64 → BitVec 32) (fs : Natives) (depth : Nat → Nat) (s : Nat → Script) {vm : Vm}
    (hr : JniReachable vm) (sched : List Nat) {k c : Nat} {o : Obj} {n : Str} (ho : vm.heap.objs k = some o)
    (hk : o.kind = .cls n) (hc : vm.world.IsClass n c) :
    RefersTo ((Starts d2f fs depth s vm).run sched).vm.heap (some k) (some n) ∧
    IsClassRef ((Starts d2f fs depth s vm).run sched).vm (some k) c := by
  obtain ⟨ops, as, _, hx⟩ := threads_by_calls d2f (P := fun _ _ => True) (fun _ => natives_only_true fs) depth
    (s := s) (fun _ => only_true _) hr sched
  exact class_address_forever hr hx ho hk hc

/-- C81. Local references last: when the code of a thread and the functions delete none, pop no frame and do not
detach the thread, an object that the thread had a local reference to still has it and is alive at every moment,
whatever the code of the other threads does. -/
theorem threads_locals (d2f : BitVec 64 → BitVec 32) {fs : Natives} (hf : fs.Only KeepsLocals) (depth : Nat → Nat)
    {s : Nat → Script} {t : Nat} (hs : (s t).Only KeepsLocals) {vm : Vm} (hr : JniReachable vm) (sched : List Nat)
    {i : Nat} (hi : HasLocal vm.heap t i) :
    HasLocal ((Starts d2f fs depth s vm).run sched).vm.heap t i ∧
    Live ((Starts d2f fs depth s vm).run sched).vm.heap i := by
  have h1 : ∀ u, fs.Only fun op => u = t → KeepsLocals op := fun u => Natives.Only.mono (fun _ h _ => h) hf
  have h2 : ∀ u, (s u).Only fun op => u = t → KeepsLocals op := by
    intro u
    by_cases hu : u = t
    · subst hu; exact Script.Only.mono (fun _ h _ => h) _ hs
    · exact Script.Only.mono (fun _ _ h => (hu h).elim) _ (only_true _)
  obtain ⟨ops, as, ht, hx⟩ := threads_by_calls d2f h1 depth h2 hr sched
  obtain ⟨hops, hh, hp⟩ := (runJni_grows hr.jniInv hx).heap
  obtain ⟨e, he, f, hfr, hif⟩ := hi
  refine local_ref_keeps_alive hr.jniInv.heap he (inner := []) (outer := e.frames) rfl ⟨f, hfr, hif⟩
    (along_of_all (fun x hxm h hut => ?_) _) hh
  obtain ⟨y, hy, hb, ho⟩ := hp x hxm
  rcases ho with ho | ⟨n, ho⟩ | ⟨r, ho⟩
  · have := (ht y hy).2
    rw [ho, ← hb, hut] at this
    revert this
    generalize x.2 = op
    intro hc e' _
    cases op <;> first | trivial | exact hc.elim (fun h => (h rfl).elim) False.elim
  · rw [ho]; exact fun _ _ => trivial
  · rw [ho]; exact fun _ _ => trivial

/-- Sample for `threads_others`, `threads_class_refs` and `threads_locals`: thread 0 has a local reference and runs
the sample while thread 1 detaches. -/
example : sampleNatives.Only KeepsLocals ∧ sampleScript.Only KeepsLocals ∧
    ¬ (Script.jni (.heap .detach) fun _ => .ret 0).Only KeepsLocals ∧
    ∃ vm i, JniReachable vm ∧ HasLocal vm.heap 0 i ∧ 2 ∉ [0, 1, 1, 0] ∧
      ∃ o c, vm.heap.objs 9 = some o ∧ o.kind = .cls "A".toList ∧ vm.world.IsClass "A".toList c := by
  refine ⟨sampleNatives_only trivial, fun _ => ⟨trivial, fun _ => trivial⟩, fun h => h.1, ?_⟩
  obtain ⟨vm, as, hx, hr, hp⟩ := jniReachable_of (ops := sampleNestedOps ++ [(0, .heap (.newObject none))])
    (p := fun vm _ => (vm.heap.envs 0).any (fun (e : Env) => e.frames.any fun f => !f.isEmpty) &&
      (vm.heap.objs 9).any (fun (o : Obj) => decide (o.kind = .cls "A".toList)) &&
      (findClass true vm.world.reg "A".toList).2.isSome) (by decide +kernel)
  simp only [Bool.and_eq_true, Option.any_eq_true, decide_eq_true_eq, List.any_eq_true] at hp
  obtain ⟨⟨⟨e, he, f, hf, hne⟩, o, ho, hk⟩, hc⟩ := hp
  obtain ⟨c, hc⟩ := Option.isSome_iff_exists.1 hc
  cases f with
  | nil => cases hne
  | cons i f => exact ⟨vm, i, hr, ⟨e, he, _, hf, List.mem_cons_self ..⟩, by decide, o, c, ho, hk, hc⟩

/-- C81. Code that has ended stays as it is. -/
theorem threads_ended (P : Pool) {t : Nat} (ht : (P.prog t).Ended) (sched : List Nat) :
    (P.run sched).prog t = P.prog t := run_prog_ended sched P ht

/-- C81. No thread is held up by the others for ever: when it gets its turn again and again, its code ends (or is
deeper than calls are followed), whatever the others do meanwhile. -/
theorem threads_fair_end (P : Pool) (t : Nat) (σ : Nat → Nat) (hσ : ∀ n, ∃ m, n ≤ m ∧ σ m = t) :
    ∃ n, ∀ m, n ≤ m → ((P.run (upTo σ m)).prog t).Ended := by
  have hsucc : ∀ n, P.run (upTo σ (n + 1)) = (P.run (upTo σ n)).step (σ n) := by
    intro n
    simp only [upTo, List.range_succ, List.map_append, Pool.run_append]
    rfl
  have hadd : ∀ n j, ∃ l, P.run (upTo σ (n + j)) = (P.run (upTo σ n)).run l := by
    intro n j
    induction j with
    | zero => exact ⟨[], rfl⟩
    | succ j ih =>
      obtain ⟨l, hl⟩ := ih
      exact ⟨l ++ [σ (n + j)], by rw [← Nat.add_assoc, hsucc, hl, Pool.run_append]; rfl⟩
  have hturn : ∀ j n, σ (n + j) = t → ∃ m, n ≤ m ∧ σ m = t ∧
      (P.run (upTo σ m)).prog t = (P.run (upTo σ n)).prog t := by
    intro j
    induction j with
    | zero => exact fun n h => ⟨n, Nat.le_refl _, h, rfl⟩
    | succ j ih =>
      intro n h
      by_cases hn : σ n = t
      · exact ⟨n, Nat.le_refl _, hn, rfl⟩
      · obtain ⟨m, h1, h2, h3⟩ := ih (n + 1) (by rw [← h]; congr 1; omega)
        refine ⟨m, by omega, h2, h3.trans ?_⟩
        rw [hsucc]
        exact run_prog_other (sched := [σ n]) (by simpa using Ne.symm hn) _
  have main : ∀ (p : Prog) (n : Nat), (P.run (upTo σ n)).prog t = p → ∃ m, ((P.run (upTo σ m)).prog t).Ended := by
    intro p
    induction p with
    | step f k ih =>
      intro n hn
      obtain ⟨m, hm, hmt⟩ := hσ n
      obtain ⟨j, rfl⟩ := Nat.exists_eq_add_of_le hm
      obtain ⟨m, h1, h2, h3⟩ := hturn j n hmt
      rw [hn] at h3
      refine ih (P.run (upTo σ m)).vm (m + 1) ?_
      rw [hsucc, h2]
      unfold Pool.step
      rw [h3]
      simp
    | _ => exact fun n hn => ⟨n, by rw [hn]; trivial⟩
  obtain ⟨n, hn⟩ := main _ 0 rfl
  refine ⟨n, fun m hm => ?_⟩
  obtain ⟨j, rfl⟩ := Nat.exists_eq_add_of_le hm
  obtain ⟨l, hl⟩ := hadd n j
  rw [hl, run_prog_ended l _ hn]
  exact hn

/-- Sample for `threads_fair_end`: two threads take turns. -/
example : ∀ n : Nat, ∃ m, n ≤ m ∧ (fun i => i % 2) m = 1 := fun n => ⟨2 * n + 1, by omega, by dsimp only; omega⟩

/-- Sample for `threads_ended`. -/
example : ∃ vm, JniReachable vm ∧
    (((Starts toFloat sampleNatives (fun _ => 5) (fun _ => .ret 3) vm).prog 0).Ended) := by
  obtain ⟨vm, as, hx, S⟩ := sample_nested
  exact ⟨vm, S.reach, trivial⟩

/-- C81. A hooked method stays hooked while nobody hooks one of its name and signature again, whatever else the threads
do. -/
theorem threads_hook_lasts (d2f : BitVec 64 → BitVec 32) {fs : Natives} {m : MethodRec} (hn : m.native = none)
    (hf : fs.Only fun op => ¬ Rehooks m.static m.name m.signature op) (depth : Nat → Nat) {s : Nat → Script}
    (hs : ∀ t, (s t).Only fun op => ¬ Rehooks m.static m.name m.signature op) {vm : Vm} (hr : JniReachable vm)
    (sched : List Nat) (hm : Names vm.world m.id m) : Names ((Starts d2f fs depth s vm).run sched).vm.world m.id m := by
  obtain ⟨ops, as, ht, hx⟩ := threads_by_calls d2f (fun _ => hf) depth hs hr sched
  obtain ⟨n, c, hc, hmem, _⟩ := hm
  refine ⟨n, c, (runJni_grows hr.jniInv hx).names _ _ hc, hook_run hr.jniInv hx hmem hn fun x hx => ?_, rfl⟩
  rcases (ht x hx).2 with h | h
  · exact h
  · intro hre
    generalize x.2 = op at h hre
    unfold Rehooks at hre
    split at hre
    · exact h
    · exact hre

/-- C81. A function that calls itself through the VM counts up to its argument on any thread, in whatever order
the steps of the threads are done and whatever the others do meanwhile, if nobody hooks a method of its name and
signature. -/
theorem threads_recursion (d2f : BitVec 64 → BitVec 32) {fs : Natives} {m : MethodRec} (hstat : m.static = true)
    (hf : fs.Only fun op => ¬ Rehooks m.static m.name m.signature op) (depth : Nat → Nat) {s : Nat → Script} {t : Nat}
    (hs : ∀ u, u ≠ t → (s u).Only fun op => ¬ Rehooks m.static m.name m.signature op) {vm : Vm} (hr : JniReachable vm)
    {env : Env} (he : vm.heap.envs t = some env) {k c : Nat} {o : Obj} {nm : Str} (ho : vm.heap.objs k = some o)
    (hk : o.kind = .cls nm) (hc : vm.world.IsClass nm c) (hm : Names vm.world m.id m) {f : Nat}
    (hh : m.handle = some f) (hkind : fs.kind f = .static) (hty : fs.type f = .int)
    (hbody : ∀ self, fs.hooked f self = countdown (some k) m.id) {n : BitVec 64} (hst : s t = countdown (some k) m.id [n])
    (sched : List Nat) (hend : (((Starts d2f fs depth s vm).run sched).prog t).Ended) :
    ((Starts d2f fs depth s vm).run sched).prog t = if n.toNat ≤ depth t then .ret n else .diverges := by
  obtain ⟨nm', cm, hcm, hmem, _⟩ := hm
  have hnat : m.native = none := by
    cases hx : m.native with
    | none => rfl
    | some i =>
      have := hr.jniInv.vm.1.native_not_static hmem (by rw [hx]; rfl)
      rw [hstat] at this; exact nomatch this
  have h := gives_run (J := Undisturbed t k nm c nm' cm m) (I := JniReachable)
    (Q := fun p => p = if n.toNat ≤ depth t then .ret n else .diverges)
    (R := fun u => ByCallsOf u fun op => ¬ Rehooks m.static m.name m.signature op ∨ CallsOwn op)
    (t := t) (fun _ h => h.reach) (fun u hu a b ha hab => ?_) sched (Starts d2f fs depth s vm)
    ⟨hr, by show (vm.heap.envs t).isSome = true; rw [he]; rfl, ⟨o, ho, hk⟩, hc, hcm, hmem⟩ ?_ fun u hu => thread_does d2f hf (depth u) u (hs u hu)
  · exact h.2.ended hend
  · refine ha.kept hnat (P := fun v op => v = u ∧ (¬ Rehooks m.static m.name m.signature op ∨ CallsOwn op))
      (hab.threads fun op h => ⟨rfl, h⟩) fun v op h => ⟨h.1 ▸ hu, ?_⟩
    rcases h.2 with h | h
    · exact h
    · intro hre
      unfold Rehooks at hre
      split at hre
      · exact h
      · exact hre
  · show ((s t).thread d2f fs (depth t) t).Gives _ _
    rw [hst]
    refine countdown_gives d2f fs (c := c) hbody (fun vm hv args => ?_) (depth t) n _ _ (fun h => ?_) fun h => ?_
    · rw [← hty]; exact hv.enters fs hh hkind args
    · show _ = _; rw [if_pos h]
    · rw [if_neg h]

/-- C81. Such a function does end, when the thread gets its turn again and again. -/
theorem threads_recursion_ends (d2f : BitVec 64 → BitVec 32) {fs : Natives} {m : MethodRec} (hst : m.static = true)
    (hf : fs.Only fun op => ¬ Rehooks m.static m.name m.signature op) (depth : Nat → Nat) {s : Nat → Script} {t : Nat}
    (hs : ∀ u, u ≠ t → (s u).Only fun op => ¬ Rehooks m.static m.name m.signature op) {vm : Vm} (hr : JniReachable vm)
    {env : Env} (he : vm.heap.envs t = some env) {k c : Nat} {o : Obj} {nm : Str} (ho : vm.heap.objs k = some o)
    (hk : o.kind = .cls nm) (hc : vm.world.IsClass nm c) (hm : Names vm.world m.id m) {f : Nat}
    (hh : m.handle = some f) (hkind : fs.kind f = .static) (hty : fs.type f = .int)
    (hbody : ∀ self, fs.hooked f self = countdown (some k) m.id) {n : BitVec 64} (hs0 : s t = countdown (some k) m.id [n])
    (hn : n.toNat ≤ depth t) {σ : Nat → Nat} (hσ : ∀ n, ∃ m, n ≤ m ∧ σ m = t) :
    ∃ N, ∀ j, N ≤ j → ((Starts d2f fs depth s vm).run (upTo σ j)).prog t = .ret n := by
  obtain ⟨N, h⟩ := threads_fair_end (Starts d2f fs depth s vm) t σ hσ
  refine ⟨N, fun j hj => ?_⟩
  rw [threads_recursion d2f hst hf depth hs hr he ho hk hc hm hh hkind hty hbody hs0 _ (h j hj), if_pos hn]

theorem sampleNatives_no_rehook : sampleNatives.Only fun op => ¬ Rehooks true "count".toList "(I)I".toList op :=
  sampleNatives_only fun h => h

/-- Sample for `threads_hook_lasts`, `threads_recursion` and `threads_recursion_ends`: two threads count to 1000 while
a third one hooks another method. -/
example : ∃ vm, JniReachable vm ∧ ∃ N, ∀ j, N ≤ j →
    ((Starts toFloat sampleNatives (fun _ => 1000) (fun u => if u < 2 then countdown (some 9) 0 [1000] else
      .jni (.cpp (.hookMethod "A".toList true "count".toList "()I".toList 7)) fun _ => .ret 0) vm).run
        (upTo (· % 3) j)).prog 1 = .ret 1000 := by
  obtain ⟨vm, as, hx, S⟩ := sample_nested
  obtain ⟨c', _, m1, _, _⟩ := S.names
  obtain ⟨o, ho, hk⟩ := S.obj
  obtain ⟨c, hc, _⟩ := S.cls
  obtain ⟨e, he⟩ := S.envs 1 (by decide)
  refine ⟨vm, S.reach, threads_recursion_ends toFloat (t := 1) (f := 3) rfl sampleNatives_no_rehook _ (fun u _ => ?_)
    S.reach he ho hk hc m1 rfl rfl rfl (fun _ => rfl) rfl (by decide) fun n => ⟨3 * n + 1, by omega, by omega⟩⟩
  dsimp only
  split
  · exact fun _ => trivial
  · exact ⟨fun h => absurd h.2.2 (by decide), fun _ => trivial⟩

/-- C81. That nobody hooks the method meanwhile is needed: a thread that hooks another function between two nested
calls changes what the rest of the recursion does. -/
theorem threads_rehook_race : ∃ vm, JniReachable vm ∧ ∃ sched : List Nat,
    ((Starts toFloat sampleNatives (fun _ => 9) (fun u => if u = 0 then countdown (some 9) 0 [3] else
      .jni (.cpp (.hookMethod "A".toList true "count".toList "(I)I".toList 6)) fun _ => .ret 0) vm).run
        sched).prog 0 = .ret 2 ∧
    ((countdown (some 9) 0 [3]).run toFloat (sampleNatives.code toFloat 0 9) 0 vm) = .returns vm 3 := by
  obtain ⟨vm, as, hx, S⟩ := sample_nested
  obtain ⟨c, hc, m1, _, _⟩ := S.names
  obtain ⟨e, he⟩ := S.envs 0 (by decide)
  refine ⟨vm, S.reach, [0, 1, 0, 0, 0, 0, 0], ?_,
    (nested_recursion toFloat sampleNatives S.reach he hc m1 (f := 3) rfl rfl rfl (fun _ => rfl) 9 3).trans rfl⟩
  have h : (runJni Vm.initial sampleNestedOps).holds (fun (x : Vm × List JniAnswer) =>
      match ((Starts toFloat sampleNatives (fun _ => 9) (fun u => if u = 0 then countdown (some 9) 0 [3] else
        .jni (.cpp (.hookMethod "A".toList true "count".toList "(I)I".toList 6)) fun _ => .ret 0) x.1).run
          [0, 1, 0, 0, 0, 0, 0]).prog 0 with
      | .ret v => decide (v = 2)
      | _ => false) = true := by decide +kernel
  obtain ⟨⟨v, as'⟩, h1, h2⟩ := Res.holds_iff.1 h
  rw [hx] at h1
  cases h1
  dsimp only at h2
  split at h2
  · rename_i hp; rw [hp, of_decide_eq_true h2]
  · cases h2

end Jnivm
