import Verif.Lemmas.StartSample
/-!
C66: `Jvm::start` runs the `main` of the first class that has one.
-/
namespace Jnivm
open Spec

/-! ## No `main` -/

/-- Without a `main` in any class an exception is thrown, and nothing was changed. -/
theorem start_none (natives : NativeCode) (code : Nat → Hook) {vm : Vm} (hr : VmReachable vm)
    (ha : Acyclic vm.world.bases) {cs : List (Nat × Nat)} (hcs : ∀ x ∈ cs, ClassEntry vm x)
    (hn : ∀ x ∈ cs, ¬ HasMain vm.world x.1) (t : Nat) (args : List (BitVec 64)) :
    ∃ N, ∀ depth, N ≤ depth → ∃ vm', Vm.start natives code t depth args vm cs = .raises vm' .runtimeError ∧
      vm'.world = vm.world ∧ VmReachable vm' ∧ RestoredAll t vm.heap vm'.heap ∧
      pendingOf t vm'.heap = pendingOf t vm.heap := by
  obtain ⟨N, hN⟩ := start_depth hr ha hcs
  refine ⟨N, fun depth hd => ?_⟩
  obtain ⟨h', hx, hr', hre, _, hpe⟩ := start_skip (natives := natives) (code := code) (t := t) (args := args)
    (post := []) hr hcs (hN depth hd) hn
  rw [List.append_nil] at hx
  exact ⟨_, hx, rfl, ⟨hr.1, hr'⟩, hre, hpe⟩

/-- Two classes, one of which has a function `main` of another type. -/
example : ∃ vm a d m, SampleStart vm a d [m] ∧ m.name = "main".toList ∧ ∃ N, ∀ depth, N ≤ depth →
    ∃ vm', Vm.start startNatives startCode 0 depth [] vm [(a, 9), (d, 10)] = .raises vm' .runtimeError := by
  obtain ⟨vm, a, d, S⟩ := sample_start
  have T := S.hook true "main".toList "()V".toList 1 rfl
  refine ⟨_, a, d, _, T, rfl, ?_⟩
  have hn : ¬ HasMain (vm.world.hookMethod d true "main".toList "()V".toList 1) d := by
    have none : ∀ st nat, ¬ Available (vm.world.hookMethod d true "main".toList "()V".toList 1) d st nat "main".toList "([Ljava/lang/String;)V".toList := by
      intro st nat h
      obtain ⟨m, hm, _, _, _, hs⟩ := T.avail.1 h
      obtain rfl : m = _ := by simpa using hm
      exact absurd (show "()V".toList = "([Ljava/lang/String;)V".toList from hs) (by decide)
    rintro (h | h | h)
    · exact none _ _ h
    · exact none _ _ h
    · exact none _ _ h
  obtain ⟨N, hN⟩ := start_none startNatives startCode T.reach T.acyclic (cs := [(a, 9), (d, 10)]) T.entries
    (fun x hx => by
      rcases List.mem_cons.1 hx with rfl | hx
      · exact T.noMain
      · obtain rfl : x = (d, 10) := by simpa using hx
        exact hn) 0 []
  exact ⟨N, fun depth hd => by obtain ⟨vm', h, _⟩ := hN depth hd; exact ⟨vm', h⟩⟩

/-! ## The first class with a `main` -/

/-- If the first class with a `main` has a static one, and no member function of that name and type, then this is
what is run, on the class and with the argument, and nothing else; `start` ends as it does.  The classes after it
do not matter. -/
theorem start_main (natives : NativeCode) {code : Nat → Hook} (hb : WellBehaved code) {vm : Vm}
    (hr : VmReachable vm) (ha : Acyclic vm.world.bases) {pre post : List (Nat × Nat)} {c k : Nat}
    (hcs : ∀ x ∈ pre ++ [(c, k)], ClassEntry vm x) (hn : ∀ x ∈ pre, ¬ HasMain vm.world x.1)
    (hst : MainStatic vm.world c) (hmem : ¬ MainMember vm.world c) {m : MethodRec}
    (hm : Names vm.world m.id m)
    (honly : ∀ id, Identifies vm.world c true false "main".toList "([Ljava/lang/String;)V".toList id → id = m.id)
    {f : Nat} (hf : m.handle = some f) (hkind : (code f).kind = .static) (hty : (code f).type = .void)
    (t : Nat) (args : List (BitVec 64)) :
    ∃ N, ∀ depth, N ≤ depth → ∃ vm1, Entered t k vm vm1 ∧ VmReachable vm1 ∧
      StartEnds t vm vm1 ((code f).run vm1 (.cls (some c)) args)
        (Vm.start natives code t depth args vm (pre ++ (c, k) :: post)) := by
  obtain ⟨N, hN⟩ := start_depth hr ha hcs
  refine ⟨N, fun depth hd => ?_⟩
  obtain ⟨h0, hx0, hr0, hre0, hcl0, hpe0⟩ := start_skip (natives := natives) (code := code) (t := t) (args := args)
    (post := (c, k) :: post) hr (fun x hx => hcs x (List.mem_append_left _ hx))
    (fun x hx => hN depth hd x (List.mem_append_left _ hx)) hn
  rw [hx0]
  have hce : ClassEntry { vm with heap := h0 } (c, k) := by
    obtain ⟨n, hcl, hk⟩ := hcs (c, k) (by simp)
    exact ⟨n, hcl, hcl0 _ hk⟩
  have hrv : VmReachable { vm with heap := h0 } := ⟨hr.1, hr0⟩
  obtain ⟨p, hg⟩ := hN depth hd (c, k) (by simp)
  have hce' := hce
  obtain ⟨n, hcl, _⟩ := hce'
  obtain ⟨pm, ps, pn⟩ := main_proxy hr.1 hcl hg
  obtain ⟨id, hpid⟩ := Option.isSome_iff_exists.1 (ps.2 hst)
  have hident := (getMethod_denotes hr.1 hcl main_ne_init hg).2.1 id hpid
  obtain rfl := honly id hident
  have hpm : p.member = none := by
    cases h : p.member with
    | none => rfl
    | some i => exact absurd (pm.1 (by simp [h])) hmem
  obtain ⟨d, m', hsup, hdec, hidm, huniq⟩ := hident
  obtain ⟨n', c', hc', hmem', _⟩ := hm
  obtain ⟨_, rfl⟩ := huniq c' m hmem' rfl
  obtain ⟨_, _, hnat, _, hsig⟩ := hdec
  have hnat : m.native = none := by cases h : m.native with | none => rfl | some _ => simp [h] at hnat
  have hto : p.toMethod = .ok (some m.id) := by simp [MethodProxy.toMethod, hpm, hpid]
  obtain ⟨h1, made, hx1⟩ := enterFrame_ok hr0 t
  obtain ⟨vm1, e1, e1', he1, he1', hid, hfr, _, haft, hr1, hent, nm, o1, hcl1, ho1, hk1⟩ :=
    entered hrv hx1 hce
  have hrs : VmReachable { vm with heap := h1 } := ⟨hr.1, (enterFrame_cases hr0 hx1).1⟩
  refine ⟨vm1, ?_, hr1, start_ends (inner := Vm.catchAll t ((code f).run vm1 (.cls (some c)) args))
    hre0 hrv hx1 hg hto he1 he1' hid hfr (hb f vm1 _ args hr1) (.inl rfl) ?_⟩
  · exact entered_of hre0 hpe0 hent
  · have hn2 : Names ({ vm with heap := h1 } : Vm).world m.id m := ⟨n', c', hc', hmem', rfl⟩
    have hn1 : Names vm1.world m.id m := by rw [haft.1]; exact hn2
    rw [invoke_static_eq (params := [.arr (.cls "java/lang/String".toList)]) (ret := none) hrs haft hr1 ho1 hk1 hcl1 hpid hn2 hnat hsig (by decide)]
    rw [withMethod_hooked hr1 hn1 hf, invoke_run hf, invoke_match (show _ = retJType none from hty) (.inr (.inr ⟨hkind, rfl⟩))]
    rfl

/-- The second class has a static `main` that returns (`f = 1`) or throws; the third entry does not matter. -/
example (f : Nat) : ∃ vm a d m, SampleStart vm a d [m] ∧ m.handle = some f ∧ ∀ post, ∃ N, ∀ depth, N ≤ depth →
    ∃ vm', (f = 1 → Vm.start startNatives startCode 0 depth [] vm ([(a, 9)] ++ (d, 10) :: post) = .returns vm' ()) ∧
      (f ≠ 1 → Vm.start startNatives startCode 0 depth [] vm ([(a, 9)] ++ (d, 10) :: post) =
        .raises vm' .runtimeError) := by
  obtain ⟨vm, a, d, S⟩ := sample_start
  have T := S.hook true "main".toList "([Ljava/lang/String;)V".toList f rfl
  refine ⟨_, a, d, _, T, rfl, fun post => ?_⟩
  obtain ⟨N, hN⟩ := start_main (post := post) startNatives startCode_behaved T.reach T.acyclic T.entries T.skipA
    (T.avail.2 ⟨_, List.mem_singleton_self _, rfl, rfl, rfl, rfl⟩)
    (fun h => by
      obtain ⟨m, hm, hs, _⟩ := T.avail.1 h
      obtain rfl : m = _ := by simpa using hm
      exact nomatch hs)
    (T.names (List.mem_singleton_self _))
    (fun id hid => by
      obtain ⟨m, hm, _, _, rfl⟩ := T.identifies hid
      rw [show m = _ by simpa using hm])
    rfl rfl rfl 0 []
  refine ⟨N, fun depth hd => ?_⟩
  obtain ⟨vm1, hent, _, hends⟩ := hN depth hd
  by_cases hf : f = 1
  · subst hf
    obtain ⟨vm3, h, _⟩ := (hends.2 (sameEnv_same hent)).1 (pending_same hent T.pending)
    exact ⟨vm3, fun _ => h, fun h => absurd rfl h⟩
  · have : (startCode f).run vm1 (.cls (some d)) [] = .raises vm1 .runtimeError := by simp [startCode, hf]
    rw [this] at hends
    obtain ⟨vm3, h, _⟩ := hends.2 (sameEnv_same hent)
    exact ⟨vm3, fun h => absurd h hf, fun _ => h⟩

/-- C66, negation: nothing keeps `main` from detaching its thread, and then `start` uses the environment that was
destroyed. -/
theorem start_detached : ∃ vm a d f m, SampleStart vm a d [m] ∧ m.handle = some f ∧ ∀ post, ∃ N, ∀ depth, N ≤ depth →
    Vm.start startNatives detachCode 0 depth [] vm ([(a, 9)] ++ (d, 10) :: post) = .ub .dangling := by
  obtain ⟨vm, a, d, S⟩ := sample_start
  have T := S.hook true "main".toList "([Ljava/lang/String;)V".toList 1 rfl
  refine ⟨_, a, d, _, _, T, rfl, fun post => ?_⟩
  obtain ⟨N, hN⟩ := start_main (post := post) startNatives detachCode_behaved T.reach T.acyclic T.entries T.skipA
    (T.avail.2 ⟨_, List.mem_singleton_self _, rfl, rfl, rfl, rfl⟩)
    (fun h => by
      obtain ⟨m, hm, hs, _⟩ := T.avail.1 h
      obtain rfl : m = _ := by simpa using hm
      exact nomatch hs)
    (T.names (List.mem_singleton_self _))
    (fun id hid => by
      obtain ⟨m, hm, _, _, rfl⟩ := T.identifies hid
      rw [show m = _ by simpa using hm])
    rfl rfl rfl 0 []
  refine ⟨N, fun depth hd => ?_⟩
  obtain ⟨vm1, hent, _, hends⟩ := hN depth hd
  exact hends.1 (by rw [Heap.collect_envs]; rfl)

/-- C66, negation: a `main` that pops a frame it has not pushed takes away the local references that the caller of
`start` had, here to two classes. -/
theorem start_pops : ∃ vm a d f m e, SampleStart vm a d [m] ∧ m.handle = some f ∧ vm.heap.envs 0 = some e ∧
    e.frames = [[9, 10]] ∧ ∀ post, ∃ N, ∀ depth, N ≤ depth → ∃ vm3 e3,
      Vm.start startNatives popCode 0 depth [] vm ([(a, 9)] ++ (d, 10) :: post) = .returns vm3 () ∧
      vm3.heap.envs 0 = some e3 ∧ e3.frames = [[]] := by
  obtain ⟨vm, a, d, S⟩ := sample_start
  have T := S.hook true "main".toList "([Ljava/lang/String;)V".toList 1 rfl
  obtain ⟨e, he, _, hfe⟩ := T.env
  refine ⟨_, a, d, _, _, e, T, rfl, he, hfe, fun post => ?_⟩
  obtain ⟨N, hN⟩ := start_main (post := post) startNatives popCode_behaved T.reach T.acyclic T.entries T.skipA
    (T.avail.2 ⟨_, List.mem_singleton_self _, rfl, rfl, rfl, rfl⟩)
    (fun h => by
      obtain ⟨m, hm, hs, _⟩ := T.avail.1 h
      obtain rfl : m = _ := by simpa using hm
      exact nomatch hs)
    (T.names (List.mem_singleton_self _))
    (fun id hid => by
      obtain ⟨m, hm, _, _, rfl⟩ := T.identifies hid
      rw [show m = _ by simpa using hm])
    rfl rfl rfl 0 []
  refine ⟨N, fun depth hd => ?_⟩
  obtain ⟨vm1, hent, hr1, hends⟩ := hN depth hd
  obtain ⟨e1, he1, hp1⟩ := pending_same hent T.pending
  obtain ⟨_, _, e1', he1', hf1⟩ := hent
  rw [he1] at he1'; cases he1'
  rw [he] at hf1
  simp only [hfe] at hf1
  obtain ⟨h2, hx, _, _, hb⟩ := leave_ok hr1.2 he1 false
  obtain ⟨e2, he2, hid, hf2⟩ := hb rfl
  have hpend := leaveFrame_pending hr1.2 (by rw [he1]; simp) hx
  simp only [pendingOf, he1, he2] at hpend
  have hrun : (popCode 1).run vm1 (.cls (some d)) [] = .returns { vm1 with heap := h2 } 0 := by
    simp only [popCode, hx]
  rw [hrun] at hends
  obtain ⟨vm3, h3, ⟨_, hu⟩, _⟩ := (hends.2 ⟨e1, e2, he1, he2, hid⟩).1 ⟨e2, he2, hpend.trans hp1⟩
  rw [he] at hu
  obtain ⟨e2', e3, he2', he3, _, hf3⟩ := hu
  simp only [he2] at he2'
  cases he2'
  refine ⟨vm3, e3, h3, he3, ?_⟩
  rw [hf3, hf2, hf1]
  simp [Heap.dropFront]

/-- If the first class with a `main` has both a member and a static function of that name and type, an exception
is thrown and no `main` is run, even if the classes after it have one. -/
theorem start_ambiguous (natives : NativeCode) (code : Nat → Hook) {vm : Vm} (hr : VmReachable vm)
    (ha : Acyclic vm.world.bases) {pre post : List (Nat × Nat)} {c k : Nat}
    (hcs : ∀ x ∈ pre ++ [(c, k)], ClassEntry vm x) (hn : ∀ x ∈ pre, ¬ HasMain vm.world x.1)
    (hst : MainStatic vm.world c) (hmem : MainMember vm.world c) (t : Nat) (args : List (BitVec 64)) :
    ∃ N, ∀ depth, N ≤ depth → ∃ vm',
      Vm.start natives code t depth args vm (pre ++ (c, k) :: post) = .raises vm' .ambiguous ∧
      vm'.world = vm.world ∧ VmReachable vm' ∧ RestoredAll t vm.heap vm'.heap ∧
      pendingOf t vm'.heap = pendingOf t vm.heap := by
  obtain ⟨N, hN⟩ := start_depth hr ha hcs
  refine ⟨N, fun depth hd => ?_⟩
  obtain ⟨h0, hx0, hr0, hre0, hcl0, hpe0⟩ := start_skip (natives := natives) (code := code) (t := t) (args := args)
    (post := (c, k) :: post) hr (fun x hx => hcs x (List.mem_append_left _ hx))
    (fun x hx => hN depth hd x (List.mem_append_left _ hx)) hn
  obtain ⟨p, hg⟩ := hN depth hd (c, k) (by simp)
  obtain ⟨n, hcl, _⟩ := hcs (c, k) (by simp)
  obtain ⟨pm, ps, pn⟩ := main_proxy hr.1 hcl hg
  have hto : p.toMethod = .throws .ambiguous := by simp [MethodProxy.toMethod, pm.2 hmem, ps.2 hst]
  obtain ⟨h1, made, hx1⟩ := enterFrame_ok hr0 t
  obtain ⟨h2, hx2, hr2, hre2, _, hpe2⟩ := empty_scope hr0 hx1
  refine ⟨{ vm with heap := h2 }, ?_, rfl, ⟨hr.1, hr2⟩, restoredAll_trans hre0 hre2, hpe2.trans hpe0⟩
  rw [hx0, Vm.start, Vm.startOn]
  simp only [hx1, Outcome.lift, hg, hto, Vm.leaving, hx2, Outcome.andThen]

example : ∃ vm a d m1 m2, SampleStart vm a d [m1, m2] ∧ ∃ N, ∀ depth, N ≤ depth →
    ∃ vm', Vm.start startNatives startCode 0 depth [] vm ([(a, 9)] ++ [(d, 10)]) = .raises vm' .ambiguous := by
  obtain ⟨vm, a, d, S⟩ := sample_start
  have T1 := S.hook true "main".toList "([Ljava/lang/String;)V".toList 1 rfl
  have T := T1.hook false "main".toList "([Ljava/lang/String;)V".toList 2 rfl
  refine ⟨_, a, d, _, _, T, ?_⟩
  obtain ⟨N, hN⟩ := start_ambiguous (post := []) startNatives startCode T.reach T.acyclic T.entries T.skipA
    (T.avail.2 ⟨_, List.mem_cons_self, rfl, rfl, rfl, rfl⟩)
    (T.avail.2 ⟨_, List.mem_cons_of_mem _ List.mem_cons_self, rfl, rfl, rfl, rfl⟩) 0 []
  exact ⟨N, fun depth hd => by obtain ⟨vm', h, _⟩ := hN depth hd; exact ⟨vm', h⟩⟩

/-- If the first class with a `main` only has a member function, an exception is thrown and no `main` is run, even
if the classes after it have one. -/
theorem start_member (natives : NativeCode) (code : Nat → Hook) {vm : Vm} (hr : VmReachable vm)
    (ha : Acyclic vm.world.bases) {pre post : List (Nat × Nat)} {c k : Nat}
    (hcs : ∀ x ∈ pre ++ [(c, k)], ClassEntry vm x) (hn : ∀ x ∈ pre, ¬ HasMain vm.world x.1)
    (hst : ¬ MainStatic vm.world c) (hmem : MainMember vm.world c) (t : Nat) (args : List (BitVec 64)) :
    ∃ N, ∀ depth, N ≤ depth → ∃ vm',
      Vm.start natives code t depth args vm (pre ++ (c, k) :: post) = .raises vm' .noSuchMethod ∧
      vm'.world = vm.world ∧ VmReachable vm' ∧ RestoredAll t vm.heap vm'.heap ∧
      pendingOf t vm'.heap = pendingOf t vm.heap := by
  obtain ⟨N, hN⟩ := start_depth hr ha hcs
  refine ⟨N, fun depth hd => ?_⟩
  obtain ⟨h0, hx0, hr0, hre0, hcl0, hpe0⟩ := start_skip (natives := natives) (code := code) (t := t) (args := args)
    (post := (c, k) :: post) hr (fun x hx => hcs x (List.mem_append_left _ hx))
    (fun x hx => hN depth hd x (List.mem_append_left _ hx)) hn
  obtain ⟨p, hg⟩ := hN depth hd (c, k) (by simp)
  obtain ⟨n, hcl, _⟩ := hcs (c, k) (by simp)
  obtain ⟨pm, ps, pn⟩ := main_proxy hr.1 hcl hg
  obtain ⟨id, hid⟩ := Option.isSome_iff_exists.1 (pm.2 hmem)
  have hps : p.static = none := by
    cases h : p.static with
    | none => rfl
    | some i => exact absurd (ps.1 (by simp [h])) hst
  have hpn : p.native = none := by
    cases h : p.native with
    | none => rfl
    | some i => exact absurd hmem (pn.1 (by simp [h])).2.1
  have hto : p.toMethod = .ok (some id) := by simp [MethodProxy.toMethod, hid, hps]
  obtain ⟨h1, made, hx1⟩ := enterFrame_ok hr0 t
  obtain ⟨h2, hx2, hr2, hre2, _, hpe2⟩ := empty_scope hr0 hx1
  refine ⟨{ vm with heap := h2 }, ?_, rfl, ⟨hr.1, hr2⟩, restoredAll_trans hre0 hre2, hpe2.trans hpe0⟩
  rw [hx0, start_invoke (vm := { vm with heap := h0 }) (c := c) hx1 hg hto, (invoke_nothing natives code _ t p args hpn).1 hps k]
  simp only [Outcome.andThen, Vm.leaving, hx2]

example : ∃ vm a d m, SampleStart vm a d [m] ∧ ∃ N, ∀ depth, N ≤ depth →
    ∃ vm', Vm.start startNatives startCode 0 depth [] vm ([(a, 9)] ++ [(d, 10)]) = .raises vm' .noSuchMethod := by
  obtain ⟨vm, a, d, S⟩ := sample_start
  have T := S.hook false "main".toList "([Ljava/lang/String;)V".toList 2 rfl
  refine ⟨_, a, d, _, T, ?_⟩
  obtain ⟨N, hN⟩ := start_member (post := []) startNatives startCode T.reach T.acyclic T.entries T.skipA
    (fun h => by
      obtain ⟨m, hm, hs, _⟩ := T.avail.1 h
      obtain rfl : m = _ := by simpa using hm
      exact nomatch hs)
    (T.avail.2 ⟨_, List.mem_singleton_self _, rfl, rfl, rfl, rfl⟩) 0 []
  exact ⟨N, fun depth hd => by obtain ⟨vm', h, _⟩ := hN depth hd; exact ⟨vm', h⟩⟩

/-- If the first class with a `main` only has one that was given to `RegisterNatives`, this function is run. -/
theorem start_native {natives : NativeCode} (hb : NativesBehave natives) (code : Nat → Hook) {vm : Vm}
    (hr : VmReachable vm) (ha : Acyclic vm.world.bases) {pre post : List (Nat × Nat)} {c k : Nat}
    (hcs : ∀ x ∈ pre ++ [(c, k)], ClassEntry vm x) (hn : ∀ x ∈ pre, ¬ HasMain vm.world x.1)
    (hnt : MainNative vm.world c) (hst : ¬ MainStatic vm.world c) (hmem : ¬ MainMember vm.world c)
    {m : MethodRec} (hm : Names vm.world m.id m)
    (honly : ∀ id, Identifies vm.world c false true "main".toList "([Ljava/lang/String;)V".toList id → id = m.id)
    {f : Nat} (hf : m.native = some f) (t : Nat) (args : List (BitVec 64)) :
    ∃ N, ∀ depth, N ≤ depth → ∃ vm1, Entered t k vm vm1 ∧ VmReachable vm1 ∧
      StartEnds t vm vm1 (natives f .void vm1 (.cls k) args)
        (Vm.start natives code t depth args vm (pre ++ (c, k) :: post)) := by
  obtain ⟨N, hN⟩ := start_depth hr ha hcs
  refine ⟨N, fun depth hd => ?_⟩
  obtain ⟨h0, hx0, hr0, hre0, hcl0, hpe0⟩ := start_skip (natives := natives) (code := code) (t := t) (args := args)
    (post := (c, k) :: post) hr (fun x hx => hcs x (List.mem_append_left _ hx))
    (fun x hx => hN depth hd x (List.mem_append_left _ hx)) hn
  rw [hx0]
  have hce : ClassEntry { vm with heap := h0 } (c, k) := by
    obtain ⟨n, hcl, hk⟩ := hcs (c, k) (by simp)
    exact ⟨n, hcl, hcl0 _ hk⟩
  have hrv : VmReachable { vm with heap := h0 } := ⟨hr.1, hr0⟩
  obtain ⟨p, hg⟩ := hN depth hd (c, k) (by simp)
  have hce' := hce
  obtain ⟨n, hcl, _⟩ := hce'
  obtain ⟨pm, ps, pn⟩ := main_proxy hr.1 hcl hg
  obtain ⟨id, hpid⟩ := Option.isSome_iff_exists.1 (pn.2 ⟨hnt, hmem, hst⟩)
  have hident := (getMethod_denotes hr.1 hcl main_ne_init hg).2.2 id hpid
  obtain rfl := honly id hident
  have hpm : p.member = none := by
    cases h : p.member with
    | none => rfl
    | some i => exact absurd (pm.1 (by simp [h])) hmem
  have hps : p.static = none := by
    cases h : p.static with
    | none => rfl
    | some i => exact absurd (ps.1 (by simp [h])) hst
  obtain ⟨d, m', hsup, hdec, hidm, huniq⟩ := hident
  obtain ⟨n', c', hc', hmem', _⟩ := hm
  obtain ⟨_, rfl⟩ := huniq c' m hmem' rfl
  obtain ⟨_, _, _, _, hsig⟩ := hdec
  have hto : p.toMethod = .ok (some m.id) := by simp [MethodProxy.toMethod, hpm, hps, hpid]
  obtain ⟨h1, made, hx1⟩ := enterFrame_ok hr0 t
  obtain ⟨vm1, e1, e1', he1, he1', hid, hfr, _, haft, hr1, hent, nm, o1, hcl1, ho1, hk1⟩ :=
    entered hrv hx1 hce
  have hrs : VmReachable { vm with heap := h1 } := ⟨hr.1, (enterFrame_cases hr0 hx1).1⟩
  refine ⟨vm1, entered_of hre0 hpe0 hent, hr1, start_ends (inner := natives f .void vm1 (.cls k) args)
    hre0 hrv hx1 hg hto he1 he1' hid hfr (hb f .void vm1 _ args hr1) (.inr rfl) ?_⟩
  have hn2 : Names ({ vm with heap := h1 } : Vm).world m.id m := ⟨n', c', hc', hmem', rfl⟩
  have hpick : p.onClass = .ok m.id := ((proxy_picks p).1 m.id).2 (.inr ⟨hps, hpid⟩)
  have hkind : nativeKind m.signature = .ok .void := by rw [hsig]; decide +kernel
  have e : ({ world := vm.world, heap := vm1.heap } : Vm) = vm1 := by
    rw [show vm.world = vm1.world from haft.1.symm]
  simp only [Vm.invokeProxy, hpick, Outcome.lift, Vm.invokeMethod, method?_names hr.1 hn2, (afterRef_iff.1 haft).2,
    hf, hkind, e]
  rfl

example : ∃ vm a d m, SampleStart vm a d [m] ∧ m.native = some 1 ∧ ∃ N, ∀ depth, N ≤ depth →
    ∃ vm', Vm.start startNatives startCode 0 depth [] vm ([(a, 9)] ++ [(d, 10)]) = .returns vm' () := by
  obtain ⟨vm, a, d, S⟩ := sample_start
  have T := S.register "main".toList "([Ljava/lang/String;)V".toList (some 1)
  refine ⟨_, a, d, _, T, rfl, ?_⟩
  have no : ∀ st, ¬ Available (vm.world.registerNatives (some d)
      [⟨"main".toList, "([Ljava/lang/String;)V".toList, some 1⟩]) d st false "main".toList
      "([Ljava/lang/String;)V".toList := by
    intro st h
    obtain ⟨m, hm, _, hs, _⟩ := T.avail.1 h
    obtain rfl : m = _ := by simpa using hm
    exact nomatch hs
  obtain ⟨N, hN⟩ := start_native (post := []) startNatives_behaved startCode T.reach T.acyclic T.entries T.skipA
    (T.avail.2 ⟨_, List.mem_singleton_self _, rfl, rfl, rfl, rfl⟩) (no true) (no false)
    (T.names (List.mem_singleton_self _))
    (fun id hid => by
      obtain ⟨m, hm, _, _, rfl⟩ := T.identifies hid
      rw [show m = _ by simpa using hm])
    rfl 0 []
  refine ⟨N, fun depth hd => ?_⟩
  obtain ⟨vm1, hent, _, hends⟩ := hN depth hd
  obtain ⟨vm3, h, _⟩ := (hends.2 (sameEnv_same hent)).1 (pending_same hent T.pending)
  exact ⟨vm3, h⟩

/-- A static `main` that nobody implements counts, for example one that a lookup made up: `start` returns, unless
an exception was pending, without having run anything, even if the classes after it have a `main`. -/
theorem start_unhooked (natives : NativeCode) (code : Nat → Hook) {vm : Vm}
    (hr : VmReachable vm) (ha : Acyclic vm.world.bases) {pre post : List (Nat × Nat)} {c k : Nat}
    (hcs : ∀ x ∈ pre ++ [(c, k)], ClassEntry vm x) (hn : ∀ x ∈ pre, ¬ HasMain vm.world x.1)
    (hst : MainStatic vm.world c) (hmem : ¬ MainMember vm.world c) {m : MethodRec}
    (hm : Names vm.world m.id m)
    (honly : ∀ id, Identifies vm.world c true false "main".toList "([Ljava/lang/String;)V".toList id → id = m.id)
    (hf : m.handle = none) (t : Nat) (args : List (BitVec 64)) :
    ∃ N, ∀ depth, N ≤ depth → ∃ vm1, Entered t k vm vm1 ∧ VmReachable vm1 ∧
      StartEnds t vm vm1 (.returns vm1 0) (Vm.start natives code t depth args vm (pre ++ (c, k) :: post)) := by
  obtain ⟨N, hN⟩ := start_depth hr ha hcs
  refine ⟨N, fun depth hd => ?_⟩
  obtain ⟨h0, hx0, hr0, hre0, hcl0, hpe0⟩ := start_skip (natives := natives) (code := code) (t := t) (args := args)
    (post := (c, k) :: post) hr (fun x hx => hcs x (List.mem_append_left _ hx))
    (fun x hx => hN depth hd x (List.mem_append_left _ hx)) hn
  rw [hx0]
  have hce : ClassEntry { vm with heap := h0 } (c, k) := by
    obtain ⟨n, hcl, hk⟩ := hcs (c, k) (by simp)
    exact ⟨n, hcl, hcl0 _ hk⟩
  have hrv : VmReachable { vm with heap := h0 } := ⟨hr.1, hr0⟩
  obtain ⟨p, hg⟩ := hN depth hd (c, k) (by simp)
  have hce' := hce
  obtain ⟨n, hcl, _⟩ := hce'
  obtain ⟨pm, ps, pn⟩ := main_proxy hr.1 hcl hg
  obtain ⟨id, hpid⟩ := Option.isSome_iff_exists.1 (ps.2 hst)
  have hident := (getMethod_denotes hr.1 hcl main_ne_init hg).2.1 id hpid
  obtain rfl := honly id hident
  have hpm : p.member = none := by
    cases h : p.member with
    | none => rfl
    | some i => exact absurd (pm.1 (by simp [h])) hmem
  obtain ⟨d, m', hsup, hdec, hidm, huniq⟩ := hident
  obtain ⟨n', c', hc', hmem', _⟩ := hm
  obtain ⟨_, rfl⟩ := huniq c' m hmem' rfl
  obtain ⟨_, _, hnat, _, hsig⟩ := hdec
  have hnat : m.native = none := by cases h : m.native with | none => rfl | some _ => simp [h] at hnat
  have hto : p.toMethod = .ok (some m.id) := by simp [MethodProxy.toMethod, hpm, hpid]
  obtain ⟨h1, made, hx1⟩ := enterFrame_ok hr0 t
  obtain ⟨vm1, e1, e1', he1, he1', hid, hfr, _, haft, hr1, hent, nm, o1, hcl1, ho1, hk1⟩ :=
    entered hrv hx1 hce
  have hrs : VmReachable { vm with heap := h1 } := ⟨hr.1, (enterFrame_cases hr0 hx1).1⟩
  refine ⟨vm1, entered_of hre0 hpe0 hent, hr1, start_ends (inner := .returns vm1 0)
    hre0 hrv hx1 hg hto he1 he1' hid hfr hr1 (.inr rfl) ?_⟩
  have hn2 : Names ({ vm with heap := h1 } : Vm).world m.id m := ⟨n', c', hc', hmem', rfl⟩
  have hn1 : Names vm1.world m.id m := by rw [haft.1]; exact hn2
  rw [invoke_static_eq (params := [.arr (.cls "java/lang/String".toList)]) (ret := none) hrs haft hr1 ho1 hk1 hcl1 hpid hn2 hnat hsig (by decide)]
  simp only [Vm.withMethod, method?_names hr1.1 hn1, hf]
  rfl

/-- Somebody looked up a `main` in the second class. -/
example : ∃ vm a d m, SampleStart vm a d [m] ∧ m.handle = none ∧ ∀ post, ∃ N, ∀ depth, N ≤ depth →
    ∃ vm', Vm.start startNatives startCode 0 depth [] vm ([(a, 9)] ++ (d, 10) :: post) = .returns vm' () := by
  obtain ⟨vm, a, d, S⟩ := sample_start
  obtain ⟨w, T⟩ := S.madeUp true
  refine ⟨_, a, d, _, T, rfl, fun post => ?_⟩
  obtain ⟨N, hN⟩ := start_unhooked (post := post) startNatives startCode T.reach T.acyclic T.entries T.skipA
    (T.avail.2 ⟨_, List.mem_singleton_self _, rfl, rfl, rfl, rfl⟩)
    (fun h => by
      obtain ⟨m, hm, hs, _⟩ := T.avail.1 h
      obtain rfl : m = _ := by simpa using hm
      exact nomatch hs)
    (T.names (List.mem_singleton_self _))
    (fun id hid => by
      obtain ⟨m, hm, _, _, rfl⟩ := T.identifies hid
      rw [show m = _ by simpa using hm])
    rfl 0 []
  refine ⟨N, fun depth hd => ?_⟩
  obtain ⟨vm1, hent, _, hends⟩ := hN depth hd
  obtain ⟨vm3, h, _⟩ := (hends.2 (sameEnv_same hent)).1 (pending_same hent T.pending)
  exact ⟨vm3, h⟩

/-! ## `createMainMethod` -/

/-- After `createMainMethod` the function it was given is what `start` runs, in whatever order the classes are,
if there was no `main` before. -/
theorem main_created (natives : NativeCode) {code : Nat → Hook} (hb : WellBehaved code) {vm : Vm}
    (hr : VmReachable vm) (ha : Acyclic vm.world.bases) {cs : List (Nat × Nat)} {c k : Nat}
    (hcs : ∀ x ∈ cs, ClassEntry vm x) (hn : ∀ x ∈ cs, ¬ HasMain vm.world x.1)
    (hc : (c, k) ∈ cs) (hone : ∀ x ∈ cs, x.1 = c → x.2 = k)
    (hsub : ∀ x ∈ cs, x.1 ≠ c → ¬ Super vm.world.bases x.1 c)
    {f : Nat} (hkind : (code f).kind = .static) (hty : (code f).type = .void) (t : Nat) (args : List (BitVec 64)) :
    ∃ N, ∀ depth, N ≤ depth → ∃ vm1, Entered t k { vm with world := vm.world.createMain c f } vm1 ∧ VmReachable vm1 ∧
      StartEnds t vm vm1 ((code f).run vm1 (.cls (some c)) args)
        (Vm.start natives code t depth args { vm with world := vm.world.createMain c f } cs) := by
  have hrun : (MemOp.hookMethod c true mainName mainSig f).run vm.world = .ok (vm.world.createMain c f) := rfl
  have hfree : (vm.world.mem c).methods.find? (hookHits true mainName mainSig) = none := by
    rw [List.find?_eq_none]
    intro m hm hh
    obtain ⟨h1, h2, h3⟩ := hookHits_iff.1 hh
    refine hn (c, k) hc (.inr (.inl ⟨c, m, .refl _, hm, h1, ?_, h2, h3⟩))
    · cases hx : m.native with
      | none => rfl
      | some i => rw [hr.1.native_not_static hm (by rw [hx]; rfl)] at h1; exact nomatch h1
  have hnew := hookMethod_new hfree f
  have hbases : (vm.world.createMain c f).bases = vm.world.bases := hookMethod_bases ..
  have mc : ((vm.world.createMain c f).mem c).methods =
      (vm.world.mem c).methods ++ [⟨vm.world.next, mainName, mainSig, true, none, some f⟩] := by
    unfold World.createMain; rw [hnew]; simp
  have mo : ∀ d, d ≠ c → ((vm.world.createMain c f).mem d).methods = (vm.world.mem d).methods := by
    intro d hd
    unfold World.createMain; rw [hnew]; simp [hd]
  have hr' : VmReachable { vm with world := vm.world.createMain c f } := ⟨hr.1.step hrun, hr.2⟩
  have cls : ∀ x ∈ cs, ClassEntry { vm with world := vm.world.createMain c f } x := by
    intro x hx
    obtain ⟨n, h1, h2⟩ := hcs x hx
    exact ⟨n, isClass_step hr.1.inv hrun h1, h2⟩
  -- what is available afterwards was available before or is the new function
  have avail : ∀ x st nat, Available (vm.world.createMain c f) x st nat mainName mainSig →
      Available vm.world x st nat mainName mainSig ∨ (Super vm.world.bases x c ∧ st = true ∧ nat = false) := by
    rintro x st nat ⟨d, m, hs, hm, hx⟩
    rw [hbases] at hs
    by_cases hd : d = c
    · subst hd
      rw [mc] at hm
      rcases List.mem_append.1 hm with hm | hm
      · exact .inl ⟨d, m, hs, hm, hx⟩
      · obtain rfl : m = _ := by simpa using hm
        exact .inr ⟨hs, hx.1.symm, hx.2.1.symm⟩
    · rw [mo d hd] at hm
      exact .inl ⟨d, m, hs, hm, hx⟩
  obtain ⟨pre, post, hsplit, hpre⟩ : ∃ pre post, cs = pre ++ (c, k) :: post ∧ ∀ x ∈ pre, x.1 ≠ c := by
    clear hcs hn hsub cls
    induction cs with
    | nil => exact nomatch hc
    | cons y cs ih =>
      by_cases hy : y.1 = c
      · refine ⟨[], cs, ?_, fun x hx => nomatch hx⟩
        have := hone y List.mem_cons_self hy
        obtain ⟨y1, y2⟩ := y
        simp only at hy this
        subst hy this; rfl
      · rcases List.mem_cons.1 hc with rfl | hc
        · exact absurd rfl hy
        · obtain ⟨pre, post, h1, h2⟩ := ih hc (fun x hx => hone x (List.mem_cons_of_mem _ hx))
          refine ⟨y :: pre, post, by rw [h1]; rfl, fun x hx => ?_⟩
          rcases List.mem_cons.1 hx with rfl | hx
          · exact hy
          · exact h2 x hx
  have inpre : ∀ x ∈ pre, x ∈ cs := fun x hx => by rw [hsplit]; exact List.mem_append_left _ hx
  obtain ⟨N, hN⟩ := start_main (post := post) (pre := pre) (c := c) (k := k) natives hb hr' (by
      show Acyclic (vm.world.createMain c f).bases
      rw [hbases]; exact ha)
    (fun x hx => by
      rcases List.mem_append.1 hx with hx | hx
      · exact cls x (inpre x hx)
      · obtain rfl : x = (c, k) := by simpa using hx
        exact cls _ hc)
    (fun x hx hm => by
      have key : ∀ st nat, ¬ Available (vm.world.createMain c f) x.1 st nat mainName mainSig ∨
          Available vm.world x.1 st nat mainName mainSig := by
        intro st nat
        by_cases h : Available (vm.world.createMain c f) x.1 st nat mainName mainSig
        · rcases avail _ _ _ h with h | ⟨h, _⟩
          · exact .inr h
          · exact absurd h (hsub x (inpre x hx) (hpre x hx))
        · exact .inl h
      refine hn x (inpre x hx) ?_
      rcases hm with h | h | h
      · exact .inl ((key _ _).resolve_left fun g => g h)
      · exact .inr (.inl ((key _ _).resolve_left fun g => g h))
      · exact .inr (.inr ((key _ _).resolve_left fun g => g h)))
    ⟨c, _, .refl _, by show _ ∈ ((vm.world.createMain c f).mem c).methods; rw [mc]; exact List.mem_append_right _ (List.mem_singleton_self _),
      rfl, rfl, rfl, rfl⟩
    (fun h => by
      rcases avail _ _ _ h with h | ⟨_, h, _⟩
      · exact hn _ hc (.inl h)
      · exact nomatch h)
    (m := ⟨vm.world.next, mainName, mainSig, true, none, some f⟩)
    (by
      obtain ⟨n, h1, _⟩ := cls _ hc
      exact ⟨n, c, h1, by show _ ∈ ((vm.world.createMain c f).mem c).methods; rw [mc]; exact List.mem_append_right _ (List.mem_singleton_self _), rfl⟩)
    (fun id ⟨d, m, hs, ⟨hm, hx⟩, hid, _⟩ => by
      have hs : Super vm.world.bases c d := hbases ▸ hs
      by_cases hd : d = c
      · subst hd
        have hm : m ∈ ((vm.world.createMain d f).mem d).methods := hm
        rw [mc] at hm
        rcases List.mem_append.1 hm with hm | hm
        · exact absurd (.inr (.inl ⟨d, m, hs, hm, hx⟩)) (hn _ hc)
        · obtain rfl : m = _ := by simpa using hm
          exact hid.symm
      · have hm : m ∈ ((vm.world.createMain c f).mem d).methods := hm
        rw [mo d hd] at hm
        exact absurd (.inr (.inl ⟨d, m, hs, hm, hx⟩)) (hn _ hc))
    rfl hkind hty t args
  refine ⟨N, fun depth hd => ?_⟩
  rw [hsplit]
  exact hN depth hd

/-- Two classes; `createMainMethod` is called for "D", which is the second or the first one. -/
example (front : Bool) : ∃ vm a d, SampleStart vm a d [] ∧ ∃ N, ∀ depth, N ≤ depth → ∃ vm',
    Vm.start startNatives startCode 0 depth [] { vm with world := vm.world.createMain d 1 }
      (if front then [(d, 10), (a, 9)] else [(a, 9), (d, 10)]) = .returns vm' () := by
  obtain ⟨vm, a, d, S⟩ := sample_start
  refine ⟨vm, a, d, S, ?_⟩
  have mem : ∀ x ∈ (if front then [(d, 10), (a, 9)] else [(a, 9), (d, 10)]), x = (a, 9) ∨ x = (d, 10) := by
    cases front <;> simp [or_comm]
  obtain ⟨N, hN⟩ := main_created (cs := if front then [(d, 10), (a, 9)] else [(a, 9), (d, 10)]) (c := d) (k := 10) (f := 1)
    startNatives startCode_behaved S.reach S.acyclic
    (fun x hx => S.entries x (by simpa using mem x hx))
    (fun x hx => by
      rcases mem x hx with rfl | rfl
      · exact S.noMain
      · rintro (h | h | h) <;> (obtain ⟨_, h, _⟩ := S.avail.1 h; exact nomatch h))
    (by cases front <;> simp)
    (fun x hx h => by
      rcases mem x hx with rfl | rfl
      · exact absurd h S.ad
      · rfl)
    (fun x hx h => by
      rcases mem x hx with rfl | rfl
      · exact fun hs => S.ad (S.onlyA hs).symm
      · exact absurd rfl h) rfl rfl 0 []
  refine ⟨N, fun depth hd => ?_⟩
  obtain ⟨vm1, hent, _, hends⟩ := hN depth hd
  obtain ⟨vm3, h, _⟩ := (hends.2 (sameEnv_same hent)).1 (pending_same hent S.pending)
  exact ⟨vm3, h⟩

/-- The last one wins: calling `createMainMethod` again is as if it was only called with the last function. -/
theorem main_replaced (w : World) (c f g : Nat) : (w.createMain c f).createMain c g = w.createMain c g :=
  hookMethod_twice ..

end Jnivm
