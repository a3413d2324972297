import Verif.Spec.Start
import Verif.Lemmas.LocalFrame
import Verif.Lemmas.ObjArgs
import Verif.Lemmas.Descriptor
import Verif.Props.Proxy
/-!
`Jvm::start`: helper lemmas.
-/
namespace Jnivm
open Spec
open Heap hiding Live

theorem main_ne_init : "main".toList ≠ "<init>".toList := by decide

theorem enterFrame_pins {h h1 : Heap} (hr : HeapReachable h) {t : Nat} {vm made : Bool}
    (hx : h.enterFrame t vm = .ok (h1, made)) {x : Str × Nat} (hc : x ∈ h.classes) : x ∈ h1.classes := by
  unfold Heap.enterFrame at hx
  split at hx
  · obtain ⟨⟨h2, o⟩, hx1, hx2⟩ := Res.bind_eq_ok.1 hx
    injection hx2 with hx2; injection hx2 with hx2 _; subst hx2
    obtain ⟨_, _, _, g⟩ := pins_run hr.inv.toPre hx1
    exact g x hc
  · split at hx
    · obtain ⟨⟨h2, o⟩, hx1, hx2⟩ := Res.bind_eq_ok.1 hx
      obtain ⟨⟨h3, o3⟩, hx3, hx4⟩ := Res.bind_eq_ok.1 hx2
      injection hx4 with hx4; injection hx4 with hx4 _; subst hx4
      obtain ⟨_, _, _, g⟩ := pins_run hr.inv.toPre hx1
      obtain ⟨_, _, _, g'⟩ := pins_run (hr.step hx1).inv.toPre hx3
      exact g' x (g x hc)
    · exact nomatch hx

theorem leaveFrame_pins {h h1 : Heap} (hr : HeapReachable h) {t : Nat} {made : Bool}
    (hx : h.leaveFrame t made = .ok h1) {x : Str × Nat} (hc : x ∈ h.classes) : x ∈ h1.classes := by
  unfold Heap.leaveFrame at hx
  obtain ⟨⟨h2, o⟩, hx1, hx2⟩ := Res.bind_eq_ok.1 hx
  obtain ⟨_, _, _, g⟩ := pins_run hr.inv.toPre hx1
  dsimp only at hx2
  cases made with
  | false =>
    simp only [Bool.false_eq_true, if_false] at hx2
    injection hx2 with hx2; subst hx2
    exact g x hc
  | true =>
    simp only [if_true] at hx2
    obtain ⟨⟨h3, o3⟩, hx3, hx4⟩ := Res.bind_eq_ok.1 hx2
    injection hx4 with hx4; subst hx4
    obtain ⟨_, _, _, g'⟩ := pins_run (hr.step hx1).inv.toPre hx3
    exact g' x (g x hc)

theorem restored_trans {t : Nat} {h h1 h2 : Heap} (a : RestoredAll t h h1) (b : Restored t h1 h2) :
    Restored t h h2 := by
  unfold RestoredAll at a
  unfold Restored at b ⊢
  cases he : h.envs t with
  | none => rw [he] at a; simp only at a; rw [a] at b; exact b
  | some e =>
    rw [he] at a
    obtain ⟨e1, he1, hid, hf⟩ := a
    rw [he1] at b
    obtain ⟨e2, he2, hid2, ht⟩ := b
    exact ⟨e2, he2, hid2.trans hid, hf ▸ ht⟩

theorem restoredAll_trans {t : Nat} {h h1 h2 : Heap} (a : RestoredAll t h h1) (b : RestoredAll t h1 h2) :
    RestoredAll t h h2 := by
  unfold RestoredAll at a b ⊢
  cases he : h.envs t with
  | none => rw [he] at a; simp only at a; rw [a] at b; exact b
  | some e =>
    rw [he] at a
    obtain ⟨e1, he1, hid, hf⟩ := a
    rw [he1] at b
    obtain ⟨e2, he2, hid2, ht⟩ := b
    exact ⟨e2, he2, hid2.trans hid, ht.trans hf⟩

theorem restoredAll_refl (t : Nat) (h : Heap) : RestoredAll t h h := by
  unfold RestoredAll
  cases he : h.envs t with
  | none => rfl
  | some e => exact ⟨e, rfl, rfl, rfl⟩

theorem pending_step {h h' : Heap} (hr : HeapReachable h) {t : Nat} {op : HeapOp} {out : Out}
    (ha : h.envs t ≠ none) (hn : ¬ TouchesPending op) (hd : op ≠ .detach) (hx : op.run h t = .ok (h', out)) :
    pendingOf t h' = pendingOf t h ∧ h'.envs t ≠ none := by
  obtain ⟨e, he⟩ := Option.ne_none_iff_exists'.1 ha
  obtain ⟨e1, h2, _, h3⟩ := own_effect hr he hx hd
  simp [pendingOf, he, h2, h3 hn]

theorem enterFrame_pending {h h1 : Heap} (hr : HeapReachable h) {t : Nat} {vm made : Bool}
    (hx : h.enterFrame t vm = .ok (h1, made)) :
    pendingOf t h1 = pendingOf t h ∧ h1.envs t ≠ none ∧ (made = true → h.envs t = none) := by
  unfold Heap.enterFrame at hx
  split at hx
  · rename_i e he
    obtain ⟨⟨h2, o⟩, hx1, hx2⟩ := Res.bind_eq_ok.1 hx
    injection hx2 with hx2; injection hx2 with hx2 hm; subst hx2 hm
    obtain ⟨a, b⟩ := pending_step hr (by simp [he]) (by simp [TouchesPending]) (by simp) hx1
    exact ⟨a, b, fun h => (nomatch h)⟩
  · rename_i he
    split at hx
    · obtain ⟨⟨h2, o⟩, hx1, hx2⟩ := Res.bind_eq_ok.1 hx
      obtain ⟨⟨h3, o3⟩, hx3, hx4⟩ := Res.bind_eq_ok.1 hx2
      injection hx4 with hx4; injection hx4 with hx4 _; subst hx4
      have h1 : h2 = (h.attach t).1.collect := by
        simp [HeapOp.run, HeapOp.exec, HeapOp.needsEnv, HeapOp.body, Res.bind] at hx1
        exact hx1.1.symm
      have he1 : ∃ e1, h2.envs t = some e1 ∧ e1.pending = none := by
        rw [h1, Heap.collect_envs]
        simp [Heap.attach, he, Heap.setEnv, Heap.newEnv]
      obtain ⟨e1, he1, hp⟩ := he1
      obtain ⟨a, b⟩ := pending_step (hr.step hx1) (by simp [he1]) (by simp [TouchesPending]) (by simp) hx3
      exact ⟨by rw [a]; simp [pendingOf, he, he1, hp], b, fun _ => he⟩
    · exact nomatch hx

theorem leaveFrame_pending {h h1 : Heap} (hr : HeapReachable h) {t : Nat} (ha : h.envs t ≠ none)
    (hx : h.leaveFrame t false = .ok h1) : pendingOf t h1 = pendingOf t h := by
  unfold Heap.leaveFrame at hx
  obtain ⟨⟨h2, o⟩, hx1, hx2⟩ := Res.bind_eq_ok.1 hx
  simp only [Bool.false_eq_true, if_false] at hx2
  injection hx2 with hx2; subst hx2
  exact (pending_step hr ha (by simp [TouchesPending]) (by simp) hx1).1

theorem enterFrame_ok {h : Heap} (hr : HeapReachable h) (t : Nat) :
    ∃ h1 made, h.enterFrame t true = .ok (h1, made) := by
  cases he : h.envs t with
  | some e =>
    obtain ⟨h1, e1, hx, _⟩ := enter_attached hr he true
    exact ⟨h1, _, hx⟩
  | none =>
    obtain ⟨h1, e1, hx, _⟩ := enter_detached hr he
    exact ⟨h1, _, hx⟩

/-- A scope with nothing in it. -/
theorem empty_scope {h h1 : Heap} (hr : HeapReachable h) {t : Nat} {made : Bool}
    (hx : h.enterFrame t true = .ok (h1, made)) :
    ∃ h2, h1.leaveFrame t made = .ok h2 ∧ HeapReachable h2 ∧ RestoredAll t h h2 ∧
      (∀ x ∈ h.classes, x ∈ h2.classes) ∧ pendingOf t h2 = pendingOf t h := by
  obtain ⟨hr1, hc⟩ := enterFrame_cases hr hx
  have key : ∃ e1, h1.envs t = some e1 := by
    rcases hc with ⟨_, e1, _, _, he1, _⟩ | ⟨_, _, e1, he1, _⟩
    · exact ⟨e1, he1⟩
    · exact ⟨e1, he1⟩
  obtain ⟨e1, he1⟩ := key
  obtain ⟨h2, hx2, hr2, ha, hb⟩ := leave_ok hr1 he1 made
  have hpend : pendingOf t h2 = pendingOf t h := by
    obtain ⟨p1, p2, p3⟩ := enterFrame_pending hr hx
    cases made with
    | false => rw [leaveFrame_pending hr1 p2 hx2, p1]
    | true => simp [pendingOf, ha rfl, p3 rfl]
  refine ⟨h2, hx2, hr2, ?_, fun x hc => leaveFrame_pins hr1 hx2 (enterFrame_pins hr hx hc), hpend⟩
  unfold RestoredAll
  rcases hc with ⟨e, e1', he, rfl, he1', hid, hf⟩ | ⟨he, rfl, _⟩
  · rw [he1] at he1'; injection he1' with he1'; subst he1'
    rw [he]
    obtain ⟨e2, he2, hid2, hf2⟩ := hb rfl
    exact ⟨e2, he2, hid2.trans hid, by rw [hf2, hf, dropFront_one (frames_nonempty hr he)]⟩
  · rw [he]; exact ha rfl

theorem classEntry_object {vm : Vm} (hr : VmReachable vm) {c k : Nat} (h : ClassEntry vm (c, k)) :
    ∃ n o, vm.world.IsClass n c ∧ vm.heap.objs k = some o ∧ o.kind = .cls n := by
  obtain ⟨n, hc, hk⟩ := h
  obtain ⟨_, o, ho, hkind⟩ := hr.2.inv.toPre.classes n k hk
  exact ⟨n, o, hc, ho, hkind⟩

/-- A depth that is enough for all classes of the list. -/
theorem start_depth {vm : Vm} (hr : VmReachable vm) (ha : Acyclic vm.world.bases) {cs : List (Nat × Nat)}
    (hcs : ∀ x ∈ cs, ClassEntry vm x) : ∃ N, ∀ depth, N ≤ depth → ∀ x ∈ cs,
      ∃ p, vm.world.getMethod depth x.1 mainSig mainName = .ok (vm.world, p) := by
  induction cs with
  | nil => exact ⟨0, fun _ _ x hx => nomatch hx⟩
  | cons y cs ih =>
    obtain ⟨N, hN⟩ := ih fun x hx => hcs x (List.mem_cons_of_mem _ hx)
    obtain ⟨n, hc, _⟩ := hcs y List.mem_cons_self
    obtain ⟨M, hM⟩ := getMethod_total hr.1 hc ha mainSig (name := mainName) main_ne_init
    refine ⟨max N M, fun depth hd x hx => ?_⟩
    rcases List.mem_cons.1 hx with rfl | hx
    · exact hM depth (by omega)
    · exact hN depth (by omega) x hx

/-- What the search finds in one class. -/
theorem main_proxy {w : World} (hr : MemReachable w) {n : Str} {c : Nat} (hc : w.IsClass n c) {depth : Nat}
    {p : MethodProxy} (hg : w.getMethod depth c mainSig mainName = .ok (w, p)) :
    (p.member.isSome ↔ MainMember w c) ∧ (p.static.isSome ↔ MainStatic w c) ∧
      (p.native.isSome ↔ MainNative w c ∧ ¬ MainMember w c ∧ ¬ MainStatic w c) :=
  (getMethod_exact hr hc main_ne_init hg).2

/-- A class without `main` is skipped. -/
theorem startOn_skip {natives : NativeCode} {code : Nat → Hook} {t depth : Nat} {vm : Vm} {c k : Nat}
    {args : List (BitVec 64)} (hr : VmReachable vm) (hc : ClassEntry vm (c, k)) {p : MethodProxy}
    (hg : vm.world.getMethod depth c mainSig mainName = .ok (vm.world, p)) (hn : ¬ HasMain vm.world c) :
    ∃ h', vm.startOn natives code t depth c k args = .returns { vm with heap := h' } false ∧
      HeapReachable h' ∧ RestoredAll t vm.heap h' ∧ (∀ x ∈ vm.heap.classes, x ∈ h'.classes) ∧
      pendingOf t h' = pendingOf t vm.heap := by
  obtain ⟨n, hcl, _⟩ := hc
  obtain ⟨pm, ps, pn⟩ := main_proxy hr.1 hcl hg
  have h1 : p.member = none := by
    cases h : p.member with
    | none => rfl
    | some i => exact absurd (.inl (pm.1 (by simp [h]))) hn
  have h2 : p.static = none := by
    cases h : p.static with
    | none => rfl
    | some i => exact absurd (.inr (.inl (ps.1 (by simp [h])))) hn
  have h3 : p.native = none := by
    cases h : p.native with
    | none => rfl
    | some i => exact absurd (.inr (.inr (pn.1 (by simp [h])).1)) hn
  have hm : p.toMethod = .ok none := by simp [MethodProxy.toMethod, h1, h2, h3]
  obtain ⟨h', made, hx⟩ := enterFrame_ok hr.2 t
  obtain ⟨h2', hx2, hr2, hre, hcl⟩ := empty_scope hr.2 hx
  exact ⟨h2', by simp only [Vm.startOn, hx, Outcome.lift, hg, hm, Vm.leaving, hx2], hr2, hre, hcl⟩

/-- All classes without `main` at the front of the list are skipped. -/
theorem start_skip {natives : NativeCode} {code : Nat → Hook} {t depth : Nat} {args : List (BitVec 64)}
    {pre post : List (Nat × Nat)} {vm : Vm} (hr : VmReachable vm) (hcs : ∀ x ∈ pre, ClassEntry vm x)
    (hg : ∀ x ∈ pre, ∃ p, vm.world.getMethod depth x.1 mainSig mainName = .ok (vm.world, p))
    (hn : ∀ x ∈ pre, ¬ HasMain vm.world x.1) :
    ∃ h', Vm.start natives code t depth args vm (pre ++ post) =
        Vm.start natives code t depth args { vm with heap := h' } post ∧
      HeapReachable h' ∧ RestoredAll t vm.heap h' ∧ (∀ x ∈ vm.heap.classes, x ∈ h'.classes) ∧
      pendingOf t h' = pendingOf t vm.heap := by
  induction pre generalizing vm with
  | nil => exact ⟨vm.heap, rfl, hr.2, restoredAll_refl t _, fun _ h => h, rfl⟩
  | cons y pre ih =>
    obtain ⟨c, k⟩ := y
    obtain ⟨p, hp⟩ := hg _ List.mem_cons_self
    obtain ⟨h1, hx1, hr1, hre1, hcl1, hp1⟩ := startOn_skip (natives := natives) (code := code) (t := t)
      (args := args) hr (hcs _ List.mem_cons_self) hp (hn _ List.mem_cons_self)
    obtain ⟨h2, hx2, hr2, hre2, hcl2, hp2⟩ := ih (vm := { vm with heap := h1 }) ⟨hr.1, hr1⟩
      (fun x hx => by
        obtain ⟨n, hc, hk⟩ := hcs x (List.mem_cons_of_mem _ hx)
        exact ⟨n, hc, hcl1 _ hk⟩)
      (fun x hx => hg x (List.mem_cons_of_mem _ hx)) (fun x hx => hn x (List.mem_cons_of_mem _ hx))
    refine ⟨h2, ?_, hr2, restoredAll_trans hre1 hre2, fun x hx => hcl2 x (hcl1 x hx), hp2.trans hp1⟩
    rw [List.cons_append, Vm.start, hx1]
    simp only [Outcome.andThen, Bool.false_eq_true, if_false]
    exact hx2

/-- The end of the scope around `main`. -/
theorem finish_scope {h h1 h2 : Heap} (hr : HeapReachable h) {t : Nat} {made : Bool}
    (hx : h.enterFrame t true = .ok (h1, made)) (hr2 : HeapReachable h2) {e1 e2 : Env} {g : List Nat}
    {m : List (List Nat)} (he1 : h1.envs t = some e1) (he2 : h2.envs t = some e2) (hid : e2.eid = e1.eid)
    (hf : e2.frames = g :: m) (ht : Thinned m e1.frames.tail) :
    ∃ h3, h2.leaveFrame t made = .ok h3 ∧ HeapReachable h3 ∧ Restored t h h3 := by
  obtain ⟨hr1, hc⟩ := enterFrame_cases hr hx
  obtain ⟨h3, hx3, hr3, ha, hb⟩ := leave_ok hr2 he2 made
  refine ⟨h3, hx3, hr3, ?_⟩
  unfold Restored
  rcases hc with ⟨e, e1', he, rfl, he1', hid', hf'⟩ | ⟨he, rfl, _⟩
  · rw [he1] at he1'; injection he1' with he1'; subst he1'
    rw [he]
    obtain ⟨e3, he3, hid3, hf3⟩ := hb rfl
    rw [hf'] at ht
    simp only [List.tail_cons] at ht
    exact ⟨e3, he3, hid3.trans (hid.trans hid'), by
      rw [hf3, hf, dropFront_one (ht.ne (frames_nonempty hr he))]; exact ht⟩
  · rw [he]; exact ha rfl

/-- The state in which `main` is run. -/
theorem entered {vm : Vm} (hr : VmReachable vm) {t : Nat} {h1 : Heap} {made : Bool}
    (hx : vm.heap.enterFrame t true = .ok (h1, made)) {c k : Nat} (hc : ClassEntry vm (c, k)) :
    ∃ vm1 e1 e1', h1.envs t = some e1 ∧ vm1.heap.envs t = some e1' ∧ e1'.eid = e1.eid ∧
      e1'.frames = addFront [k] e1.frames ∧ e1'.pending = e1.pending ∧
      AfterRef t (.cls k) { vm with heap := h1 } vm1 ∧ VmReachable vm1 ∧ Entered t k vm vm1 ∧
      ∃ n o, vm1.world.IsClass n c ∧ vm1.heap.objs k = some o ∧ o.kind = .cls n := by
  obtain ⟨hr1, hcs⟩ := enterFrame_cases hr.2 hx
  have key : ∃ e1, h1.envs t = some e1 ∧
      e1.frames = [] :: (match vm.heap.envs t with | some e => e.frames | none => [[]]) := by
    rcases hcs with ⟨e, e1, he, _, he1, _, hf⟩ | ⟨he, _, e1, he1, hf⟩
    · exact ⟨e1, he1, by rw [he]; exact hf⟩
    · exact ⟨e1, he1, by rw [he]; exact hf⟩
  obtain ⟨e1, he1, hf1⟩ := key
  have hr' : VmReachable { vm with heap := h1 } := ⟨hr.1, hr1⟩
  obtain ⟨n, o, hcl, ho, hk⟩ := classEntry_object hr' (c := c) (k := k) (by
    obtain ⟨n, hcl, hk⟩ := hc
    exact ⟨n, hcl, enterFrame_pins hr.2 hx hk⟩)
  obtain ⟨vm1, ha, hrv, ⟨e1', he1', hpend⟩, keep⟩ := asRef_run hr' he1 (target := .cls k) ⟨o, ho, by simp [hk]⟩
  obtain ⟨o1, ho1, s1, _⟩ := keep k o ho (.inl rfl)
  have hk1 : o1.kind = .cls n := by
    rw [hk] at s1
    cases h3 : o1.kind <;> simp_all [Kind.Same]
  obtain ⟨e2, he2, hid, heff⟩ := effect_run hr1.inv.toPre he1 (afterRef_iff.1 ha).2 (by simp)
  rw [he1'] at he2; injection he2 with he2; subst he2
  have hfr : e1'.frames = addFront [k] e1.frames := heff
  refine ⟨vm1, e1, e1', he1, he1', hid, hfr, hpend, ha, hrv, ⟨ha.1, ?_, e1', he1', ?_⟩, n, o1, by rw [ha.1]; exact hcl, ho1, hk1⟩
  · rw [← (enterFrame_pending hr.2 hx).1]
    simp [pendingOf, he1, he1', hpend]
  · rw [hfr, hf1]; rfl

/-- Invoking a hooked static function on a class. -/
theorem invoke_static_eq {natives : NativeCode} {code : Nat → Hook} {vm vm1 : Vm} (hr : VmReachable vm)
    {t k c : Nat} (h1 : AfterRef t (.cls k) vm vm1) (hr1 : VmReachable vm1) {o1 : Obj} {nm : Str}
    (ho1 : vm1.heap.objs k = some o1) (hk1 : o1.kind = .cls nm) (hc : vm1.world.IsClass nm c)
    {p : MethodProxy} {id : Nat} (hp : p.static = some id) {m : MethodRec} (hn : Names vm.world id m)
    (hnat : m.native = none) {params : List Ty} {ret : Option Ty}
    (hs : m.signature = renderSig params ret) (hret : ')' ∉ renderRet ret) (args : List (BitVec 64)) :
    vm.invokeProxy natives code t p (.cls k) args =
      (vm1.withMethod (some id) fun mid => Vm.invoke code t (retJType ret) .static (.cls (some c)) args vm1 (some mid)).andThen
        fun vm v => vm.rethrow t ((retJType ret).toJValue v) := by
  have hcast : vm1.castClass (some k) = .ok (vm1, some c) :=
    castClass_ref hr1 ⟨k, o1, nm, .direct ho1 (by simp [hk1]), ho1, hk1, hc⟩
  have hpick : p.onClass = .ok id := ((proxy_picks p).1 id).2 (.inl hp)
  simp only [Vm.invokeProxy, hpick, Outcome.lift, invokeMethod_hooked hr h1 hn hnat hs hret, Recipient.form,
    Vm.callA, hcast]

/-- `start` on a list whose first class has a `main` that can be invoked. -/
theorem start_invoke {natives : NativeCode} {code : Nat → Hook} {t depth : Nat} {args : List (BitVec 64)}
    {vm : Vm} {c k : Nat} {post : List (Nat × Nat)} {h1 : Heap} {made : Bool}
    (hx : vm.heap.enterFrame t true = .ok (h1, made)) {p : MethodProxy}
    (hg : vm.world.getMethod depth c mainSig mainName = .ok (vm.world, p)) {id : Nat}
    (hm : p.toMethod = .ok (some id)) :
    Vm.start natives code t depth args vm ((c, k) :: post) =
      (Vm.leaving t made ((Vm.invokeProxy natives code t { vm with heap := h1 } p (.cls k) args).andThen
        fun vm _ => .returns vm true)).andThen fun vm found =>
          if found then .returns vm () else Vm.start natives code t depth args vm post := by
  rw [Vm.start, Vm.startOn]
  simp only [hx, Outcome.lift, hg, hm]

/-- Leaving the scope in which `main` ran. -/
theorem main_scope {h h1 : Heap} (hr : HeapReachable h) {t k : Nat} {made : Bool}
    (hx : h.enterFrame t true = .ok (h1, made)) {vm1 vm2 : Vm} {e1 e1' e2 : Env} (he1 : h1.envs t = some e1)
    (he1' : vm1.heap.envs t = some e1') (hid : e1'.eid = e1.eid) (hf : e1'.frames = addFront [k] e1.frames)
    (hr2 : HeapReachable vm2.heap) (he2 : vm2.heap.envs t = some e2) :
    ∃ h3, vm2.heap.leaveFrame t made = .ok h3 ∧
      (match h.envs t with
        | none => h3.envs t = none
        | some _ => ∃ e3, h3.envs t = some e3 ∧ e3.eid = e2.eid ∧
            e3.frames = if e2.frames.tail = [] then [[]] else e2.frames.tail) ∧
      (Tidy t vm1 vm2 → Restored t h h3) := by
  obtain ⟨hr1, hc⟩ := enterFrame_cases hr hx
  obtain ⟨h3, hx3, hr3, ha, hb⟩ := leave_ok hr2 he2 made
  refine ⟨h3, hx3, ?_, fun ht => ?_⟩
  · rcases hc with ⟨e, e1'', he, rfl, _⟩ | ⟨he, rfl, _⟩
    · rw [he]
      obtain ⟨e3, he3, hid3, hf3⟩ := hb rfl
      refine ⟨e3, he3, hid3, ?_⟩
      rw [hf3]
      obtain ⟨f, fs, hfs⟩ := List.exists_cons_of_ne_nil (frames_nonempty hr2 he2)
      rw [hfs]
      cases fs <;> simp [dropFront]
    · rw [he]; exact ha rfl
  · obtain ⟨e2', g, m, he2', hid2, hf2, hth⟩ := ht e1' he1'
    rw [he2] at he2'; cases he2'
    have hth' : Thinned m e1.frames.tail := by
      rw [hf] at hth
      cases hc : e1.frames with
      | nil => rw [hc] at hth; exact hth
      | cons f fs => rw [hc] at hth; exact hth
    obtain ⟨h3', hx3', _, hre⟩ := finish_scope hr hx hr2 he1 he2 (hid2.trans hid) hf2 hth'
    rw [hx3] at hx3'; cases hx3'
    exact hre

theorem unwound_of {t : Nat} {vm0 vm vm2 : Vm} {h3 : Heap} {e2 : Env} (hre : RestoredAll t vm0.heap vm.heap)
    (he2 : vm2.heap.envs t = some e2)
    (hu : match vm.heap.envs t with
        | none => h3.envs t = none
        | some _ => ∃ e3, h3.envs t = some e3 ∧ e3.eid = e2.eid ∧
            e3.frames = if e2.frames.tail = [] then [[]] else e2.frames.tail) :
    Unwound t vm0 vm2 { vm2 with heap := h3 } := by
  refine ⟨rfl, ?_⟩
  unfold RestoredAll at hre
  cases hv : vm0.heap.envs t with
  | none =>
    rw [hv] at hre
    simp only at hre
    rw [hre] at hu
    exact hu
  | some e =>
    rw [hv] at hre
    obtain ⟨e', he', _⟩ := hre
    rw [he'] at hu
    obtain ⟨e3, h1, h2, h3⟩ := hu
    exact ⟨e2, e3, he2, h1, h2, h3⟩

/-- The end of `start` after `main`. -/
theorem start_ends {natives : NativeCode} {code : Nat → Hook} {t depth : Nat} {args : List (BitVec 64)}
    {vm0 vm vm1 : Vm} (hre : RestoredAll t vm0.heap vm.heap) (hr : VmReachable vm)
    {c k : Nat} {post : List (Nat × Nat)} {h1 : Heap} {made : Bool}
    (hx : vm.heap.enterFrame t true = .ok (h1, made)) {p : MethodProxy}
    (hg : vm.world.getMethod depth c mainSig mainName = .ok (vm.world, p)) {id : Nat}
    (hm : p.toMethod = .ok (some id)) {e1 e1' : Env} (he1 : h1.envs t = some e1)
    (he1' : vm1.heap.envs t = some e1') (hid : e1'.eid = e1.eid) (hf : e1'.frames = addFront [k] e1.frames)
    {main inner : Outcome Vm (BitVec 64)} (hend : EndsIn VmReachable main)
    (hin : inner = Vm.catchAll t main ∨ inner = main)
    (hout : Vm.invokeProxy natives code t { vm with heap := h1 } p (.cls k) args =
      inner.andThen fun vm v => vm.rethrow t (JType.void.toJValue v)) :
    StartEnds t vm0 vm1 main (Vm.start natives code t depth args vm ((c, k) :: post)) := by
  rw [start_invoke hx hg hm, hout]
  have hrun : ∀ {vm2 v}, main = .returns vm2 v → inner = .returns vm2 v := by
    rintro vm2 v rfl
    rcases hin with rfl | rfl <;> rfl
  cases main with
  | ub u => rcases hin with rfl | rfl <;> rfl
  | aborts => rcases hin with rfl | rfl <;> rfl
  | diverges => rcases hin with rfl | rfl <;> rfl
  | returns vm2 v =>
    rw [hrun rfl]
    refine ⟨fun hgone => ?_, fun ⟨_, e2, _, he2, _⟩ => ?_⟩
    · simp only [Outcome.andThen, Vm.rethrow, hgone, Vm.leaving]
    obtain ⟨h3, hx3, hu, hre3⟩ := main_scope hr.2 hx he1 he1' hid hf hend.2 he2
    refine ⟨fun hp => ?_, fun e hp => ?_⟩
    · obtain ⟨e2', he2', hp⟩ := hp
      simp only at hp
      refine ⟨{ vm2 with heap := h3 }, ?_, unwound_of hre he2 hu, fun ht => restored_trans hre (hre3 ht)⟩
      simp only [Outcome.andThen, Vm.rethrow, he2', hp, Vm.leaving, hx3, if_true]
    · obtain ⟨e2', he2', i, ⟨kd, cl⟩, hp, hi, hk⟩ := hp
      simp only at hk
      subst hk
      refine ⟨{ vm2 with heap := h3 }, ?_, unwound_of hre he2 hu, fun ht => restored_trans hre (hre3 ht)⟩
      simp only [Outcome.andThen, Vm.rethrow, he2', hp, hi, Vm.leaving, hx3]
  | raises vm2 e =>
    refine ⟨fun hgone => ?_, fun ⟨_, e2, _, he2, _⟩ => ?_⟩
    · rcases hin with rfl | rfl
      · have hu : (HeapOp.raise e).run vm2.heap t = .ub .dangling := by
          simp only [HeapOp.run, HeapOp.exec, hgone]
          rfl
        simp only [Vm.catchAll, hu, Outcome.lift, Outcome.andThen, Vm.leaving]
      · have hu : vm2.heap.leaveFrame t made = .ub .dangling := by
          simp only [Heap.leaveFrame, HeapOp.run, HeapOp.exec, hgone]
          rfl
        simp only [Outcome.andThen, Vm.leaving, hu]
    rcases hin with rfl | rfl
    · obtain ⟨h', ⟨kd, cl⟩, hxr, he', ho, hk, _⟩ := raise_run hend.2 he2 e
      simp only at hk
      subst hk
      obtain ⟨h3, hx3, hu, hre3⟩ := main_scope hr.2 hx he1 he1' hid hf
        (vm2 := { vm2 with heap := h' }) (hend.2.step hxr) he'
      refine ⟨{ vm2 with heap := h3 }, ?_, unwound_of hre he2 hu, fun ht => restored_trans hre (hre3 ?_)⟩
      · simp only [Vm.catchAll, hxr, Outcome.lift, Outcome.andThen, Vm.rethrow, he', ho, Vm.leaving, hx3]
      · intro e0 he0
        obtain ⟨e2', g, m, he2', hid2, hf2, hth⟩ := ht e0 he0
        rw [he2] at he2'; cases he2'
        exact ⟨_, g, m, he', hid2, hf2, hth⟩
    · obtain ⟨h3, hx3, hu, hre3⟩ := main_scope hr.2 hx he1 he1' hid hf hend.2 he2
      refine ⟨{ vm2 with heap := h3 }, ?_, unwound_of hre he2 hu, fun ht => restored_trans hre (hre3 ht)⟩
      simp only [Outcome.andThen, Vm.leaving, hx3]

theorem entered_of {t k : Nat} {vm vm1 : Vm} {h : Heap} (hre : RestoredAll t vm.heap h)
    (hp : pendingOf t h = pendingOf t vm.heap) (he : Entered t k { vm with heap := h } vm1) : Entered t k vm vm1 := by
  obtain ⟨hw, hp1, e1, he1, hf⟩ := he
  refine ⟨hw, hp1.trans hp, e1, he1, hf.trans ?_⟩
  unfold RestoredAll at hre
  cases hv : vm.heap.envs t with
  | none => rw [hv] at hre; simp only at hre; rw [hre]
  | some e =>
    rw [hv] at hre
    obtain ⟨e', he', _, hfr⟩ := hre
    simp only [he', hfr]

theorem updateFirst_last {α : Type} {p : α → Bool} {f : α → α} {l : List α} (h : l.find? p = none) {x : α}
    (hx : p x = true) : updateFirst p f (l ++ [x]) = l ++ [f x] := by
  induction l with
  | nil => simp [updateFirst, hx]
  | cons a l ih =>
    cases ha : p a with
    | true => rw [List.find?_cons_of_pos ha] at h; exact nomatch h
    | false =>
      rw [List.find?_cons_of_neg (by simp [ha])] at h
      simp [updateFirst, ha, ih h]

/-- Hooking a method twice is hooking it with the last function. -/
theorem hookMethod_twice (w : World) (c : Nat) (st : Bool) (n s : Str) (f g : Nat) :
    (w.hookMethod c st n s f).hookMethod c st n s g = w.hookMethod c st n s g := by
  have twice : ∀ (w : World) (a b : Members), (w.setMem c a).setMem c b = w.setMem c b := by
    intro w a b
    unfold World.setMem
    congr 1
    funext d
    by_cases h : d = c <;> simp [h]
  cases hf : (w.mem c).methods.find? (hookHits st n s) with
  | some m =>
    have h2 : ∃ m', ((w.hookMethod c st n s f).mem c).methods.find? (hookHits st n s) = some m' := by
      rw [hookMethod_found hf, setMem_mem, if_pos rfl]
      generalize (w.mem c).methods = l at hf
      induction l with
      | nil => exact nomatch hf
      | cons a l ih =>
        cases ha : hookHits st n s a with
        | true => exact ⟨_, by simp only [updateFirst, ha, if_true]; exact List.find?_cons_of_pos ha⟩
        | false =>
          rw [List.find?_cons_of_neg (by simp [ha])] at hf
          obtain ⟨m', h⟩ := ih hf
          refine ⟨m', ?_⟩
          simp only [updateFirst, ha, Bool.false_eq_true, if_false] at h ⊢
          rw [List.find?_cons_of_neg (by simp [ha])]; exact h
    obtain ⟨m', h2⟩ := h2
    rw [hookMethod_found h2, hookMethod_found hf, hookMethod_found hf, twice, setMem_mem, if_pos rfl]
    simp only
    refine congrArg (fun x => w.setMem c { w.mem c with methods := x }) (updateFirst_twice ?_ ?_ _) <;> exact fun _ => rfl
  | none =>
    have h3 : hookHits st n s ⟨w.next, n, s, st, none, some f⟩ = true := hookHits_iff.2 ⟨rfl, rfl, rfl⟩
    have h2 : ((w.hookMethod c st n s f).mem c).methods.find? (hookHits st n s) =
        some ⟨w.next, n, s, st, none, some f⟩ := by
      rw [hookMethod_new hf]
      simp [List.find?_append, hf, h3]
    rw [hookMethod_found h2, hookMethod_new hf, hookMethod_new hf]
    have e : ({ w.setMem c { w.mem c with methods := (w.mem c).methods ++ [⟨w.next, n, s, st, none, some f⟩] } with
      next := w.next + 1 } : World).mem c =
        { w.mem c with methods := (w.mem c).methods ++ [⟨w.next, n, s, st, none, some f⟩] } := by simp
    rw [e]
    simp only
    rw [updateFirst_last hf h3]
    unfold World.setMem
    congr 1
    funext d
    by_cases h : d = c <;> simp [h]

end Jnivm
