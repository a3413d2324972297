import Verif.Spec.CatchProgram
import Verif.Props.ConstructProgram
import Verif.Props.Threads
import Verif.Props.VirtualProgram
import Verif.Props.FieldProgram
/-! C89: clients that check for exceptions. -/
namespace Jnivm
open Spec

/-- A call of the heap on an attached thread. -/
theorem heap_call_step {vm : Vm} (hr : JniReachable vm) {u : Nat} {e : Env} (he : vm.heap.envs u = some e) {op : HeapOp}
    {h' : Heap} {out : Out} (hx : op.run vm.heap u = .ok (h', out)) :
    ∃ vm', (JniOp.heap op).run vm u = .ok (vm', .out out) ∧ vm'.heap = h' ∧ JniReachable vm' := by
  have hrun : (JniOp.heap op).run vm u = .ok (Vm.sync { vm with heap := h' }, .out out) := by
    rw [run_attached he]
    simp only [JniOp.body, Vm.heapCall, hx, Res.bind_ok]
  exact ⟨_, hrun, rfl, (ByCallsOf.refl u (fun _ => True) vm |>.call trivial hrun).reachable hr⟩

/-- What the calls around exceptions leave of the environment of the thread. -/
theorem heap_effect {h h' : Heap} (hr : HeapReachable h) {u : Nat} {e : Env} (he : h.envs u = some e) {op : HeapOp}
    {out : Out} (hx : op.run h u = .ok (h', out)) (hop : op ≠ .detach) :
    ∃ e', h'.envs u = some e' ∧ Heap.FrameEffect h e e'.frames out op ∧
      ∃ h1, Heap.PendingEffect h h1 e e'.pending op := by
  obtain ⟨h1, hx1, rfl⟩ := Heap.run_ok hx
  obtain ⟨⟨e', k1, -, k2, k3⟩, -⟩ := Heap.effect_exec hr.inv.toPre he hx1 hop
  exact ⟨e', by rw [Heap.collect_envs]; exact k1, k2, h1, k3⟩

/-- A throwable stays one while something holds it. -/
theorem throwable_kept {h h' : Heap} (hr : HeapReachable h) {u x : Nat} {op : HeapOp} {out : Out}
    (hx : op.run h u = .ok (h', out)) {o o' : Obj} (ho : h.objs x = some o) (ho' : h'.objs x = some o') {p : Option Exn}
    (hk : o.kind = .throwable p) : o'.kind = .throwable p := by
  obtain ⟨o2, ho2, hs, -⟩ := (runStep hr.inv.toPre hx).old x o' (hr.inv.toPre.bound _ _ ho) ho'
  rw [ho] at ho2
  cases ho2
  rw [hk] at hs
  cases hk' : o'.kind <;> rw [hk'] at hs <;> simp_all [Kind.Same]

/-- C89: the check.  If no exception is pending the client goes on, after `ExceptionCheck`; if one is, the handler gets it,
after the three calls, and it is no longer pending. -/
theorem check_catches (d2f : BitVec 64 → BitVec 32) (code : Code) {vm : Vm} (hr : JniReachable vm) {u : Nat} {e : Env}
    (he : vm.heap.envs u = some e) (handler : Option Nat → Script) (k : Script) :
    (e.pending = none → ∃ vm', (JniOp.heap .exceptionCheck).run vm u = .ok (vm', .out (.bool false)) ∧
      (orCatch handler k).run d2f code u vm = k.run d2f code u vm') ∧
    ∀ x o p, e.pending = some x → vm.heap.objs x = some o → o.kind = .throwable p → ∃ vm', Caught u vm vm' x p ∧
      (orCatch handler k).run d2f code u vm = (handler (some x)).run d2f code u vm' := by
  have hh := hr.jniInv.heap
  obtain ⟨⟨h1, hc⟩, -⟩ := reports_pending hh he
  obtain ⟨vm1, hrun1, hvm1, hr1⟩ := heap_call_step hr he hc
  constructor
  · intro hn
    rw [hn] at hrun1
    exact ⟨vm1, hrun1, by simp only [orCatch, Script.run, hrun1, Outcome.lift, Option.isSome_none]⟩
  · intro x o p hx ho hk
    obtain ⟨e1, he1, _, _, hp1⟩ := heap_effect hh he hc (by simp)
    have hp1 : e1.pending = e.pending := hp1
    rw [← hvm1] at he1
    have hh1 := hr1.jniInv.heap
    obtain ⟨o1, ho1⟩ := hh1.inv.toPre.rootsEnv he1 (.inr (hp1.trans hx))
    have hk1 := throwable_kept hh hc ho (by rw [← hvm1]; exact ho1) hk
    obtain ⟨-, h2, hoc⟩ := reports_pending hh1 he1
    rw [hp1, hx] at hoc
    obtain ⟨vm2, hrun2, hvm2, hr2⟩ := heap_call_step hr1 he1 hoc
    obtain ⟨e2, he2, hf2, _⟩ := heap_effect hh1 he1 hoc (by simp)
    have hf2 : e2.frames = Heap.addFront [x] e1.frames := hf2
    rw [← hvm2] at he2
    have hh2 := hr2.jniInv.heap
    have hin : ∃ f ∈ e2.frames, x ∈ f := by
      rw [hf2]
      cases hfr : e1.frames with
      | nil => exact absurd hfr (hh1.inv.toPre.frames _ _ he1)
      | cons f fs => exact ⟨f ++ [x], by simp [Heap.addFront], by simp⟩
    obtain ⟨o2, ho2⟩ := hh2.inv.toPre.rootsEnv he2 (.inl hin)
    have hk2 := throwable_kept hh1 hoc ho1 (by rw [← hvm2]; exact ho2) hk1
    obtain ⟨h3, hcl⟩ : ∃ h3, HeapOp.exceptionClear.run vm2.heap u = .ok (h3, .unit) := by
      refine ⟨(vm2.heap.setEnv u { e2 with pending := none }).collect, ?_⟩
      rw [HeapOp.run, Heap.exec_of_body he2, HeapOp.body, Heap.exceptionClear, Heap.env_ok.2 he2]
      rfl
    obtain ⟨vm3, hrun3, hvm3, hr3⟩ := heap_call_step hr2 he2 hcl
    obtain ⟨e3, he3, hf3, _, hp3⟩ := heap_effect hh2 he2 hcl (by simp)
    have hp3 : e3.pending = none := hp3
    have hf3 : e3.frames = Heap.addFront [] e2.frames := hf3
    rw [← hvm3] at he3
    have hh3 := hr3.jniInv.heap
    have hin3 : ∃ f ∈ e3.frames, x ∈ f := by
      rw [hf3]
      obtain ⟨f, hf, hxf⟩ := hin
      cases hfr : e2.frames with
      | nil => rw [hfr] at hf; cases hf
      | cons g fs =>
        rw [hfr] at hf
        rcases List.mem_cons.1 hf with rfl | hf
        · exact ⟨f ++ [], by simp [Heap.addFront], by simpa using hxf⟩
        · exact ⟨f, by simp [Heap.addFront, hf], hxf⟩
    obtain ⟨o3, ho3⟩ := hh3.inv.toPre.rootsEnv he3 (.inl hin3)
    have hk3 := throwable_kept hh2 hcl ho2 (by rw [← hvm3]; exact ho3) hk2
    rw [hx] at hrun1
    refine ⟨vm3, ⟨⟨[.out (.bool true), .out (.ref (some x)), .out .unit], ?_⟩, ?_, ⟨e3, he3, hin3⟩, o3, ho3, hk3⟩, ?_⟩
    · simp only [runJni, hrun1, hrun2, hrun3, Res.bind_ok, Option.isSome_some]
    · rw [← hp3]
      exact reports_pending hh3 he3
    · simp only [orCatch, Script.run, hrun1, hrun2, hrun3, Outcome.lift, Option.isSome_some]

/-- C89: catching what a function throws.  A client calls a method in any form, whose function is known, and checks.  If
the function returns and leaves no exception pending, the client goes on with its result.  If it throws, the handler gets
a throwable that carries what was thrown.  If it returns but leaves an exception pending, the handler gets that one. -/
theorem call_catches (d2f : BitVec 64 → BitVec 32) (fs : Natives) {vm : Vm} (hr : JniReachable vm) {u : Nat} {env : Env}
    (he : vm.heap.envs u = some env) {depth : Nat} {ty : JType} {form : Form} {id : Option Nat} {args : List (BitVec 64)}
    {body : Outcome Vm (BitVec 64)} (hs : Handled u body (vm.callA (fs.code d2f u depth).hooks u ty form id args))
    (handler : Option Nat → Script) (k : BitVec 64 → Script) :
    let run (s : Script) (v : Vm) := s.run d2f (fs.code d2f u depth) u v
    let prog := Script.callA ty form id args fun v => orCatch handler (k v)
    (∀ vm' v, body = .returns vm' v → Reports vm'.heap u none → ∃ vm'',
      (JniOp.heap .exceptionCheck).run vm' u = .ok (vm'', .out (.bool false)) ∧ run prog vm = run (k v) vm'') ∧
    (∀ vm' e, body = .raises vm' e → (vm'.heap.envs u).isSome → ∃ vm4 vm'' x, vm4.world = vm'.world ∧
      Caught u vm4 vm'' x (some e) ∧ run prog vm = run (handler (some x)) vm'') ∧
    ∀ vm' v x, body = .returns vm' v → Reports vm'.heap u (some x) → ∃ vm'' p, Carries vm'.heap x p ∧
      Caught u vm' vm'' x p ∧ run prog vm = run (handler (some x)) vm'' := by
  have hreach := nested_reachable d2f fs hr u depth (.callA ty form id args .ret)
  have back : ∀ {vm' v}, body = .returns vm' v → ∀ {x}, Reports vm'.heap u x →
      JniReachable vm' ∧ ∃ e', vm'.heap.envs u = some e' ∧ e'.pending = x := by
    intro vm' v hb x hx
    rw [(callA_step he hs .ret).1 vm' v hb] at hreach
    have hr' : JniReachable vm' := hreach
    obtain ⟨h1, hc⟩ := hx.1
    obtain ⟨h2, hx2, -⟩ := Heap.run_ok hc
    obtain ⟨e', he'⟩ := (Heap.exec_ok hx2).2 rfl
    exact ⟨hr', e', he', reports_fun (reports_pending hr'.jniInv.heap he') hx⟩
  obtain ⟨p1, p2⟩ := callA_step (d2f := d2f) he hs fun v => orCatch handler (k v)
  refine ⟨fun vm' v hb hn => ?_, fun vm' e hb hat => ?_, fun vm' v x hb hx => ?_⟩
  · obtain ⟨hr', e', he', hp⟩ := back hb hn
    obtain ⟨vm'', h1, h2⟩ := (check_catches d2f (fs.code d2f u depth) hr' he' handler (k v)).1 hp
    exact ⟨vm'', h1, (p1 vm' v hb).trans h2⟩
  · obtain ⟨vm4, x, o, env', hc, hw, he4, hp4, ho4, hk4⟩ : ∃ vm4 x o env',
        vm.callA (fs.code d2f u depth).hooks u ty form id args = .returns vm4 0 ∧ vm4.world = vm'.world ∧
        vm4.heap.envs u = some env' ∧ env'.pending = some x ∧ vm4.heap.objs x = some o ∧
        o.kind = .throwable (some e) := by
      rw [hb] at hs
      generalize vm.callA (fs.code d2f u depth).hooks u ty form id args = o at hs
      cases hs with
      | @raises _ v4 _ x env0 ox h1 h2 h3 h4 h5 h6 h7 => exact ⟨v4, x, ox, _, rfl, h1, h3, rfl, h5, h6⟩
      | detached h => rw [h] at hat; cases hat
    have hrun : ∀ k : BitVec 64 → Script, (Script.callA ty form id args k).run d2f (fs.code d2f u depth) u vm =
        (k 0).run d2f (fs.code d2f u depth) u vm4 := by
      intro k
      simp only [Script.run, Vm.attached, he, Option.isNone_some, Bool.false_eq_true, if_false, hc]
      rfl
    rw [hrun] at hreach
    have hr4 : JniReachable vm4 := hreach
    obtain ⟨vm'', h1, h2⟩ := (check_catches d2f (fs.code d2f u depth) hr4 he4 handler (k 0)).2 x o (some e) hp4 ho4 hk4
    exact ⟨vm4, vm'', x, hw, h1, (hrun _).trans h2⟩
  · obtain ⟨hr', e', he', hp⟩ := back hb hx
    obtain ⟨o, p, ho, hk⟩ := pending_live hr'.jniInv.heap he' hp
    obtain ⟨vm'', h1, h2⟩ := (check_catches d2f (fs.code d2f u depth) hr' he' handler (k v)).2 x o p hp ho hk
    exact ⟨vm'', p, ⟨o, ho, hk⟩, h1, (p1 vm' v hb).trans h2⟩

/-- C89: hook, find, call, check.  C++ code hooked a static function of a class, and any calls followed that do not hook it
again.  A client finds the class and the method by name, calls it and checks: it goes on with the result of the function,
or catches what the function threw. -/
theorem catch_program (d2f : BitVec 64 → BitVec 32) (fs : Natives) {vm vm1 vm2 : Vm} (hr : JniReachable vm) {t : Nat}
    {n name sig : Str} {f : Nat} {a : JniAnswer}
    (hh : (JniOp.cpp (.hookMethod n true name sig f)).run vm t = .ok (vm1, a))
    {ops : List (Nat × JniOp)} {as : List JniAnswer} (hops : runJni vm1 ops = .ok (vm2, as))
    (hno : ∀ u g, (u, .cpp (.hookMethod n true name sig g)) ∉ ops) (hk : fs.kind f = .static)
    {u : Nat} {env : Env} (he : vm2.heap.envs u = some env) (args : List (BitVec 64))
    (handler : Option Nat → Script) (k : BitVec 64 → Script) (depth d : Nat) :
    ∃ vm3 c, JniReachable vm3 ∧ vm3.world.IsClass n c ∧
      let prog := withClass n fun cl => withMethodID (d + 1) true cl name sig fun id =>
        .callA (fs.type f) (.static cl) id args fun v => orCatch handler (k v)
      let run (s : Script) (v : Vm) := s.run d2f (fs.code d2f u (depth + 1)) u v
      let body := (fs.hooked f (.cls (some c)) args).run d2f (fs.code d2f u depth) u vm3
      (∀ vm' v, body = .returns vm' v → Reports vm'.heap u none → ∃ vm'',
        (JniOp.heap .exceptionCheck).run vm' u = .ok (vm'', .out (.bool false)) ∧ run prog vm2 = run (k v) vm'') ∧
      (∀ vm' e, body = .raises vm' e → (vm'.heap.envs u).isSome → ∃ vm4 vm'' x, vm4.world = vm'.world ∧
        Caught u vm4 vm'' x (some e) ∧ run prog vm2 = run (handler (some x)) vm'') ∧
      ∀ vm' v x, body = .returns vm' v → Reports vm'.heap u (some x) → ∃ vm'' p, Carries vm'.heap x p ∧
        Caught u vm' vm'' x p ∧ run prog vm2 = run (handler (some x)) vm'' := by
  obtain ⟨vm3, cl, c, m, e3, hx, hr3, he3, hc, hcl, hm, hf, hlook⟩ :=
    method_found hr hh (fun _ => rfl) (fun _ _ => .inl rfl) hops hno he
  have hmeth := methodID_step hr3 he3 hcl (hlook d false)
  have hn : Names vm3.world m.id m := ⟨n, c, hc, hm.1, rfl⟩
  have hs := static_call (functions_well_behaved d2f fs u (depth + 1)).1 hr3.jniInv.vm (t := u) (.inr ⟨c, hcl, rfl⟩) hn hf
    (ty := fs.type f) rfl hk args
  have hstart : ∀ code : Code, (withClass n fun cl => withMethodID (d + 1) true cl name sig fun id =>
        Script.callA (fs.type f) (.static cl) id args fun v => orCatch handler (k v)).run d2f code u vm2 =
      (Script.callA (fs.type f) (.static (some cl)) (some m.id) args fun v => orCatch handler (k v)).run d2f code u
        vm3 := by
    intro code
    simp only [withClass, Script.run, hx, Outcome.lift, withMethodID, hmeth]
  obtain ⟨p1, p2, p3⟩ := call_catches d2f fs hr3 he3 hs handler k
  refine ⟨vm3, c, hr3, hc, fun vm' v hb hn => ?_, fun vm' e hb hat => ?_, fun vm' v x hb hx => ?_⟩
  · obtain ⟨vm'', h1, h2⟩ := p1 vm' v hb hn
    exact ⟨vm'', h1, (hstart _).trans h2⟩
  · obtain ⟨vm4, vm'', x, hw, h1, h2⟩ := p2 vm' e hb hat
    exact ⟨vm4, vm'', x, hw, h1, (hstart _).trans h2⟩
  · obtain ⟨vm'', p, h0, h1, h2⟩ := p3 vm' v x hb hx
    exact ⟨vm'', p, h0, h1, (hstart _).trans h2⟩

/-- C89: the same for an instance method of an object of the class that was hooked.  Not covered: a native method of that
name and signature was registered before (`hook_after_native_ineffective`). -/
theorem catch_virtual_program_partial (d2f : BitVec 64 → BitVec 32) (fs : Natives) {vm vm1 vm2 : Vm} (hr : JniReachable vm)
    {t : Nat} {n name sig : Str} {f : Nat} {a : JniAnswer}
    (hh : (JniOp.cpp (.hookMethod n false name sig f)).run vm t = .ok (vm1, a)) (hinit : name ≠ "<init>".toList)
    (hfree : ∀ c, vm1.world.IsClass n c → HookFree vm.world c false name sig)
    {ops : List (Nat × JniOp)} {as : List JniAnswer} (hops : runJni vm1 ops = .ok (vm2, as))
    (hno : ∀ u g, (u, .cpp (.hookMethod n false name sig g)) ∉ ops) (hk : fs.kind f ≠ .static)
    {u : Nat} {env : Env} (he : vm2.heap.envs u = some env) {obj : Option Nat} {c : Nat} (hc : vm2.world.IsClass n c)
    (hobj : ClassIs vm2 obj c) (args : List (BitVec 64)) (handler : Option Nat → Script) (k : BitVec 64 → Script)
    (depth d : Nat) :
    ∃ vm3, JniReachable vm3 ∧ vm3.world = vm2.world ∧ ClassIs vm3 obj c ∧
      let prog := withObjectClass obj fun cl => withMethodID (d + 1) false cl name sig fun id =>
        .callA (fs.type f) (.virtual obj) id args fun v => orCatch handler (k v)
      let run (s : Script) (v : Vm) := s.run d2f (fs.code d2f u (depth + 1)) u v
      let body := (fs.hooked f (.obj obj) args).run d2f (fs.code d2f u depth) u vm3
      (∀ vm' v, body = .returns vm' v → Reports vm'.heap u none → ∃ vm'',
        (JniOp.heap .exceptionCheck).run vm' u = .ok (vm'', .out (.bool false)) ∧ run prog vm2 = run (k v) vm'') ∧
      (∀ vm' e, body = .raises vm' e → (vm'.heap.envs u).isSome → ∃ vm4 vm'' x, vm4.world = vm'.world ∧
        Caught u vm4 vm'' x (some e) ∧ run prog vm2 = run (handler (some x)) vm'') ∧
      ∀ vm' v x, body = .returns vm' v → Reports vm'.heap u (some x) → ∃ vm'' p, Carries vm'.heap x p ∧
        Caught u vm' vm'' x p ∧ run prog vm2 = run (handler (some x)) vm'' := by
  have hr1 : JniReachable vm1 := (ByCallsOf.refl t (fun _ => True) vm |>.call trivial hh).reachable hr
  have hr2 : JniReachable vm2 := runJni_reachable hr1 hops
  obtain ⟨c', m, hc', hm, hf, hlook⟩ := hook_program_partial hr hh (fun h => absurd h hinit) hfree hops hno
  have : some c = some c' := hc.symm.trans hc'
  cases this
  obtain ⟨va, r, ea, hx, hra, hea, hafter, hcl, hobja⟩ := objectClass_step hr2 he hobj
  obtain ⟨vb, -, -, -, hrb, -, hafterb, -, hobjb⟩ := objectClass_step hra hea hobja
  rw [← hafter.1] at hlook hc hm
  have hmeth := methodID_step hra hea hcl (hlook d false)
  have hn : Names va.world m.id m := ⟨n, c, hc, hm.1, rfl⟩
  have hstart : ∀ code : Code, (withObjectClass obj fun cl => withMethodID (d + 1) false cl name sig fun id =>
        Script.callA (fs.type f) (.virtual obj) id args fun v => orCatch handler (k v)).run d2f code u vm2 =
      (Script.callA (fs.type f) (.virtual obj) (some m.id) args fun v => orCatch handler (k v)).run d2f code u va := by
    intro code
    simp only [withObjectClass, Script.run, hx, Outcome.lift, withMethodID, hmeth]
  obtain ⟨v1, h1, hall⟩ := virtual_call_exact (functions_well_behaved d2f fs u (depth + 1)).1 hra.jniInv.vm hea hobja hn hf
    (fs.type f) args
  cases AfterGetClass.unique hafterb h1
  have hs := hall f (.inl ⟨m, hm.1, hm.2.1, rfl, rfl, hf⟩) rfl hk
  obtain ⟨p1, p2, p3⟩ := call_catches d2f fs hra hea hs handler k
  refine ⟨vb, hrb, hafterb.1.trans hafter.1, hobjb, fun vm' v hb hn => ?_, fun vm' e hb hat => ?_, fun vm' v x hb hx => ?_⟩
  · obtain ⟨vm'', h1, h2⟩ := p1 vm' v hb hn
    exact ⟨vm'', h1, (hstart _).trans h2⟩
  · obtain ⟨vm4, vm'', x, hw, h1, h2⟩ := p2 vm' e hb hat
    exact ⟨vm4, vm'', x, hw, h1, (hstart _).trans h2⟩
  · obtain ⟨vm'', p, h0, h1, h2⟩ := p3 vm' v x hb hx
    exact ⟨vm'', p, h0, h1, (hstart _).trans h2⟩

/-- A call that ends in an exception returns and leaves it pending. -/
theorem endsWith_leaves {d2f : BitVec 64 → BitVec 32} {fs : Natives} {u : Nat} {e : Exn} {depth : Nat} {vm : Vm} {ty : JType}
    {form : Form} {id : Option Nat} {args : List (BitVec 64)} (h : EndsWith d2f fs u e depth vm ty form id args) :
    ∃ vm4 v x o env, vm.callA (fs.code d2f u depth).hooks u ty form id args = .returns vm4 v ∧
      vm4.heap.envs u = some env ∧ env.pending = some x ∧ vm4.heap.objs x = some o ∧ o.kind = .throwable (some e) := by
  induction h with
  | direct hs hat =>
    generalize Vm.callA _ _ _ _ _ _ _ = o at hs
    cases hs with
    | @raises _ v4 _ x env0 ox h1 h2 h3 h4 h5 h6 h7 => exact ⟨v4, 0, x, ox, _, rfl, h3, rfl, h5, h6⟩
    | detached h => rw [h] at hat; cases hat
  | through g hs hr2 hat h ih =>
    obtain ⟨vm4, v, x, o, env, hc, he, hp, ho, hk⟩ := ih
    obtain ⟨env2, he2⟩ := Option.isSome_iff_exists.1 hat
    simp only [Script.run, Vm.attached, he2, Option.isNone_some, Bool.false_eq_true, if_false, hc, Outcome.andThen] at hs
    generalize Vm.callA _ _ _ _ _ _ _ = o at hs
    cases hs
    exact ⟨vm4, g v, x, o, env, rfl, he, hp, ho, hk⟩

/-- C89: exceptions pass through functions that do not look at them, at any depth.  A client that checks after a call
catches what any function below threw, if the functions between only returned. -/
theorem passed_caught (d2f : BitVec 64 → BitVec 32) (fs : Natives) {vm : Vm} (hr : JniReachable vm) {u : Nat} {env : Env}
    (he : vm.heap.envs u = some env) {e : Exn} {depth : Nat} {ty : JType} {form : Form} {id : Option Nat}
    {args : List (BitVec 64)} (h : EndsWith d2f fs u e depth vm ty form id args) (handler : Option Nat → Script)
    (k : BitVec 64 → Script) :
    ∃ vm4 vm'' x, Caught u vm4 vm'' x (some e) ∧
      (Script.callA ty form id args fun v => orCatch handler (k v)).run d2f (fs.code d2f u depth) u vm =
        (handler (some x)).run d2f (fs.code d2f u depth) u vm'' := by
  obtain ⟨vm4, v, x, o, env4, hc, he4, hp4, ho4, hk4⟩ := endsWith_leaves h
  have hrun : ∀ k : BitVec 64 → Script, (Script.callA ty form id args k).run d2f (fs.code d2f u depth) u vm =
      (k v).run d2f (fs.code d2f u depth) u vm4 := by
    intro k
    simp only [Script.run, Vm.attached, he, Option.isNone_some, Bool.false_eq_true, if_false, hc]
    rfl
  have hreach := nested_reachable d2f fs hr u depth (.callA ty form id args .ret)
  rw [hrun] at hreach
  have hr4 : JniReachable vm4 := hreach
  obtain ⟨vm'', h1, h2⟩ := (check_catches d2f (fs.code d2f u depth) hr4 he4 handler (k v)).2 x o (some e) hp4 ho4 hk4
  exact ⟨vm4, vm'', x, h1, (hrun _).trans h2⟩

/-- C89: throwing it again.  A client that has caught an exception and passes it to `Throw` has it pending again: the same
object, which carries the same. -/
theorem caught_rethrown {u : Nat} {vm vm' : Vm} (hr : JniReachable vm) {x : Nat} {p : Option Exn} (hc : Caught u vm vm' x p) :
    ∃ vm'', (JniOp.heap (.throw (some x))).run vm' u = .ok (vm'', .out .unit) ∧ Reports vm''.heap u (some x) ∧
      Carries vm''.heap x p := by
  obtain ⟨as, hrun⟩ := hc.calls
  have hr' : JniReachable vm' := runJni_reachable hr hrun
  have hh := hr'.jniInv.heap
  obtain ⟨env, he, -⟩ := hc.held
  obtain ⟨o, ho, hk⟩ := hc.kind
  have hd : vm'.heap.denote (some x) = .ok (some x) := by
    simp only [Heap.denote, Heap.unwrap, ho, hk]
  have hcast : vm'.heap.cast (fun k => match k with | .throwable _ => true | _ => false) (some x) = .ok (some x) := by
    simp only [Heap.cast, hd, Res.bind_ok, ho, hk, if_true]
  have hx : (HeapOp.throw (some x)).run vm'.heap u =
      .ok ((vm'.heap.setEnv u { env with pending := some x }).collect, .unit) := by
    rw [HeapOp.run, Heap.exec_of_body he, HeapOp.body, Heap.throw, Heap.env_ok.2 he]
    simp only [Heap.cast, hd, Res.bind_ok, ho, hk, if_true, outUnit]
  obtain ⟨vm3, hrun3, hvm3, hr3⟩ := heap_call_step hr' he hx
  obtain ⟨e3, he3, _, _, hp3⟩ := heap_effect hh he hx (by simp)
  rw [← hvm3] at he3
  have hp3 : e3.pending = some x := by
    have : vm'.heap.cast (fun k => match k with | .throwable _ => true | _ => false) (some x) = .ok e3.pending := hp3
    rw [hcast] at this
    exact (Res.ok.inj this).symm
  obtain ⟨o3, p3, ho3, -⟩ := pending_live hr3.jniInv.heap he3 hp3
  refine ⟨vm3, hrun3, ?_, o3, ho3, throwable_kept hh hx ho (by rw [← hvm3]; exact ho3) hk⟩
  rw [← hp3]
  exact reports_pending hr3.jniInv.heap he3

/-- "m" of class "A" is hooked, and a thread attached. -/
def sampleCatchOps : List (Nat × JniOp) :=
  [(0, .cpp (.hookMethod "A".toList true "m".toList "(I)I".toList 3)), (1, .heap .attach)]

/-- "m" returns its argument if it is not zero, and throws otherwise. -/
def sampleCatchNatives : Natives where
  kind := fun _ => .static
  type := fun _ => .int
  hooked := fun _ _ args => if args = [0] then .raise .badCast else .ret (args.headD 0)
  registered := fun _ _ _ _ => .ret 0

/-- The client: 77 if the call threw, and one more than the result otherwise. -/
def sampleCatchClient (v : BitVec 64) : Script :=
  withClass "A".toList fun cl => withMethodID 1 true cl "m".toList "(I)I".toList fun id =>
    .callA .int (.static cl) id [v] fun r => orCatch (fun x => .ret (if x.isSome then 77 else 78)) (.ret (r + 1))

/-- Sample for `catch_program`: its hypotheses. -/
example : ∃ vm1 vm2 ops a as env, JniReachable Vm.initial ∧
    (JniOp.cpp (.hookMethod "A".toList true "m".toList "(I)I".toList 3)).run Vm.initial 0 = .ok (vm1, a) ∧
    ops.length = 1 ∧ runJni vm1 ops = .ok (vm2, as) ∧
    (∀ u g, (u, .cpp (.hookMethod "A".toList true "m".toList "(I)I".toList g)) ∉ ops) ∧
    sampleCatchNatives.kind 3 = .static ∧ vm2.heap.envs 1 = some env := by
  obtain ⟨vm2, as, hx, -, hp⟩ := jniReachable_of (ops := sampleCatchOps) (p := fun vm _ => (vm.heap.envs 1).isSome)
    (by decide +kernel)
  obtain ⟨vm, vm1, bs, a, cs, h1, h2, h3⟩ := runJni_split (pre := sampleCatchOps.take 0) (post := sampleCatchOps.drop 1) hx
  cases h1
  obtain ⟨env, he⟩ := Option.isSome_iff_exists.1 hp
  refine ⟨vm1, vm2, _, a, cs, env, ⟨[], [], rfl⟩, h2, rfl, h3, fun u g h => ?_, rfl, he⟩
  revert h
  simp [sampleCatchOps]

/-- What the client of `catch_program` and `call_catches` gets when "m" returns, and when it throws. -/
example : (runJni Vm.initial sampleCatchOps).holds (fun (x : Vm × List JniAnswer) =>
    ((sampleCatchClient 5).run toFloat (sampleCatchNatives.code toFloat 1 3) 1 x.1).is
      (fun _ a => decide (a = 6)) (fun _ _ => false) &&
    ((sampleCatchClient 0).run toFloat (sampleCatchNatives.code toFloat 1 3) 1 x.1).is
      (fun _ a => decide (a = 77)) (fun _ _ => false)) = true := by
  decide +kernel

/-- "m" throws or answers 5. -/
def sampleThrowNatives (throws : Bool) : Natives where
  kind := fun _ => .member
  type := fun _ => .int
  hooked := fun _ _ _ => if throws then .raise .badCast else .ret 5
  registered := fun _ _ _ _ => .ret 0

/-- Sample for `catch_virtual_program_partial`: its hypotheses hold in the history `sampleVirtualOps`. -/
example : ∃ vm vm1 vm2 ops a as c, JniReachable vm ∧
    (JniOp.cpp (.hookMethod "A".toList false "m".toList "()I".toList 3)).run vm 0 = .ok (vm1, a) ∧
    (∀ c, vm1.world.IsClass "A".toList c → HookFree vm.world c false "m".toList "()I".toList) ∧
    ops.length = 2 ∧ runJni vm1 ops = .ok (vm2, as) ∧
    (∀ u g, (u, .cpp (.hookMethod "A".toList false "m".toList "()I".toList g)) ∉ ops) ∧
    (sampleThrowNatives true).kind 3 ≠ .static ∧ (∃ env, vm2.heap.envs 1 = some env) ∧ vm2.world.IsClass "A".toList c ∧
    ClassIs vm2 (some 10) c := by
  obtain ⟨vm2, as, hx, -, hp⟩ := jniReachable_of (ops := sampleVirtualOps) (p := fun vm _ =>
    (vm.heap.envs 1).isSome && (vm.heap.objs 9).any (fun (o : Obj) => decide (o.kind = .cls "A".toList)) &&
    (vm.heap.objs 10).any (fun (o : Obj) => decide (o.kind = .plain ∧ o.cls = some 9)) &&
    (findClass true vm.world.reg "A".toList).2.isSome) (by decide +kernel)
  simp only [Bool.and_eq_true, Option.any_eq_true, decide_eq_true_eq] at hp
  obtain ⟨⟨⟨he, o9, ho9, hk9⟩, o, ho, hk, hcl⟩, hc⟩ := hp
  obtain ⟨c, hc⟩ := Option.isSome_iff_exists.1 hc
  obtain ⟨vm, vm1, bs, a, cs, h1, h2, h3⟩ := runJni_split (pre := sampleVirtualOps.take 1)
    (post := sampleVirtualOps.drop 2) hx
  obtain ⟨vm', as', hx', hr, hp'⟩ := jniReachable_of (ops := sampleVirtualOps.take 1) (p := fun vm _ =>
    (findClass true vm.world.reg "A".toList).2.any (fun (c : Nat) => (vm.world.mem c).methods.isEmpty))
    (by decide +kernel)
  rw [h1] at hx'
  cases hx'
  simp only [Option.any_eq_true, List.isEmpty_iff] at hp'
  obtain ⟨c0, hc0, hm0⟩ := hp'
  refine ⟨vm, vm1, vm2, _, a, cs, c, hr, h2, fun d hd => .inr fun m hm => ?_, rfl, h3, fun u g h => ?_, by decide,
    Option.isSome_iff_exists.1 he, hc, 10, o, 9, .direct ho (by rw [hk]; exact fun _ => ⟨nofun, nofun⟩), ho, hcl, 9, o9, _,
    .direct ho9 (by rw [hk9]; exact fun _ => ⟨nofun, nofun⟩), ho9, hk9, hc⟩
  · have : some d = some c0 := hd.symm.trans ((jni_grows hr.jniInv h2).names _ _ hc0)
    cases this
    rw [hm0] at hm
    cases hm
  · revert h
    simp [sampleVirtualOps]

/-- A client of `catch_virtual_program_partial`, which answers 77 for an exception. -/
def sampleCatchVirtual : Script :=
  withObjectClass (some 10) fun cl => withMethodID 3 false cl "m".toList "()I".toList fun id =>
    .callA .int (.virtual (some 10)) id [] fun r => orCatch (fun x => .ret (if x.isSome then 77 else 78)) (.ret (r + 1))

/-- What it gets when "m" returns, and when it throws. -/
example : (runJni Vm.initial sampleVirtualOps).holds (fun (x : Vm × List JniAnswer) =>
    (sampleCatchVirtual.run toFloat ((sampleThrowNatives false).code toFloat 1 3) 1 x.1).is
      (fun _ a => decide (a = 6)) (fun _ _ => false) &&
    (sampleCatchVirtual.run toFloat ((sampleThrowNatives true).code toFloat 1 3) 1 x.1).is
      (fun _ a => decide (a = 77)) (fun _ _ => false)) = true := by
  decide +kernel

/-- Sample for `check_catches`: an exception is pending on thread 1. -/
example : ∃ vm e x o p, JniReachable vm ∧ vm.heap.envs 1 = some e ∧ e.pending = some x ∧ vm.heap.objs x = some o ∧
    o.kind = .throwable p := by
  obtain ⟨vm, as, -, hr, hp⟩ := jniReachable_of (ops := [(1, .heap .attach), (1, .heap (.raise .badCast))])
    (p := fun vm _ => (vm.heap.envs 1).any fun (e : Env) => e.pending.isSome) (by decide +kernel)
  simp only [Option.any_eq_true] at hp
  obtain ⟨e, he, hp⟩ := hp
  obtain ⟨x, hx⟩ := Option.isSome_iff_exists.1 hp
  obtain ⟨o, p, ho, hk⟩ := pending_live hr.jniInv.heap he hx
  exact ⟨vm, e, x, o, p, hr, he, hx, ho, hk⟩

/-- Function 3 calls the method `id` and returns what it gets; function 4 throws. -/
def samplePassNatives (id : Nat) : Natives where
  kind := fun _ => .static
  type := fun _ => .int
  hooked := fun f _ args => if f = 4 then .raise .badCast else .callA .int (.static none) (some id) args fun v => .ret v
  registered := fun _ _ _ _ => .ret 0

/-- Sample for `endsWith_leaves` and `passed_caught`: the exception comes from two calls below. -/
example : ∃ vm env fs id, JniReachable vm ∧ vm.heap.envs 1 = some env ∧
    EndsWith toFloat fs 1 .badCast 2 vm .int (.static none) (some id) [7] := by
  obtain ⟨vm, as, -, hr, hp⟩ := jniReachable_of (ops := [(1, .heap .attach),
      (0, .cpp (.hookMethod "A".toList true "m".toList "(I)I".toList 3)),
      (0, .cpp (.hookMethod "A".toList true "n".toList "(I)I".toList 4))]) (p := fun vm _ =>
    (vm.heap.envs 1).isSome && (findClass true vm.world.reg "A".toList).2.any (fun (c : Nat) =>
      ((vm.world.mem c).methods.any fun (m : MethodRec) => decide (m.handle = some 3)) &&
      (vm.world.mem c).methods.any fun (m : MethodRec) => decide (m.handle = some 4))) (by decide +kernel)
  simp only [Bool.and_eq_true, Option.any_eq_true, List.any_eq_true, decide_eq_true_eq] at hp
  obtain ⟨hat, c, hc, ⟨m, hm, hm3⟩, m', hm', hm4⟩ := hp
  obtain ⟨env, he⟩ := Option.isSome_iff_exists.1 hat
  refine ⟨vm, env, samplePassNatives m'.id, m.id, hr, he, ?_⟩
  have s1 := static_call (functions_well_behaved toFloat (samplePassNatives m'.id) 1 2).1 hr.jniInv.vm (t := 1)
    (.inl ⟨rfl, rfl⟩) ⟨_, c, hc, hm, rfl⟩ hm3 (ty := .int) rfl rfl [7]
  have s2 := static_call (functions_well_behaved toFloat (samplePassNatives m'.id) 1 1).1 hr.jniInv.vm (t := 1)
    (.inl ⟨rfl, rfl⟩) ⟨_, c, hc, hm', rfl⟩ hm4 (ty := .int) rfl rfl [7]
  exact .through (vm2 := vm) id s1 hr hat (.direct (vm' := vm) s2 hat)

/-- Sample for `caught_rethrown`. -/
example : ∃ u vm vm' x p, JniReachable vm ∧ Caught u vm vm' x p := by
  obtain ⟨vm, as, -, hr, hp⟩ := jniReachable_of (ops := [(1, .heap .attach), (1, .heap (.raise .badCast))])
    (p := fun vm _ => (vm.heap.envs 1).any fun (e : Env) => e.pending.isSome) (by decide +kernel)
  simp only [Option.any_eq_true] at hp
  obtain ⟨e, he, hp⟩ := hp
  obtain ⟨x, hx⟩ := Option.isSome_iff_exists.1 hp
  obtain ⟨o, p, ho, hk⟩ := pending_live hr.jniInv.heap he hx
  obtain ⟨vm', h, -⟩ := (check_catches toFloat (sampleCatchNatives.code toFloat 1 0) hr he (fun _ => .ret 0) (.ret 0)).2
    x o p hx ho hk
  exact ⟨1, vm, vm', x, p, hr, h⟩

end Jnivm
