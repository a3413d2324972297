import Verif.Props.HookProgram
/-! C88: whole programs, from the installation of an instance method by C++ code to its call on an object. -/
namespace Jnivm
open Spec

/-- `GetObjectClass` on an attached thread. -/
theorem objectClass_step {vm : Vm} (hr : JniReachable vm) {u : Nat} {e : Env} (he : vm.heap.envs u = some e)
    {obj : Option Nat} {c : Nat} (hc : ClassIs vm obj c) :
    ∃ vm' r e', (JniOp.heap (.getObjectClass obj)).run vm u = .ok (vm', .out (.ref (some r))) ∧ JniReachable vm' ∧
      vm'.heap.envs u = some e' ∧ AfterGetClass u obj vm vm' ∧ IsClassRef vm' (some r) c ∧ ClassIs vm' obj c := by
  have inv := hr.jniInv
  have hp := inv.heap.inv.toPre
  obtain ⟨i, o, k, hd, ho, hk, k', ok, n, hd2, hok, hkind, hcls⟩ := hc
  cases obj with
  | none => cases hd
  | some q =>
    obtain ⟨vm', hcall, hafter, hkeep, -, -⟩ := heapCall_getObjectClass inv he hd ho
    have hrun : (JniOp.heap (.getObjectClass (some q))).run vm u = .ok (vm', .out (.ref (some k))) := by
      rw [run_attached he]
      simp only [JniOp.body, hcall, Res.bind_ok, hk]
    obtain ⟨hw, out, hx⟩ := hafter
    obtain ⟨ok', hok', hkk⟩ := hkeep.kinds _ _ hok
    have href : IsClassRef vm' (some k) c :=
      ⟨k', ok', n, hkeep.denotes hp hd2, hok', hkk.trans hkind, by rw [hw]; exact hcls⟩
    obtain ⟨o', ho', -⟩ := hkeep.kinds _ _ ho
    obtain ⟨o2, ho2, -, hcl⟩ := (runStep hp hx).old i o' (hp.bound _ _ ho) ho'
    rw [ho] at ho2
    cases ho2
    obtain ⟨h1, hx1, hc1⟩ := Heap.run_ok hx
    obtain ⟨hb, -⟩ := Heap.exec_ok hx1
    obtain ⟨x, hb1, -⟩ := Heap.outRef_ok hb
    have hen : ∃ e', vm'.heap.envs u = some e' := by
      obtain ⟨⟨e', k1, -⟩, -⟩ := Heap.effect_exec hp he hx1 (by simp)
      exact ⟨e', by rw [hc1, Heap.collect_envs]; exact k1⟩
    obtain ⟨e', he'⟩ := hen
    exact ⟨vm', k, e', hrun, (ByCallsOf.refl u (fun _ => True) vm |>.call trivial hrun).reachable hr, he', ⟨hw, out, hx⟩,
      href, i, o', k, hkeep.denotes hp hd, ho', hcl k hk, href⟩

theorem AfterGetClass.unique {vm vm1 vm2 : Vm} {t : Nat} {obj : Option Nat} (h1 : AfterGetClass t obj vm vm1)
    (h2 : AfterGetClass t obj vm vm2) : vm1 = vm2 := by
  obtain ⟨a1, r1, b1⟩ := h1
  obtain ⟨a2, r2, b2⟩ := h2
  rw [b1] at b2
  injection b2 with b2
  injection b2 with b2 _
  cases vm1
  cases vm2
  simp_all

/-- C88: hook, find, call on an object.  C++ code hooks an instance method of class `n`; any calls follow, on any threads,
that do not hook it again.  Then a client that has an object of that class, asks for its class, for the id by name and
signature, and calls the method, runs that function with its arguments and on that object, and gets its result; or the
exception of the function is pending afterwards.  Not covered: a native method of that name and signature was registered
before. -/
theorem virtual_program_partial (d2f : BitVec 64 → BitVec 32) (fs : Natives) {vm vm1 vm2 : Vm} (hr : JniReachable vm)
    {t : Nat} {n name sig : Str} {f : Nat} {a : JniAnswer}
    (hh : (JniOp.cpp (.hookMethod n false name sig f)).run vm t = .ok (vm1, a)) (hinit : name ≠ "<init>".toList)
    (hfree : ∀ c, vm1.world.IsClass n c → HookFree vm.world c false name sig)
    {ops : List (Nat × JniOp)} {as : List JniAnswer} (hops : runJni vm1 ops = .ok (vm2, as))
    (hno : ∀ u g, (u, .cpp (.hookMethod n false name sig g)) ∉ ops) (hk : fs.kind f ≠ .static)
    {u : Nat} {env : Env} (he : vm2.heap.envs u = some env) {obj : Option Nat} {c : Nat} (hc : vm2.world.IsClass n c)
    (hobj : ClassIs vm2 obj c) (args : List (BitVec 64)) (k : BitVec 64 → Script) (depth d : Nat) :
    ∃ vm3, JniReachable vm3 ∧ vm3.world = vm2.world ∧ ClassIs vm3 obj c ∧
      let prog := withObjectClass obj fun cl => withMethodID (d + 1) false cl name sig fun id =>
        .callA (fs.type f) (.virtual obj) id args k
      let run (s : Script) (v : Vm) := s.run d2f (fs.code d2f u (depth + 1)) u v
      let body := (fs.hooked f (.obj obj) args).run d2f (fs.code d2f u depth) u vm3
      (∀ vm' v, body = .returns vm' v → run prog vm2 = run (k v) vm') ∧
      (∀ vm' e, body = .raises vm' e → (vm'.heap.envs u).isSome → ∃ vm4 x o env', run prog vm2 = run (k 0) vm4 ∧
        vm4.world = vm'.world ∧ vm4.heap.envs u = some env' ∧ env'.pending = some x ∧ vm4.heap.objs x = some o ∧
        o.kind = .throwable (some e)) := by
  have hr1 : JniReachable vm1 := (ByCallsOf.refl t (fun _ => True) vm |>.call trivial hh).reachable hr
  have hr2 : JniReachable vm2 := by
    obtain ⟨p, bs, hp⟩ := hr1
    exact ⟨p ++ ops, bs ++ as, by rw [runJni_append, hp]; simp only [Res.bind_ok, hops]⟩
  obtain ⟨c', m, hc', hm, hf, hlook⟩ := hook_program_partial hr hh (fun h => absurd h hinit) hfree hops hno
  have : some c = some c' := hc.symm.trans hc'
  cases this
  obtain ⟨va, r, ea, hx, hra, hea, hafter, hcl, hobja⟩ := objectClass_step hr2 he hobj
  obtain ⟨vb, -, -, -, hrb, -, hafterb, -, hobjb⟩ := objectClass_step hra hea hobja
  rw [← hafter.1] at hlook hc hm
  have hmeth := methodID_step hra hea hcl (hlook d false)
  have hn : Names va.world m.id m := ⟨n, c, hc, hm.1, rfl⟩
  have hstart : ∀ code : Code, (withObjectClass obj fun cl => withMethodID (d + 1) false cl name sig fun id =>
        Script.callA (fs.type f) (.virtual obj) id args k).run d2f code u vm2 =
      (Script.callA (fs.type f) (.virtual obj) (some m.id) args k).run d2f code u va := by
    intro code
    simp only [withObjectClass, Script.run, hx, Outcome.lift, withMethodID, hmeth]
  obtain ⟨v1, h1, hall⟩ := virtual_call_exact (functions_well_behaved d2f fs u (depth + 1)).1 hra.jniInv.vm hea hobja hn hf
    (fs.type f) args
  cases AfterGetClass.unique hafterb h1
  have hs := hall f (.inl ⟨m, hm.1, hm.2.1, rfl, rfl, hf⟩) rfl hk
  have hbody : ((fs.code d2f u (depth + 1)).hooks f).run vb (.obj obj) args =
    (fs.hooked f (.obj obj) args).run d2f (fs.code d2f u depth) u vb := rfl
  rw [hbody] at hs
  refine ⟨vb, hrb, hafterb.1.trans hafter.1, hobjb, fun vm' v hb => ?_, fun vm' e hb hat => ?_⟩
  · rw [hb] at hs
    refine (hstart _).trans ?_
    simp only [Script.run, Vm.attached, hea, Option.isNone_some, Bool.false_eq_true, if_false]
    generalize va.callA (fs.code d2f u (depth + 1)).hooks u (fs.type f) (.virtual obj) (some m.id) args = o at hs
    cases hs
    rfl
  · rw [hb] at hs
    simp only [hstart]
    simp only [Script.run, Vm.attached, hea, Option.isNone_some, Bool.false_eq_true, if_false]
    generalize va.callA (fs.code d2f u (depth + 1)).hooks u (fs.type f) (.virtual obj) (some m.id) args = o at hs
    cases hs with
    | @raises _ v4 _ x env0 ox h1 h2 h3 h4 h5 h6 h7 =>
      exact ⟨v4, x, ox, _, rfl, h1, h3, rfl, h5, h6⟩
    | detached h => rw [h] at hat; cases hat

/-- A class "A" (9) with the instance method "m", an object of it (10) and a second thread. -/
def sampleVirtualOps : List (Nat × JniOp) :=
  [(0, .cpp (.bindType 0 "A".toList [])), (0, .cpp (.hookMethod "A".toList false "m".toList "()I".toList 3)),
    (0, .heap (.newObject (some "A".toList))), (1, .heap .attach)]

/-- "m" answers 5. -/
def sampleVirtualNatives : Natives where
  kind := fun _ => .member
  type := fun _ => .int
  hooked := fun _ _ _ => .ret 5
  registered := fun _ _ _ _ => .ret 0

/-- Sample for `virtual_program_partial`: "m" of class "A" is hooked, then an object is made and a thread attached. -/
example : ∃ vm vm1 vm2 ops a as c, JniReachable vm ∧
    (JniOp.cpp (.hookMethod "A".toList false "m".toList "()I".toList 3)).run vm 0 = .ok (vm1, a) ∧
    (∀ c, vm1.world.IsClass "A".toList c → HookFree vm.world c false "m".toList "()I".toList) ∧
    ops.length = 2 ∧ runJni vm1 ops = .ok (vm2, as) ∧
    (∀ u g, (u, .cpp (.hookMethod "A".toList false "m".toList "()I".toList g)) ∉ ops) ∧
    sampleVirtualNatives.kind 3 ≠ .static ∧ (∃ env, vm2.heap.envs 1 = some env) ∧ vm2.world.IsClass "A".toList c ∧
    ClassIs vm2 (some 10) c := by
  obtain ⟨vm2, as, hx, -, hp⟩ := jniReachable_of (ops := sampleVirtualOps) (p := fun vm _ =>
    (vm.heap.envs 1).isSome && (vm.heap.objs 9).any (fun (o : Obj) => decide (o.kind = .cls "A".toList)) &&
    (vm.heap.objs 10).any (fun (o : Obj) => decide (o.kind = .plain ∧ o.cls = some 9)) &&
    (findClass true vm.world.reg "A".toList).2.isSome) (by decide +kernel)
  simp only [Bool.and_eq_true, Option.any_eq_true, decide_eq_true_eq] at hp
  obtain ⟨⟨⟨he, o9, ho9, hk9⟩, o, ho, hk, hcl⟩, hc⟩ := hp
  obtain ⟨c, hc⟩ := Option.isSome_iff_exists.1 hc
  obtain ⟨vm, vm1, bs, a, cs, h1, h2, h3⟩ := runJni_split (pre := sampleVirtualOps.take 1)
    (post := sampleVirtualOps.drop 2) hx
  obtain ⟨vm', as', hx', hr, hp'⟩ := jniReachable_of (ops := sampleVirtualOps.take 1) (p := fun vm _ =>
    (findClass true vm.world.reg "A".toList).2.any (fun (c : Nat) => (vm.world.mem c).methods.isEmpty))
    (by decide +kernel)
  rw [h1] at hx'
  cases hx'
  simp only [Option.any_eq_true, List.isEmpty_iff] at hp'
  obtain ⟨c0, hc0, hm0⟩ := hp'
  refine ⟨vm, vm1, vm2, _, a, cs, c, hr, h2, fun d hd => .inr fun m hm => ?_, rfl, h3, fun u g h => ?_, by decide,
    Option.isSome_iff_exists.1 he, hc, 10, o, 9, .direct ho (by rw [hk]; exact fun _ => ⟨nofun, nofun⟩), ho, hcl, 9, o9, _,
    .direct ho9 (by rw [hk9]; exact fun _ => ⟨nofun, nofun⟩), ho9, hk9, hc⟩
  · have : some d = some c0 := hd.symm.trans ((jni_grows hr.jniInv h2).names _ _ hc0)
    cases this
    rw [hm0] at hm
    cases hm
  · revert h
    simp [sampleVirtualOps]

end Jnivm
