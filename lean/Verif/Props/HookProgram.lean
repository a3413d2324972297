import Verif.Lemmas.HookProgram
import Verif.Props.Nested
/-! C88: whole programs, from the installation of a function by C++ code to its call through the JNI. -/
namespace Jnivm
open Spec

theorem isClass_name_unique {w : World} (hr : MemReachable w) {n m : Str} {c : Nat} (h1 : w.IsClass n c)
    (h2 : w.IsClass m c) : n = m := by
  have := isClass_nameOf hr h1
  rw [isClass_nameOf hr h2] at this
  exact (Option.some.inj this).symm

/-- C88: a history of JNI calls, on whatever threads, does to the tables of members what a history of the operations of
C16 to C28 does, so that what is proved of those holds of these; hooks, natives and bound types come from calls
that ask for them. -/
theorem jni_is_member_history {vm vm' : Vm} (hr : JniReachable vm) {ops : List (Nat × JniOp)} {as : List JniAnswer}
    (h : runJni vm ops = .ok (vm', as)) :
    ∃ mops, runMem vm.world mops = .ok vm'.world ∧ ∀ o ∈ mops, CausedBy vm'.world ops o :=
  runJni_byMem hr.jniInv h

/-- C88: a hook lasts over JNI histories.  After C++ code hooked a method of class `n`, and any calls on any threads
that do not hook that method of that class again, the lookup finds a method that runs the hooked function.  Not covered:
an instance method for which a native method of that name and signature was registered before. -/
theorem hook_program_partial {vm vm1 vm2 : Vm} (hr : JniReachable vm) {t : Nat} {n name sig : Str} {st : Bool}
    {f : Nat} {a : JniAnswer} (hh : (JniOp.cpp (.hookMethod n st name sig f)).run vm t = .ok (vm1, a))
    (hinit : name = "<init>".toList → st = true)
    (hfree : ∀ c, vm1.world.IsClass n c → HookFree vm.world c st name sig)
    {ops : List (Nat × JniOp)} {as : List JniAnswer} (hops : runJni vm1 ops = .ok (vm2, as))
    (hno : ∀ u g, (u, .cpp (.hookMethod n st name sig g)) ∉ ops) :
    ∃ c m, vm2.world.IsClass n c ∧ vm2.world.Declares c st false name sig m ∧ m.handle = some f ∧
      ∀ depth rn, vm2.world.getMethodID (depth + 1) st rn false (some c) name sig = .ok (vm2.world, some m.id) := by
  have inv := hr.jniInv
  have inv1 := (jni_grows inv hh).inv
  obtain ⟨hb, -⟩ := run_body hh
  obtain ⟨⟨w, x⟩, h1, h2⟩ := Res.bind_eq_ok.1 hb
  obtain ⟨c, hc, h3⟩ := onClass_inv h1
  cases h3
  cases h2
  obtain ⟨r, c', e, hr1, hc', -⟩ := find_create inv.world n
  have e1 : Build.debug.resolve vm.world (some n) = ({ vm.world with reg := r }, some c') := by
    simp only [Build.resolve, Build.debug, e]
  rw [e1] at hc hops hfree inv1
  cases hc
  have hrun : (MemOp.hookMethod c st name sig f).run { vm.world with reg := r } = .ok _ := rfl
  have hc1 := isClass_step hr1.inv hrun hc'
  obtain ⟨mops, hm, hP⟩ := runJni_byMem inv1 hops
  have hc2 := (runJni_grows inv1 hops).names _ _ hc1
  have hr2 := (runJni_grows inv1 hops).inv.world
  obtain ⟨m, k1, k2, k3⟩ := hook_effective_partial hr1 hc' hinit (hfree c hc1) f hm fun g hg => by
    obtain ⟨u, cl, hu, hcl⟩ := hP _ hg
    cases isClass_name_unique hr2 hc2 hcl
    exact hno u g hu
  exact ⟨c, m, hc2, k1, k2, k3⟩

/-- `FindClass` on an attached thread. -/
theorem class_step {vm : Vm} (hr : JniReachable vm) {u : Nat} {e : Env} (he : vm.heap.envs u = some e) (n : Str) :
    ∃ vm' r c e', (JniOp.heap (.findClass n)).run vm u = .ok (vm', .out (.ref (some r))) ∧ JniReachable vm' ∧
      vm'.heap.envs u = some e' ∧ e'.pending = e.pending ∧ vm'.world.IsClass n c ∧ IsClassRef vm' (some r) c := by
  obtain ⟨vm', r, hx, -, c, hc, href⟩ := find_class_refers hr he n
  obtain ⟨hb, -⟩ := run_body hx
  obtain ⟨⟨v, o⟩, h1, h2⟩ := Res.bind_eq_ok.1 hb
  cases h2
  obtain ⟨⟨h2, out⟩, h3, h4⟩ := Res.bind_eq_ok.1 (heapCall_ok h1).1
  injection h4 with h4
  injection h4 with h4 h5
  obtain ⟨⟨e', k1, -, -, k2⟩, -⟩ := Heap.effect_exec hr.jniInv.heap.inv.toPre he h3 (by simp)
  refine ⟨_, r, c, e', hx, (ByCallsOf.refl u (fun _ => True) vm |>.call trivial hx).reachable hr, ?_, k2, hc, href⟩
  rw [← h4, Heap.collect_envs]
  exact k1

/-- The rest of a program that asked for a class and a method which is there. -/
theorem methodID_step {vm : Vm} (hr : JniReachable vm) {u : Nat} {e : Env} (he : vm.heap.envs u = some e) {st : Bool}
    {cl : Option Nat} {c id d : Nat} (hcl : IsClassRef vm cl c) {name sig : Str}
    (hlook : vm.world.getMethodID d st false false (some c) name sig = .ok (vm.world, some id)) :
    (JniOp.getMethodID d st false false cl name sig).run vm u = .ok (vm, .client (.member (some id))) := by
  rw [run_attached he]
  simp only [JniOp.body, castClass_ref hr.jniInv.vm hcl, Res.bind_ok, Bool.or_self, hlook]

/-- C88: hook, find, call.  C++ code hooks a static function of class `n`; any calls follow, on any threads, that do not
hook it again.  Then a client that asks for the class by its name, for the id by name and signature, and calls the method,
runs that function with its arguments and on that class, and gets its result; or the exception of the function is
pending afterwards. -/
theorem static_program (d2f : BitVec 64 → BitVec 32) (fs : Natives) {vm vm1 vm2 : Vm} (hr : JniReachable vm) {t : Nat}
    {n name sig : Str} {f : Nat} {a : JniAnswer}
    (hh : (JniOp.cpp (.hookMethod n true name sig f)).run vm t = .ok (vm1, a))
    {ops : List (Nat × JniOp)} {as : List JniAnswer} (hops : runJni vm1 ops = .ok (vm2, as))
    (hno : ∀ u g, (u, .cpp (.hookMethod n true name sig g)) ∉ ops) (hk : fs.kind f = .static)
    {u : Nat} {env : Env} (he : vm2.heap.envs u = some env) (args : List (BitVec 64)) (k : BitVec 64 → Script)
    (depth d : Nat) :
    ∃ vm3 c, JniReachable vm3 ∧ vm3.world.IsClass n c ∧
      let prog := withClass n fun cl => withMethodID (d + 1) true cl name sig fun id =>
        .callA (fs.type f) (.static cl) id args k
      let run (s : Script) (v : Vm) := s.run d2f (fs.code d2f u (depth + 1)) u v
      let body := (fs.hooked f (.cls (some c)) args).run d2f (fs.code d2f u depth) u vm3
      (∀ vm' v, body = .returns vm' v → run prog vm2 = run (k v) vm') ∧
      (∀ vm' e, body = .raises vm' e → (vm'.heap.envs u).isSome → ∃ vm4 x o env', run prog vm2 = run (k 0) vm4 ∧
        vm4.world = vm'.world ∧ vm4.heap.envs u = some env' ∧ env'.pending = some x ∧ vm4.heap.objs x = some o ∧
        o.kind = .throwable (some e)) := by
  have hr1 : JniReachable vm1 := (ByCallsOf.refl t (fun _ => True) vm |>.call trivial hh).reachable hr
  have hr2 : JniReachable vm2 := by
    obtain ⟨p, bs, hp⟩ := hr1
    exact ⟨p ++ ops, bs ++ as, by rw [runJni_append, hp]; simp only [Res.bind_ok, hops]⟩
  obtain ⟨vm3, r, c, e3, hx, hr3, he3, -, hc, hcl⟩ := class_step hr2 he n
  have hops3 : runJni vm1 (ops ++ [(u, .heap (.findClass n))]) = .ok (vm3, as ++ [.out (.ref (some r))]) := by
    rw [runJni_append, hops]
    simp only [Res.bind_ok, runJni, hx]
  obtain ⟨c', m, hc', hm, hf, hlook⟩ := hook_program_partial hr hh (fun _ => rfl) (fun _ _ => .inl rfl) hops3
    fun v g hv => by
      rcases List.mem_append.1 hv with hv | hv
      · exact hno v g hv
      · cases List.mem_singleton.1 hv
  have : some c = some c' := hc.symm.trans hc'
  cases this
  have hmeth := methodID_step hr3 he3 hcl (hlook d false)
  have hn : Names vm3.world m.id m := ⟨n, c, hc, hm.1, rfl⟩
  have hstart : ∀ code : Code, (withClass n fun cl => withMethodID (d + 1) true cl name sig fun id =>
        Script.callA (fs.type f) (.static cl) id args k).run d2f code u vm2 =
      (Script.callA (fs.type f) (.static (some r)) (some m.id) args k).run d2f code u vm3 := by
    intro code
    simp only [withClass, Script.run, hx, Outcome.lift, withMethodID, hmeth]
  refine ⟨vm3, c, hr3, hc, fun vm' v hb => ?_, fun vm' e hb hat => ?_⟩
  · exact (hstart _).trans (nested_return d2f fs hr3 he3 hcl hn hf hk args k hb)
  · obtain ⟨vm4, x, o, env', h1, h2⟩ := nested_throw d2f fs hr3 he3 hcl hn hf hk args k hb hat
    exact ⟨vm4, x, o, env', (hstart _).trans h1, h2⟩

/-- Sample for `jni_is_member_history`, `hook_program_partial` and `static_program`: "count" of class "A" is hooked; then
another function is hooked, a thread attached, a field gets accessors and a native method is registered. -/
example : ∃ vm vm1 vm2 ops a as, JniReachable vm ∧
    (JniOp.cpp (.hookMethod "A".toList true "count".toList "(I)I".toList 3)).run vm 0 = .ok (vm1, a) ∧
    ops.length = 5 ∧ runJni vm1 ops = .ok (vm2, as) ∧
    (∀ u g, (u, .cpp (.hookMethod "A".toList true "count".toList "(I)I".toList g)) ∉ ops) ∧
    (∀ c, vm1.world.IsClass "A".toList c → HookFree vm.world c true "count".toList "(I)I".toList) ∧
    sampleNatives.kind 3 = .static ∧ ∃ env, vm2.heap.envs 1 = some env := by
  obtain ⟨vm2, as, hx, S⟩ := sample_nested
  obtain ⟨vm, vm1, bs, a, cs, h1, h2, h3⟩ := runJni_split (pre := sampleNestedOps.take 1)
    (post := sampleNestedOps.drop 2) hx
  refine ⟨vm, vm1, vm2, _, a, cs, ⟨_, _, h1⟩, h2, rfl, h3, fun u g h => ?_, fun _ _ => .inl rfl, rfl, S.envs 1 (by decide)⟩
  revert h
  simp only [sampleNestedOps, List.drop, List.mem_cons, List.not_mem_nil, Prod.mk.injEq, JniOp.cpp.injEq, reduceCtorEq,
    ClientOp.hookMethod.injEq, and_false, or_false]
  rintro ⟨-, -, -, h, -⟩
  revert h
  decide

/-- The client of `static_program` on it: "count" counts its argument down, so it gets 3. -/
example : ∃ vm as vm', runJni Vm.initial sampleNestedOps = .ok (vm, as) ∧
    (withClass "A".toList fun cl => withMethodID 1 true cl "count".toList "(I)I".toList fun id =>
      .callA .int (.static cl) id [3] .ret).run toFloat (sampleNatives.code toFloat 1 6) 1 vm = .returns vm' 3 := by
  have h : (runJni Vm.initial sampleNestedOps).holds (fun (x : Vm × List JniAnswer) =>
      ((withClass "A".toList fun cl => withMethodID 1 true cl "count".toList "(I)I".toList fun id =>
        .callA .int (.static cl) id [3] .ret).run toFloat (sampleNatives.code toFloat 1 6) 1 x.1).is
        (fun _ a => decide (a = 3)) (fun _ _ => false)) = true := by
    decide +kernel
  obtain ⟨⟨vm, as⟩, h1, h2⟩ := Res.holds_iff.1 h
  refine ⟨vm, as, ?_⟩
  dsimp only at h2
  generalize hS : (withClass "A".toList fun cl => withMethodID 1 true cl "count".toList "(I)I".toList fun id =>
    Script.callA .int (.static cl) id [3] .ret).run toFloat (sampleNatives.code toFloat 1 6) 1 vm = o at h2
  cases o with
  | returns v a =>
    simp only [Outcome.is, decide_eq_true_eq] at h2
    exact ⟨v, h1, by rw [h2]⟩
  | _ => cases h2

end Jnivm
