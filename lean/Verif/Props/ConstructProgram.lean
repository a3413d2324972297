import Verif.Props.VirtualProgram
/-! C88: whole programs, from the installation of a constructor or method by C++ code to `NewObject` and calls of
superclass methods. -/
namespace Jnivm
open Spec

/-- A program that goes on with a call whose function is known. -/
theorem callA_step {d2f : BitVec 64 → BitVec 32} {code : Code} {vm : Vm} {u : Nat} {env : Env}
    (he : vm.heap.envs u = some env) {ty : JType} {form : Form} {id : Option Nat} {args : List (BitVec 64)}
    {body : Outcome Vm (BitVec 64)} (hs : Handled u body (vm.callA code.hooks u ty form id args))
    (k : BitVec 64 → Script) :
    (∀ vm' v, body = .returns vm' v →
      (Script.callA ty form id args k).run d2f code u vm = (k v).run d2f code u vm') ∧
    ∀ vm' e, body = .raises vm' e → (vm'.heap.envs u).isSome → ∃ vm4 x o env',
      (Script.callA ty form id args k).run d2f code u vm = (k 0).run d2f code u vm4 ∧
      vm4.world = vm'.world ∧ vm4.heap.envs u = some env' ∧ env'.pending = some x ∧ vm4.heap.objs x = some o ∧
      o.kind = .throwable (some e) := by
  refine ⟨fun vm' v hb => ?_, fun vm' e hb hat => ?_⟩
  · rw [hb] at hs
    simp only [Script.run, Vm.attached, he, Option.isNone_some, Bool.false_eq_true, if_false]
    generalize vm.callA code.hooks u ty form id args = o at hs
    cases hs
    rfl
  · rw [hb] at hs
    simp only [Script.run, Vm.attached, he, Option.isNone_some, Bool.false_eq_true, if_false]
    generalize vm.callA code.hooks u ty form id args = o at hs
    cases hs with
    | @raises _ v4 _ x env0 ox h1 h2 h3 h4 h5 h6 h7 => exact ⟨v4, x, ox, _, rfl, h1, h3, rfl, h5, h6⟩
    | detached h => rw [h] at hat; cases hat

/-- What a client finds that asks for the class and the method. -/
theorem method_found {vm vm1 vm2 : Vm} (hr : JniReachable vm) {t : Nat} {n name sig : Str} {st : Bool} {f : Nat}
    {a : JniAnswer} (hh : (JniOp.cpp (.hookMethod n st name sig f)).run vm t = .ok (vm1, a))
    (hinit : name = "<init>".toList → st = true)
    (hfree : ∀ c, vm1.world.IsClass n c → HookFree vm.world c st name sig)
    {ops : List (Nat × JniOp)} {as : List JniAnswer} (hops : runJni vm1 ops = .ok (vm2, as))
    (hno : ∀ u g, (u, .cpp (.hookMethod n st name sig g)) ∉ ops) {u : Nat} {env : Env}
    (he : vm2.heap.envs u = some env) :
    ∃ vm3 cl c m e3, (JniOp.heap (.findClass n)).run vm2 u = .ok (vm3, .out (.ref (some cl))) ∧ JniReachable vm3 ∧
      vm3.heap.envs u = some e3 ∧ vm3.world.IsClass n c ∧ IsClassRef vm3 (some cl) c ∧
      vm3.world.Declares c st false name sig m ∧ m.handle = some f ∧
      ∀ depth rn, vm3.world.getMethodID (depth + 1) st rn false (some c) name sig = .ok (vm3.world, some m.id) := by
  have hr1 : JniReachable vm1 := (ByCallsOf.refl t (fun _ => True) vm |>.call trivial hh).reachable hr
  have hr2 : JniReachable vm2 := by
    obtain ⟨p, bs, hp⟩ := hr1
    exact ⟨p ++ ops, bs ++ as, by rw [runJni_append, hp]; simp only [Res.bind_ok, hops]⟩
  obtain ⟨vm3, r, c, e3, hx, hr3, he3, -, hc, hcl⟩ := class_step hr2 he n
  have hops3 : runJni vm1 (ops ++ [(u, .heap (.findClass n))]) = .ok (vm3, as ++ [.out (.ref (some r))]) := by
    rw [runJni_append, hops]
    simp only [Res.bind_ok, runJni, hx]
  obtain ⟨c', m, hc', hm, hf, hlook⟩ := hook_program_partial hr hh hinit hfree hops3 fun v g hv => by
    rcases List.mem_append.1 hv with hv | hv
    · exact hno v g hv
    · cases List.mem_singleton.1 hv
  have : some c = some c' := hc.symm.trans hc'
  cases this
  exact ⟨vm3, r, c, m, e3, hx, hr3, he3, hc, hcl, hm, hf, hlook⟩

/-- C88: constructor, find, `NewObject`.  C++ code hooks the static function `<init>` of class `n` that returns `n`; any
calls follow, on any threads, that do not hook it again.  Then a client that asks for the class by its name, for the
constructor with those parameters, and makes an object, runs that function with its arguments and gets what it returns;
or the exception of the function is pending afterwards. -/
theorem construct_program (d2f : BitVec 64 → BitVec 32) (fs : Natives) {vm vm1 vm2 : Vm} (hr : JniReachable vm) {t : Nat}
    {n params ret : Str} (hp : ')' ∉ params) {f : Nat} {a : JniAnswer}
    (hh : (JniOp.cpp (.hookMethod n true "<init>".toList ("(".toList ++ params ++ ")L".toList ++ n ++ ";".toList) f)).run
      vm t = .ok (vm1, a))
    {ops : List (Nat × JniOp)} {as : List JniAnswer} (hops : runJni vm1 ops = .ok (vm2, as))
    (hno : ∀ u g, (u, .cpp (.hookMethod n true "<init>".toList ("(".toList ++ params ++ ")L".toList ++ n ++ ";".toList)
      g)) ∉ ops) (hk : fs.kind f = .static) (hty : fs.type f = .object)
    {u : Nat} {env : Env} (he : vm2.heap.envs u = some env) (args : List (BitVec 64)) (k : BitVec 64 → Script)
    (depth d : Nat) :
    ∃ vm3 c, JniReachable vm3 ∧ vm3.world.IsClass n c ∧
      let prog := withClass n fun cl =>
        withMethodID (d + 1) false cl "<init>".toList ("(".toList ++ params ++ ")".toList ++ ret) fun id =>
          .callA .object (.static cl) id args k
      let run (s : Script) (v : Vm) := s.run d2f (fs.code d2f u (depth + 1)) u v
      let body := (fs.hooked f (.cls (some c)) args).run d2f (fs.code d2f u depth) u vm3
      (∀ vm' v, body = .returns vm' v → run prog vm2 = run (k v) vm') ∧
      (∀ vm' e, body = .raises vm' e → (vm'.heap.envs u).isSome → ∃ vm4 x o env', run prog vm2 = run (k 0) vm4 ∧
        vm4.world = vm'.world ∧ vm4.heap.envs u = some env' ∧ env'.pending = some x ∧ vm4.heap.objs x = some o ∧
        o.kind = .throwable (some e)) := by
  obtain ⟨vm3, cl, c, m, e3, hx, hr3, he3, hc, hcl, hm, hf, hlook⟩ :=
    method_found hr hh (fun _ => rfl) (fun _ _ => .inl rfl) hops hno he
  have hmeth := methodID_step hr3 he3 (name := "<init>".toList) (sig := "(".toList ++ params ++ ")".toList ++ ret)
    (st := false) hcl
    ((constructor_is_static_factory hr3.jniInv.vm.1 hc (d + 1) false false params ret hp).trans (hlook d false))
  have hn : Names vm3.world m.id m := ⟨n, c, hc, hm.1, rfl⟩
  have hs := static_call (functions_well_behaved d2f fs u (depth + 1)).1 hr3.jniInv.vm (t := u) (.inr ⟨c, hcl, rfl⟩) hn hf
    (ty := .object) hty hk args
  obtain ⟨p1, p2⟩ := callA_step (d2f := d2f) he3 hs k
  refine ⟨vm3, c, hr3, hc, fun vm' v hb => ?_, fun vm' e hb hat => ?_⟩
  · refine Eq.trans ?_ (p1 vm' v hb)
    simp only [withClass, Script.run, hx, Outcome.lift, withMethodID, hmeth]
  · obtain ⟨vm4, x, o, env', h1, h2⟩ := p2 vm' e hb hat
    refine ⟨vm4, x, o, env', Eq.trans ?_ h1, h2⟩
    simp only [withClass, Script.run, hx, Outcome.lift, withMethodID, hmeth]

/-- C88: hook, find, call of the method of a class.  C++ code hooks an instance method of class `n` with a function that
takes the object; any calls follow, on any threads, that do not hook it again.  Then a client that asks for the class by
its name, for the id by name and signature, and calls the method of that class on an object of whatever class, runs that
function with its arguments and on that object, and gets its result; or the exception of the function is pending
afterwards.  Not covered: a native method of that name and signature was registered before; pointers to member functions
(`nonvirtual_member_pointer`). -/
theorem super_program_partial (d2f : BitVec 64 → BitVec 32) (fs : Natives) {vm vm1 vm2 : Vm} (hr : JniReachable vm)
    {t : Nat} {n name sig : Str} {f : Nat} {a : JniAnswer}
    (hh : (JniOp.cpp (.hookMethod n false name sig f)).run vm t = .ok (vm1, a)) (hinit : name ≠ "<init>".toList)
    (hfree : ∀ c, vm1.world.IsClass n c → HookFree vm.world c false name sig)
    {ops : List (Nat × JniOp)} {as : List JniAnswer} (hops : runJni vm1 ops = .ok (vm2, as))
    (hno : ∀ u g, (u, .cpp (.hookMethod n false name sig g)) ∉ ops) (hk : fs.kind f = .inst)
    {u : Nat} {env : Env} (he : vm2.heap.envs u = some env) (obj : Option Nat) (args : List (BitVec 64))
    (k : BitVec 64 → Script) (depth d : Nat) :
    ∃ vm3, JniReachable vm3 ∧ (∃ c, vm3.world.IsClass n c) ∧
      let prog := withClass n fun cl => withMethodID (d + 1) false cl name sig fun id =>
        .callA (fs.type f) (.nonVirtual obj cl) id args k
      let run (s : Script) (v : Vm) := s.run d2f (fs.code d2f u (depth + 1)) u v
      let body := (fs.hooked f (.obj obj) args).run d2f (fs.code d2f u depth) u vm3
      (∀ vm' v, body = .returns vm' v → run prog vm2 = run (k v) vm') ∧
      (∀ vm' e, body = .raises vm' e → (vm'.heap.envs u).isSome → ∃ vm4 x o env', run prog vm2 = run (k 0) vm4 ∧
        vm4.world = vm'.world ∧ vm4.heap.envs u = some env' ∧ env'.pending = some x ∧ vm4.heap.objs x = some o ∧
        o.kind = .throwable (some e)) := by
  obtain ⟨vm3, cl, c, m, e3, hx, hr3, he3, hc, hcl, hm, hf, hlook⟩ :=
    method_found hr hh (fun h => absurd h hinit) hfree hops hno he
  have hmeth := methodID_step hr3 he3 hcl (hlook d false)
  have hn : Names vm3.world m.id m := ⟨n, c, hc, hm.1, rfl⟩
  have hs := nonvirtual_call_partial (functions_well_behaved d2f fs u (depth + 1)).1 hr3.jniInv.vm (t := u) (obj := obj)
    hcl hn (by rw [hf]; rfl) ⟨m, hm.1, hm.2.1, rfl, rfl, hf⟩ (ty := fs.type f) rfl hk args
  obtain ⟨p1, p2⟩ := callA_step (d2f := d2f) he3 hs k
  refine ⟨vm3, hr3, ⟨c, hc⟩, fun vm' v hb => ?_, fun vm' e hb hat => ?_⟩
  · refine Eq.trans ?_ (p1 vm' v hb)
    simp only [withClass, Script.run, hx, Outcome.lift, withMethodID, hmeth]
  · obtain ⟨vm4, x, o, env', h1, h2⟩ := p2 vm' e hb hat
    refine ⟨vm4, x, o, env', Eq.trans ?_ h1, h2⟩
    simp only [withClass, Script.run, hx, Outcome.lift, withMethodID, hmeth]

/-- A class "A" with a constructor for an int and the instance method "m", and a second thread. -/
def sampleConstructOps : List (Nat × JniOp) :=
  [(0, .cpp (.bindType 0 "A".toList [])),
    (0, .cpp (.hookMethod "A".toList true "<init>".toList "(I)LA;".toList 3)),
    (0, .cpp (.hookMethod "A".toList false "m".toList "()I".toList 4)), (1, .heap .attach)]

/-- The constructor is 3; "m" answers 5. -/
def sampleConstructNatives : Natives where
  kind := fun f => if f = 3 then .static else .inst
  type := fun f => if f = 3 then .object else .int
  hooked := fun f _ _ => if f = 3 then .jni (.heap (.newObject (some "A".toList))) fun
      | .out (.ref (some r)) => .ret (BitVec.ofNat 64 r)
      | _ => .raise .badCast
    else .ret 5
  registered := fun _ _ _ _ => .ret 0

/-- Sample for `construct_program`: the constructor "(I)V" of class "A" is hooked, then "m", then a thread attached. -/
example : ∃ vm vm1 vm2 ops a as, JniReachable vm ∧ ')' ∉ "I".toList ∧
    (JniOp.cpp (.hookMethod "A".toList true "<init>".toList
      ("(".toList ++ "I".toList ++ ")L".toList ++ "A".toList ++ ";".toList) 3)).run vm 0 = .ok (vm1, a) ∧
    ops.length = 2 ∧ runJni vm1 ops = .ok (vm2, as) ∧
    (∀ u g, (u, .cpp (.hookMethod "A".toList true "<init>".toList
      ("(".toList ++ "I".toList ++ ")L".toList ++ "A".toList ++ ";".toList) g)) ∉ ops) ∧
    sampleConstructNatives.kind 3 = .static ∧ sampleConstructNatives.type 3 = .object ∧
    ∃ env, vm2.heap.envs 1 = some env := by
  obtain ⟨vm2, as, hx, -, hp⟩ := jniReachable_of (ops := sampleConstructOps) (p := fun vm _ => (vm.heap.envs 1).isSome)
    (by decide +kernel)
  obtain ⟨vm, vm1, bs, a, cs, h1, h2, h3⟩ := runJni_split (pre := sampleConstructOps.take 1)
    (post := sampleConstructOps.drop 2) hx
  refine ⟨vm, vm1, vm2, _, a, cs, ⟨_, _, h1⟩, by decide, h2, rfl, h3, fun u g h => ?_, rfl, rfl,
    Option.isSome_iff_exists.1 hp⟩
  revert h
  simp [sampleConstructOps]

/-- Sample for `super_program_partial`: "m" of class "A" is hooked, then a thread attached. -/
example : ∃ vm vm1 vm2 ops a as, JniReachable vm ∧
    (JniOp.cpp (.hookMethod "A".toList false "m".toList "()I".toList 4)).run vm 0 = .ok (vm1, a) ∧
    (∀ c, vm1.world.IsClass "A".toList c → HookFree vm.world c false "m".toList "()I".toList) ∧
    ops.length = 1 ∧ runJni vm1 ops = .ok (vm2, as) ∧
    (∀ u g, (u, .cpp (.hookMethod "A".toList false "m".toList "()I".toList g)) ∉ ops) ∧
    sampleConstructNatives.kind 4 = .inst ∧ ∃ env, vm2.heap.envs 1 = some env := by
  obtain ⟨vm2, as, hx, -, hp⟩ := jniReachable_of (ops := sampleConstructOps) (p := fun vm _ => (vm.heap.envs 1).isSome)
    (by decide +kernel)
  obtain ⟨vm, vm1, bs, a, cs, h1, h2, h3⟩ := runJni_split (pre := sampleConstructOps.take 2)
    (post := sampleConstructOps.drop 3) hx
  obtain ⟨vm', as', hx', hr, hp'⟩ := jniReachable_of (ops := sampleConstructOps.take 2) (p := fun vm _ =>
    (findClass true vm.world.reg "A".toList).2.any (fun (c : Nat) =>
      (vm.world.mem c).methods.all fun (m : MethodRec) => m.native.isNone)) (by decide +kernel)
  rw [h1] at hx'
  cases hx'
  simp only [Option.any_eq_true, List.all_eq_true, Option.isNone_iff_eq_none] at hp'
  obtain ⟨c0, hc0, hm0⟩ := hp'
  refine ⟨vm, vm1, vm2, _, a, cs, hr, h2, fun d hd => .inr fun m hm h => ?_, rfl, h3, fun u g h => ?_, rfl,
    Option.isSome_iff_exists.1 hp⟩
  · have : some d = some c0 := hd.symm.trans ((jni_grows hr.jniInv h2).names _ _ hc0)
    cases this
    simp_all
  · revert h
    simp [sampleConstructOps]

/-- The client of `construct_program` on it: the object is 10. -/
example : ∃ vm as vm', runJni Vm.initial sampleConstructOps = .ok (vm, as) ∧
    (withClass "A".toList fun cl => withMethodID 1 false cl "<init>".toList "(I)V".toList fun id =>
      .callA .object (.static cl) id [3] .ret).run toFloat (sampleConstructNatives.code toFloat 1 6) 1 vm =
        .returns vm' 10 := by
  have h : (runJni Vm.initial sampleConstructOps).holds (fun (x : Vm × List JniAnswer) =>
      ((withClass "A".toList fun cl => withMethodID 1 false cl "<init>".toList "(I)V".toList fun id =>
        .callA .object (.static cl) id [3] .ret).run toFloat (sampleConstructNatives.code toFloat 1 6) 1 x.1).is
        (fun _ a => decide (a = 10)) (fun _ _ => false)) = true := by
    decide +kernel
  obtain ⟨⟨vm, as⟩, h1, h2⟩ := Res.holds_iff.1 h
  refine ⟨vm, as, ?_⟩
  dsimp only at h2
  generalize hS : (withClass "A".toList fun cl => withMethodID 1 false cl "<init>".toList "(I)V".toList fun id =>
    Script.callA .object (.static cl) id [3] .ret).run toFloat (sampleConstructNatives.code toFloat 1 6) 1 vm = o at h2
  cases o with
  | returns v a =>
    simp only [Outcome.is, decide_eq_true_eq] at h2
    exact ⟨v, h1, by rw [h2]⟩
  | _ => cases h2

end Jnivm
