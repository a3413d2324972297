import Verif.Props.VirtualProgram
/-! C88: whole programs, from the installation of an instance method by C++ code to its call on an object of a subclass. -/
namespace Jnivm
open Spec

/-- C88: hook, find, call on an object of a subclass.  C++ code hooks an instance method of class `n`; any calls follow, on
any threads, that do not hook it again.  Then a client that has an object of a class below it asks for the class of the
object, for the id by name and signature, and calls the method.  If no class before `n` in the order of the search has an
instance method of that name and signature, this runs that function with its arguments and on that object, and gives its
result; or the exception of the function is pending afterwards.  Not covered: a native method of that name and signature
was registered before. -/
theorem inherited_program_partial (d2f : BitVec 64 → BitVec 32) (fs : Natives) {vm vm1 vm2 : Vm} (hr : JniReachable vm)
    {t : Nat} {n name sig : Str} {f : Nat} {a : JniAnswer}
    (hh : (JniOp.cpp (.hookMethod n false name sig f)).run vm t = .ok (vm1, a)) (hinit : name ≠ "<init>".toList)
    (hfree : ∀ c, vm1.world.IsClass n c → HookFree vm.world c false name sig)
    {ops : List (Nat × JniOp)} {as : List JniAnswer} (hops : runJni vm1 ops = .ok (vm2, as))
    (hno : ∀ u g, (u, .cpp (.hookMethod n false name sig g)) ∉ ops) (hk : fs.kind f ≠ .static)
    {u : Nat} {env : Env} (he : vm2.heap.envs u = some env) {obj : Option Nat} {c b : Nat} (hc : vm2.world.IsClass n c)
    (hobj : ClassIs vm2 obj b) {pre post : List Nat} (ho : SearchOrder vm2.world.bases [some b] (pre ++ c :: post))
    (hpre : ∀ x ∈ pre, ∀ m ∈ (vm2.world.mem x).methods, ¬ (m.static = false ∧ m.name = name ∧ m.signature = sig))
    (args : List (BitVec 64)) (k : BitVec 64 → Script) (depth : Nat) {d : Nat} (hd : (pre ++ c :: post).length ≤ d) :
    ∃ vm3, JniReachable vm3 ∧ vm3.world = vm2.world ∧ ClassIs vm3 obj b ∧
      let prog := withObjectClass obj fun cl => withMethodID d false cl name sig fun id =>
        .callA (fs.type f) (.virtual obj) id args k
      let run (s : Script) (v : Vm) := s.run d2f (fs.code d2f u (depth + 1)) u v
      let body := (fs.hooked f (.obj obj) args).run d2f (fs.code d2f u depth) u vm3
      (∀ vm' v, body = .returns vm' v → run prog vm2 = run (k v) vm') ∧
      (∀ vm' e, body = .raises vm' e → (vm'.heap.envs u).isSome → ∃ vm4 x o env', run prog vm2 = run (k 0) vm4 ∧
        vm4.world = vm'.world ∧ vm4.heap.envs u = some env' ∧ env'.pending = some x ∧ vm4.heap.objs x = some o ∧
        o.kind = .throwable (some e)) := by
  have hr1 : JniReachable vm1 := (ByCallsOf.refl t (fun _ => True) vm |>.call trivial hh).reachable hr
  have hr2 : JniReachable vm2 := by
    obtain ⟨p, bs, hp⟩ := hr1
    exact ⟨p ++ ops, bs ++ as, by rw [runJni_append, hp]; simp only [Res.bind_ok, hops]⟩
  obtain ⟨c', m, hc', hm, hf, hown⟩ := hook_program_partial hr hh (fun h => absurd h hinit) hfree hops hno
  have : some c = some c' := hc.symm.trans hc'
  cases this
  have winv := hr2.jniInv.vm.1.inv
  have hplain : name = "<init>".toList → false = true := fun h => absurd h hinit
  have hmine : vm2.world.ownMethod ⟨false, false, name, sig⟩ c = some m.id := by
    have h := hown 0 false
    rw [getMethodID_isClass winv hc, effKey_plain hplain] at h
    cases hx : vm2.world.ownMethod ⟨false, false, name, sig⟩ c with
    | none => exact absurd hm (ownMethod_none.1 hx m)
    | some id =>
      simp only [World.methodOf, dfs_own hx, Res.bind_ok] at h
      injection h with h
      injection h
  have hskip : ∀ x ∈ pre, vm2.world.ownMethod ⟨false, false, name, sig⟩ x = none := fun x hx =>
    ownMethod_none.2 fun m' hm' => hpre x hx m' hm'.1 ⟨hm'.2.1, hm'.2.2.2.1, hm'.2.2.2.2⟩
  obtain ⟨b', hb'⟩ : ∃ nb, vm2.world.IsClass nb b := by
    obtain ⟨-, -, -, -, -, -, -, -, nb, -, -, -, hb⟩ := hobj
    exact ⟨nb, hb⟩
  have hlook : vm2.world.getMethodID d false false false (some b) name sig = .ok (vm2.world, some m.id) := by
    rw [getMethodID_isClass winv hb', effKey_plain hplain]
    unfold World.methodOf
    have hfind : (pre ++ c :: post).findSome? (vm2.world.ownMethod ⟨false, false, name, sig⟩) = some m.id := by
      rw [List.findSome?_append, List.findSome?_eq_none_iff.2 hskip]
      simp [hmine]
    rw [dfs_searchOrder ho hd, hfind]
    rfl
  have himpl : Implements vm2.world b name sig f ∨ f = f ∧ ∀ g', ¬ Implements vm2.world b name sig g' := by
    obtain ⟨rest, hrest⟩ := searchOrder_head ho
    cases pre with
    | nil =>
      cases hrest
      exact .inl ⟨m, hm.1, hm.2.1, hm.2.2.2.1, hm.2.2.2.2, hf⟩
    | cons x pre =>
      cases hrest
      exact .inr ⟨rfl, fun g' ⟨m', h1, h2, h3, h4, _⟩ => hpre _ (List.mem_cons_self ..) m' h1 ⟨h2, h3, h4⟩⟩
  obtain ⟨va, r, ea, hx, hra, hea, hafter, hcl, hobja⟩ := objectClass_step hr2 he hobj
  obtain ⟨vb, -, -, -, hrb, -, hafterb, -, hobjb⟩ := objectClass_step hra hea hobja
  rw [← hafter.1] at hlook hc hm himpl
  have hmeth := methodID_step hra hea hcl hlook
  have hn : Names va.world m.id m := ⟨n, c, hc, hm.1, rfl⟩
  have hstart : ∀ code : Code, (withObjectClass obj fun cl => withMethodID d false cl name sig fun id =>
        Script.callA (fs.type f) (.virtual obj) id args k).run d2f code u vm2 =
      (Script.callA (fs.type f) (.virtual obj) (some m.id) args k).run d2f code u va := by
    intro code
    simp only [withObjectClass, Script.run, hx, Outcome.lift, withMethodID, hmeth]
  obtain ⟨v1, h1, hall⟩ := virtual_call_exact (functions_well_behaved d2f fs u (depth + 1)).1 hra.jniInv.vm hea hobja hn hf
    (fs.type f) args
  cases AfterGetClass.unique hafterb h1
  obtain ⟨-, -, -, hmn, hms⟩ := hm
  have hs := hall f (by rw [hmn, hms]; exact himpl) rfl hk
  have hbody : ((fs.code d2f u (depth + 1)).hooks f).run vb (.obj obj) args =
    (fs.hooked f (.obj obj) args).run d2f (fs.code d2f u depth) u vb := rfl
  rw [hbody] at hs
  refine ⟨vb, hrb, hafterb.1.trans hafter.1, hobjb, fun vm' v hb => ?_, fun vm' e hb hat => ?_⟩
  · rw [hb] at hs
    refine (hstart _).trans ?_
    simp only [Script.run, Vm.attached, hea, Option.isNone_some, Bool.false_eq_true, if_false]
    generalize va.callA (fs.code d2f u (depth + 1)).hooks u (fs.type f) (.virtual obj) (some m.id) args = o at hs
    cases hs
    rfl
  · rw [hb] at hs
    simp only [hstart]
    simp only [Script.run, Vm.attached, hea, Option.isNone_some, Bool.false_eq_true, if_false]
    generalize va.callA (fs.code d2f u (depth + 1)).hooks u (fs.type f) (.virtual obj) (some m.id) args = o at hs
    cases hs with
    | @raises _ v4 _ x env0 ox h1 h2 h3 h4 h5 h6 h7 =>
      exact ⟨v4, x, ox, _, rfl, h1, h3, rfl, h5, h6⟩
    | detached h => rw [h] at hat; cases hat

/-- A class "A" with the instance method "m", a class "B" below it (10), an object of "B" (11) and a second thread. -/
def sampleInheritedOps : List (Nat × JniOp) :=
  [(0, .cpp (.bindType 0 "A".toList [])), (0, .cpp (.bindType 1 "B".toList [some 0])),
    (0, .cpp (.hookMethod "A".toList false "m".toList "()I".toList 3)),
    (0, .heap (.newObject (some "B".toList))), (1, .heap .attach)]

/-- Sample for `inherited_program_partial`: "m" of class "A" is hooked, then an object of "B" is made. -/
example : ∃ vm vm1 vm2 ops a as c b, JniReachable vm ∧
    (JniOp.cpp (.hookMethod "A".toList false "m".toList "()I".toList 3)).run vm 0 = .ok (vm1, a) ∧
    (∀ c, vm1.world.IsClass "A".toList c → HookFree vm.world c false "m".toList "()I".toList) ∧
    ops.length = 2 ∧ runJni vm1 ops = .ok (vm2, as) ∧
    (∀ u g, (u, .cpp (.hookMethod "A".toList false "m".toList "()I".toList g)) ∉ ops) ∧
    sampleVirtualNatives.kind 3 ≠ .static ∧ (∃ env, vm2.heap.envs 1 = some env) ∧ vm2.world.IsClass "A".toList c ∧
    ClassIs vm2 (some 11) b ∧ SearchOrder vm2.world.bases [some b] ([b] ++ c :: []) ∧ c ≠ b ∧
    ∀ x ∈ [b], ∀ m ∈ (vm2.world.mem x).methods,
      ¬ (m.static = false ∧ m.name = "m".toList ∧ m.signature = "()I".toList) := by
  obtain ⟨vm2, as, hx, -, hp⟩ := jniReachable_of (ops := sampleInheritedOps) (p := fun vm _ =>
    (vm.heap.envs 1).isSome && (vm.heap.objs 10).any (fun (o : Obj) => decide (o.kind = .cls "B".toList)) &&
    (vm.heap.objs 11).any (fun (o : Obj) => decide (o.kind = .plain ∧ o.cls = some 10)) &&
    (findClass true vm.world.reg "A".toList).2.any (fun (c : Nat) =>
      (findClass true vm.world.reg "B".toList).2.any (fun (b : Nat) => decide (c ≠ b ∧ vm.world.bases b = some [some c] ∧
        (vm.world.bases c).getD [] = [] ∧ (vm.world.mem b).methods = [])))) (by decide +kernel)
  simp only [Bool.and_eq_true, Option.any_eq_true, decide_eq_true_eq] at hp
  obtain ⟨⟨⟨he, o9, ho9, hk9⟩, o, ho, hk, hcl⟩, c, hc, b, hb, hne, hbb, hbc, hmb⟩ := hp
  obtain ⟨vm, vm1, bs, a, cs, h1, h2, h3⟩ := runJni_split (pre := sampleInheritedOps.take 2)
    (post := sampleInheritedOps.drop 3) hx
  obtain ⟨vm', as', hx', hr, hp'⟩ := jniReachable_of (ops := sampleInheritedOps.take 2) (p := fun vm _ =>
    (findClass true vm.world.reg "A".toList).2.any (fun (c : Nat) => (vm.world.mem c).methods.isEmpty))
    (by decide +kernel)
  rw [h1] at hx'
  cases hx'
  simp only [Option.any_eq_true, List.isEmpty_iff] at hp'
  obtain ⟨c0, hc0, hm0⟩ := hp'
  refine ⟨vm, vm1, vm2, _, a, cs, c, b, hr, h2, fun d hd => .inr fun m hm => ?_, rfl, h3, fun u g h => ?_, by decide,
    Option.isSome_iff_exists.1 he, hc, ⟨11, o, 10, .direct ho (by rw [hk]; exact fun _ => ⟨nofun, nofun⟩), ho, hcl, 10, o9,
    _, .direct ho9 (by rw [hk9]; exact fun _ => ⟨nofun, nofun⟩), ho9, hk9, hb⟩, ?_, hne, fun x hx m hm => ?_⟩
  · have : some d = some c0 := hd.symm.trans ((jni_grows hr.jniInv h2).names _ _ hc0)
    cases this
    rw [hm0] at hm
    cases hm
  · revert h
    simp [sampleInheritedOps]
  · refine .visit (up := [c]) (l := []) ?_ .nil
    rw [hbb]
    refine .visit (up := []) (l := []) ?_ .nil
    rw [hbc]
    exact .nil
  · rw [List.mem_singleton.1 hx, hmb] at hm
    cases hm

end Jnivm
