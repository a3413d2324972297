import Verif.Lemmas.NativeProgram
import Verif.Props.HookProgram
/-! C88: whole programs, from the registration of a native function to its call by C++ code. -/
namespace Jnivm
open Spec

/-- C88: a native lasts over JNI histories.  A client registers a list of natives for class `n` that has none of this
name and signature; any calls follow, on any threads, of which none unregisters the natives of a class through a reference,
and C++ code only those of other classes.  Then the lookup of natives finds a method that has the function which the first
entry for this name and signature names.  Not covered: a later registration of the same name and signature, which
`register_stale` shows to have no effect. -/
theorem register_program_partial {vm vm1 vm2 : Vm} (hr : JniReachable vm) {t : Nat} {cl : Option Nat} {c : Nat} {n : Str}
    (hcl : IsClassRef vm cl c) (hc : vm.world.IsClass n c) {l : List NativeMethod} {a : JniAnswer}
    (hh : (JniOp.registerNatives cl l).run vm t = .ok (vm1, a)) {name sig : Str} (hinit : name ≠ "<init>".toList)
    (hold : ∀ m, ¬ vm.world.Declares c false true name sig m) {p : Nat}
    (hl : l.find? (fun e => e.fnPtr.isSome && (e.name == name && e.signature == sig)) = some ⟨name, sig, some p⟩)
    {ops : List (Nat × JniOp)} {as : List JniAnswer} (hops : runJni vm1 ops = .ok (vm2, as))
    (hno : ∀ u r, (u, .unregisterNatives r) ∉ ops)
    (hno' : ∀ u x, (u, .cpp (.unregisterNatives x)) ∈ ops → ∃ m, x = some m ∧ m ≠ n) :
    ∃ m, vm2.world.IsClass n c ∧ vm2.world.Declares c false true name sig m ∧ m.native = some p ∧
      ∀ depth rn, vm2.world.getMethodID (depth + 1) false rn true (some c) name sig = .ok (vm2.world, some m.id) := by
  have inv := hr.jniInv
  have inv1 := (jni_grows inv hh).inv
  obtain ⟨hb, -⟩ := run_body hh
  simp only [JniOp.body, castClass_ref inv.vm hcl, Res.bind_ok] at hb
  cases hb
  have hc1 : (vm.world.registerNatives (some c) l).IsClass n c := (jni_grows inv hh).names _ _ hc
  obtain ⟨m, h1, h2, h3⟩ := register_effective_partial inv.world hc l hinit hold hl
  obtain ⟨mops, hm, hP⟩ := runJni_byMem inv1 hops
  have hc2 := (runJni_grows inv1 hops).names _ _ hc1
  have hr2 := (runJni_grows inv1 hops).inv.world
  have hrec : ∃ m0, (vm.world.registerNatives (some c) l).nativeRec c name sig = some m0 ∧ m0.id = m.id := by
    have h4 := h3 0 true
    rw [getMethodID_isClass inv1.world.inv hc1, effKey_plain (fun h => absurd h hinit)] at h4
    unfold World.methodOf at h4
    cases ho : (vm.world.registerNatives (some c) l).nativeRec c name sig with
    | none =>
      have hmem := List.find?_eq_none.1 ho m h1.1
      exact absurd (hits_iff.2 ⟨h1.2.1, h1.2.2.1, h1.2.2.2.1, h1.2.2.2.2⟩) hmem
    | some m0 =>
      have : (vm.world.registerNatives (some c) l).ownMethod ⟨false, true, name, sig⟩ c = some m0.id := by
        unfold World.ownMethod; rw [show List.find? _ _ = some m0 from ho]; rfl
      rw [dfs_own this] at h4
      injection h4 with h4
      injection h4 with _ h4
      exact ⟨m0, rfl, Option.some.inj h4⟩
  obtain ⟨m0, hm0, hid⟩ := hrec
  have hsame : m0 = m := (method_unique inv1.world.inv (List.mem_of_find?_eq_some hm0) h1.1 hid).2
  subst hsame
  obtain ⟨m', k1, -, k3⟩ := run_nativeKept hm c name sig (fun hx => by
    rcases hP _ hx with ⟨u, r, hu⟩ | ⟨u, x, hu, hx⟩
    · exact hno u r hu
    · obtain ⟨y, rfl, hy⟩ := hno' u x hu
      obtain ⟨d, hd, hyd⟩ := hx y rfl
      cases hd
      exact hy (isClass_name_unique hr2 hyd hc2)) _ hm0
  obtain ⟨a1, a2, a3, a4⟩ := hits_iff.1 (List.find?_some k1)
  refine ⟨m', hc2, ⟨List.mem_of_find?_eq_some k1, a1, a2, a3, a4⟩, k3.trans h2, fun depth rn => ?_⟩
  rw [getMethodID_isClass hr2.inv hc2, effKey_plain (fun h => absurd h hinit)]
  unfold World.methodOf
  have : vm2.world.ownMethod ⟨false, true, name, sig⟩ c = some m'.id := by
    unfold World.ownMethod; rw [show List.find? _ _ = some m' from k1]; rfl
  rw [dfs_own this]
  rfl

/-- C88: register, look up, invoke.  After that C++ code that looks the native method up in the class and invokes it on a
class or an object runs the registered function, after a local reference to the receiver was made; it goes on with
the result as a `jvalue`, or ends with the exception of the function or the one it left pending. -/
theorem native_program_partial (d2f : BitVec 64 → BitVec 32) (fs : Natives) {vm vm1 vm2 : Vm} (hr : JniReachable vm)
    {t : Nat} {cl : Option Nat} {c : Nat} {n : Str}
    (hcl : IsClassRef vm cl c) (hc : vm.world.IsClass n c) {l : List NativeMethod} {a : JniAnswer}
    (hh : (JniOp.registerNatives cl l).run vm t = .ok (vm1, a)) {name : Str} {params : List Ty} {ret : Option Ty}
    (hinit : name ≠ "<init>".toList) (hret : ')' ∉ renderRet ret)
    (hold : ∀ m, ¬ vm.world.Declares c false true name (renderSig params ret) m) {p : Nat}
    (hl : l.find? (fun e => e.fnPtr.isSome && (e.name == name && e.signature == renderSig params ret)) =
      some ⟨name, renderSig params ret, some p⟩)
    {ops : List (Nat × JniOp)} {as : List JniAnswer} (hops : runJni vm1 ops = .ok (vm2, as))
    (hno : ∀ u r, (u, .unregisterNatives r) ∉ ops)
    (hno' : ∀ u x, (u, .cpp (.unregisterNatives x)) ∈ ops → ∃ m, x = some m ∧ m ≠ n)
    {u : Nat} {env : Env} (he : vm2.heap.envs u = some env) {cl2 : Option Nat} (hcl2 : IsClassRef vm2 cl2 c)
    {target : Recipient} (hi : IsObject vm2 target.ref) (args : List (BitVec 64)) (k : BitVec 64 → Script)
    (depth d : Nat) :
    ∃ vm3 o, AfterRef u target vm2 vm3 ∧
      Shown u (retJType ret) ((fs.registered p (retJType ret) target args).run d2f (fs.code d2f u depth) u vm3) o ∧
      let prog := Script.jni (.getMethodID (d + 1) false true true cl2 name (renderSig params ret)) fun
        | .client (.member (some id)) => .invoke target id args k
        | _ => .raise .noSuchMethod
      let run (s : Script) (v : Vm) := s.run d2f (fs.code d2f u (depth + 1)) u v
      (∀ vm' v, o = .returns vm' v → run prog vm2 = run (k v) vm') ∧
      ∀ vm' e, o = .raises vm' e → run prog vm2 = .raises vm' e := by
  have hr1 : JniReachable vm1 := (ByCallsOf.refl t (fun _ => True) vm |>.call trivial hh).reachable hr
  have hr2 : JniReachable vm2 := by
    obtain ⟨p, bs, hp⟩ := hr1
    exact ⟨p ++ ops, bs ++ as, by rw [runJni_append, hp]; simp only [Res.bind_ok, hops]⟩
  obtain ⟨m, hc2, hm, hp, hlook⟩ := register_program_partial hr hcl hc hh hinit hold hl hops hno hno'
  have hn : Names vm2.world m.id m := ⟨n, c, hc2, hm.1, rfl⟩
  obtain ⟨vm3, o, h1, h2, h3, h4⟩ := nested_registered d2f fs hr2 he hi hn hp hm.2.2.2.2 hret args k depth
  have hx : (JniOp.getMethodID (d + 1) false true true cl2 name (renderSig params ret)).run vm2 u =
      .ok (vm2, .client (.member (some m.id))) := by
    rw [run_attached he]
    simp only [JniOp.body, castClass_ref hr2.jniInv.vm hcl2, Res.bind_ok, Bool.or_self, hlook d true]
  refine ⟨vm3, o, h1, h2, fun vm' v hv => ?_, fun vm' e hv => ?_⟩
  · have := h3 vm' v hv
    simp only [Script.run, hx, Outcome.lift] at this ⊢
    exact this
  · have := h4 vm' e hv
    simp only [Script.run, hx, Outcome.lift] at this ⊢
    exact this

/-- Calls after the registration of "n": "z" is hooked, the natives of another class are unregistered, a class is found. -/
def sampleAfterNative : List (Nat × JniOp) :=
  [(1, .cpp (.hookMethod "A".toList true "z".toList "()V".toList 4)), (0, .cpp (.unregisterNatives (some "B".toList))),
    (1, .heap (.findClass "New".toList))]

/-- Sample for `register_program_partial` and `native_program_partial`: "n" of class "A". -/
example : ∃ vm vm1 vm2 a as c, JniReachable vm ∧ IsClassRef vm (some 9) c ∧ vm.world.IsClass "A".toList c ∧
    (JniOp.registerNatives (some 9) [⟨"n".toList, "(I)I".toList, some 2⟩]).run vm 0 = .ok (vm1, a) ∧
    renderSig [.prim .int] (some (.prim .int)) = "(I)I".toList ∧ ')' ∉ renderRet (some (.prim .int)) ∧
    (∀ m, ¬ vm.world.Declares c false true "n".toList "(I)I".toList m) ∧
    [(⟨"n".toList, "(I)I".toList, some 2⟩ : NativeMethod)].find?
      (fun e => e.fnPtr.isSome && (e.name == "n".toList && e.signature == "(I)I".toList)) =
      some ⟨"n".toList, "(I)I".toList, some 2⟩ ∧
    runJni vm1 sampleAfterNative = .ok (vm2, as) ∧ (∀ u r, (u, .unregisterNatives r) ∉ sampleAfterNative) ∧
    (∀ u x, (u, .cpp (.unregisterNatives x)) ∈ sampleAfterNative → ∃ m, x = some m ∧ m ≠ "A".toList) ∧
    (∃ env, vm2.heap.envs 1 = some env) ∧ IsClassRef vm2 (some 9) c ∧ IsObject vm2 (Recipient.cls 9).ref := by
  obtain ⟨vm2, as, hx, -, hp⟩ := jniReachable_of (ops := sampleNestedOps ++ sampleAfterNative) (p := fun vm _ =>
    (vm.heap.envs 1).isSome && (vm.heap.objs 9).any (fun (o : Obj) => decide (o.kind = .cls "A".toList)))
    (by decide +kernel)
  simp only [Bool.and_eq_true, Option.any_eq_true, decide_eq_true_eq] at hp
  obtain ⟨he, o2, ho2, hk2⟩ := hp
  obtain ⟨vm, as', h1, hr, hp⟩ := jniReachable_of (ops := sampleNestedOps.take 6) (p := fun vm _ =>
    (vm.heap.objs 9).any (fun (o : Obj) => decide (o.kind = .cls "A".toList)) &&
    (findClass true vm.world.reg "A".toList).2.any (fun (c : Nat) =>
      (vm.world.mem c).methods.all fun m => decide (m.name ≠ "n".toList))) (by decide +kernel)
  simp only [Bool.and_eq_true, Option.any_eq_true, decide_eq_true_eq, List.all_eq_true] at hp
  obtain ⟨⟨o, ho, hk⟩, c, hc, hm⟩ := hp
  obtain ⟨vm', vm1, bs, a, cs, h1', h2, h3⟩ := runJni_split (pre := sampleNestedOps.take 6) (post := sampleAfterNative) hx
  rw [h1] at h1'
  cases h1'
  have hc1 := (jni_grows hr.jniInv h2).names _ _ hc
  have hc2 := (runJni_grows (jni_grows hr.jniInv h2).inv h3).names _ _ hc1
  refine ⟨vm, vm1, vm2, a, cs, c, hr, ⟨9, o, _, .direct ho (by rw [hk]; exact fun _ => ⟨nofun, nofun⟩), ho, hk, hc⟩, hc, h2,
    by decide, by decide, fun m hd => hm m hd.1 hd.2.2.2.1, by decide, h3, fun u r h => ?_, fun u x h => ?_,
    Option.isSome_iff_exists.1 he, ⟨9, o2, _, .direct ho2 (by rw [hk2]; exact fun _ => ⟨nofun, nofun⟩), ho2, hk2, hc2⟩,
    ⟨o2, ho2, by rw [hk2]; exact fun _ => ⟨nofun, nofun⟩⟩⟩
  · revert h
    simp [sampleAfterNative]
  · simp only [sampleAfterNative, List.mem_cons, Prod.mk.injEq, JniOp.cpp.injEq, reduceCtorEq, and_false, false_or,
      List.not_mem_nil, or_false, ClientOp.unregisterNatives.injEq] at h
    exact ⟨_, h.2, by decide⟩

end Jnivm
