import Verif.Props.ConstructProgram
/-! C88: whole programs that pass the arguments as C varargs. -/
namespace Jnivm
open Spec

/-- C88: varargs.  After C++ code hooked a method of class `n`, and any calls on any threads that do not hook it again, a
client that asks for the class and the id and calls the method in any form with C varargs does the same as with an array
of the values they carry, so that the other theorems tell which function runs.  Arguments beyond those of the
signature are not looked at.  Not covered: a native method of that name and signature was registered before. -/
theorem varargs_program_partial (d2f : BitVec 64 → BitVec 32) (code : Code) {vm vm1 vm2 : Vm} (hr : JniReachable vm)
    {t : Nat} {n name : Str} {st : Bool} {params : List Ty} {ret : Option Ty} {f : Nat} {a : JniAnswer}
    (hh : (JniOp.cpp (.hookMethod n st name (renderSig params ret) f)).run vm t = .ok (vm1, a))
    (hinit : name = "<init>".toList → st = true)
    (hfree : ∀ c, vm1.world.IsClass n c → HookFree vm.world c st name (renderSig params ret))
    {ops : List (Nat × JniOp)} {as : List JniAnswer} (hops : runJni vm1 ops = .ok (vm2, as))
    (hno : ∀ u g, (u, .cpp (.hookMethod n st name (renderSig params ret) g)) ∉ ops) {u : Nat} {env : Env}
    (he : vm2.heap.envs u = some env) (hv : ∀ p ∈ params, p.Valid) {args extra : List CArg} {vals : List (BitVec 64)}
    (hp : Passes d2f params args vals) (ty : JType) (form : Option Nat → Form) (k : BitVec 64 → Script) (d : Nat) :
    (withClass n fun cl => withMethodID (d + 1) st cl name (renderSig params ret) fun id =>
      .callV ty (form cl) id (args ++ extra) k).run d2f code u vm2 =
    (withClass n fun cl => withMethodID (d + 1) st cl name (renderSig params ret) fun id =>
      .callA ty (form cl) id vals k).run d2f code u vm2 := by
  obtain ⟨vm3, cl, c, m, e3, hx, hr3, he3, hc, hcl, hm, hf, hlook⟩ := method_found hr hh hinit hfree hops hno he
  have hmeth := methodID_step hr3 he3 hcl (hlook d false)
  have hn : Names vm3.world m.id m := ⟨n, c, hc, hm.1, rfl⟩
  have h := callV_is_callA d2f code.hooks hr3.jniInv.vm u ty (form (some cl)) hn hm.2.2.2.2 hv (extra := extra) hp
  simp only [withClass, Script.run, hx, Outcome.lift, withMethodID, hmeth, h]

/-- Sample: "count" with signature "(I)I" of class "A" is hooked, then another function, a thread attached, a field gets
accessors and a native method is registered; the client passes 7, and one argument too many. -/
example : ∃ vm vm1 vm2 ops a as, JniReachable vm ∧
    (JniOp.cpp (.hookMethod "A".toList true "count".toList (renderSig [.prim .int] (some (.prim .int))) 3)).run vm 0 =
      .ok (vm1, a) ∧
    ops.length = 5 ∧ runJni vm1 ops = .ok (vm2, as) ∧
    (∀ u g, (u, .cpp (.hookMethod "A".toList true "count".toList (renderSig [.prim .int] (some (.prim .int))) g)) ∉ ops) ∧
    (∀ c, vm1.world.IsClass "A".toList c →
      HookFree vm.world c true "count".toList (renderSig [.prim .int] (some (.prim .int)))) ∧
    (∃ env, vm2.heap.envs 1 = some env) ∧ (∀ p ∈ [Ty.prim .int], p.Valid) ∧
    Passes toFloat [.prim .int] [.int 7] [7] ∧ [CArg.int 7, .long 1] = [.int 7] ++ [.long 1] := by
  obtain ⟨vm2, as, hx, S⟩ := sample_nested
  obtain ⟨vm, vm1, bs, a, cs, h1, h2, h3⟩ := runJni_split (pre := sampleNestedOps.take 1)
    (post := sampleNestedOps.drop 2) hx
  refine ⟨vm, vm1, vm2, _, a, cs, ⟨_, _, h1⟩, h2, rfl, h3, fun u g h => ?_, fun _ _ => .inl rfl, S.envs 1 (by decide),
    by decide, .cons rfl .nil, rfl⟩
  revert h
  simp only [sampleNestedOps, List.drop, List.mem_cons, List.not_mem_nil, Prod.mk.injEq, JniOp.cpp.injEq, reduceCtorEq,
    ClientOp.hookMethod.injEq, and_false, or_false]
  rintro ⟨-, -, -, h, -⟩
  revert h
  decide

end Jnivm
