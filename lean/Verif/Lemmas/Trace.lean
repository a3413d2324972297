import Verif.Model.Trace
import Verif.Spec.Trace
import Verif.Lemmas.Nested
import Verif.Props.Calls
/-! Lemmas about the build with tracing. -/
namespace Jnivm
open Spec

theorem catchAllT_eq (what : Exn → Option Str) {t : Nat} {o : Outcome Vm (BitVec 64)} (ho : EndsIn VmReachable o) :
    Vm.catchAllT what t o = Vm.catchAll t o := by
  cases o with
  | raises vm e =>
    cases he : vm.heap.envs t with
    | none =>
      have : (HeapOp.raise e).run vm.heap t = .ub .dangling := by
        simp [HeapOp.run, HeapOp.exec, HeapOp.needsEnv, he, Res.bind]
      simp only [Vm.catchAll, Vm.catchAllT, this, Outcome.lift]
    | some env =>
      obtain ⟨h', o, hx, h1, h2, h3, -⟩ := raise_run ho.2 he e
      simp only [Vm.catchAll, Vm.catchAllT, hx, Outcome.lift]
      have : ∃ x, h'.describe what t = .ok (h', x) := by
        simp only [Heap.describe, Heap.env, h1, Res.bind_ok, h2, h3]
        cases what e <;> exact ⟨_, rfl⟩
      obtain ⟨x, hd⟩ := this
      rw [hd]
  | _ => rfl

theorem invokeT_eq (what : Exn → Option Str) {code : Nat → Hook} (hb : WellBehaved code) {vm : Vm}
    (hr : VmReachable vm) (t : Nat) (ty : JType) (a : Access) (self : Self) (args : List (BitVec 64))
    (m : Option MethodRec) : Vm.invokeT what code t ty a self args vm m = Vm.invoke code t ty a self args vm m := by
  cases m with
  | none => rfl
  | some m =>
    simp only [Vm.invokeT, Vm.invoke]
    cases m.handle with
    | none => rfl
    | some f => exact catchAllT_eq what (hook_endsIn hb hr f a ty self args)

theorem lift_congr {α β σ : Type} {s : σ} {r : Res α} {f g : α → Outcome σ β} (h : ∀ a, r = .ok a → f a = g a) :
    Outcome.lift s r f = Outcome.lift s r g := by
  cases r with
  | ok a => exact h a rfl
  | _ => rfl

theorem lift_endsIn {α β : Type} {vm : Vm} (hr : VmReachable vm) {r : Res α} {f : α → Outcome Vm β}
    (h : ∀ a, r = .ok a → EndsIn VmReachable (f a)) : EndsIn VmReachable (Outcome.lift vm r f) := by
  cases r with
  | ok a => exact h a rfl
  | throws e => exact hr
  | ub u => trivial
  | diverges => trivial

theorem traceOwner_vm {vm vm' : Vm} (hr : VmReachable vm) {t : Nat} {owner : Owner}
    (h : vm.traceOwner t owner = .ok vm') : VmReachable vm' := by
  cases owner with
  | obj o =>
    obtain ⟨⟨v, c⟩, h1, h2⟩ := Res.bind_eq_ok.1 h
    cases h2; exact objectClass_vm hr h1
  | cls o =>
    obtain ⟨⟨v, c⟩, h1, h2⟩ := Res.bind_eq_ok.1 h
    cases h2; exact castClass_vm hr h1

theorem ownerSelf_vm {vm vm' : Vm} (hr : VmReachable vm) {owner : Owner} {self : Self}
    (h : vm.ownerSelf owner = .ok (vm', self)) : VmReachable vm' := by
  cases owner with
  | obj o => cases h; exact hr
  | cls o =>
    obtain ⟨⟨v, c⟩, h1, h2⟩ := Res.bind_eq_ok.1 h
    cases h2; exact castClass_vm hr h1

theorem access_endsIn {code : Nat → Hook} (hb : WellBehaved code) {vm : Vm} (hr : VmReachable vm) (f : Nat)
    (s : Bool) (ty : JType) (self : Self) (args : List (BitVec 64)) :
    EndsIn VmReachable ((code f).access s ty vm self args) := by
  unfold Hook.access
  split
  · exact hb f vm self args hr
  · exact hr

theorem catchAll_endsIn {t : Nat} {o : Outcome Vm (BitVec 64)} (h : EndsIn VmReachable o) :
    EndsIn VmReachable (Vm.catchAll t o) := by
  cases o with
  | raises vm e =>
    refine lift_endsIn h fun a ha => ?_
    exact ⟨h.1, h.2.step ha⟩
  | _ => exact h

theorem invoke_endsIn {code : Nat → Hook} (hb : WellBehaved code) {vm : Vm} (hr : VmReachable vm) (t : Nat)
    (ty : JType) (a : Access) (self : Self) (args : List (BitVec 64)) (m : Option MethodRec) :
    EndsIn VmReachable (Vm.invoke code t ty a self args vm m) := by
  cases m with
  | none => trivial
  | some m =>
    simp only [Vm.invoke]
    cases m.handle with
    | none => trivial
    | some f => exact catchAll_endsIn (hook_endsIn hb hr f a ty self args)

theorem withMethodT_quiet (vm : Vm) (id : Option Nat) {f g : MethodRec → Outcome Vm (BitVec 64)}
    (h : ∀ m, f m = g m) : vm.withMethodT id (.ok vm) f = vm.withMethod id g := by
  cases id with
  | none => rfl
  | some i =>
    simp only [Vm.withMethodT, Vm.withMethod]
    cases vm.world.method? i with
    | none => rfl
    | some m => simp only [h]; rfl

theorem withMethodT_endsIn {vm : Vm} (hr : VmReachable vm) {id : Option Nat} {u : Res Vm}
    (hu : ∀ v, u = .ok v → VmReachable v) {f : MethodRec → Outcome Vm (BitVec 64)}
    (hf : ∀ m, EndsIn VmReachable (f m)) : EndsIn VmReachable (vm.withMethodT id u f) := by
  unfold Vm.withMethodT
  split
  · exact lift_endsIn hr fun v hv => hu v hv
  · split
    · trivial
    · split
      · exact hf _
      · exact lift_endsIn hr fun v hv => hu v hv

/-- Asking for the class of an object whose class can be printed. -/
theorem traceObject_printable {vm : Vm} (hr : VmReachable vm) {t : Nat} {e : Env} (he : vm.heap.envs t = some e)
    {obj : Option Nat} (h : Printable vm obj) :
    ∃ vm1, AfterGetClass t obj vm vm1 ∧ vm.traceObject t obj = .ok vm1 := by
  rcases h with ⟨c, hc⟩ | ⟨i, o, hd, ho, hn⟩
  · obtain ⟨vm1, h1, h2⟩ := objectClass_ref hr he hc
    exact ⟨vm1, h1, by simp only [Vm.traceObject, h2, Res.bind_ok]⟩
  · obtain ⟨h1, h2⟩ := objectClass_none hr he hd ho hn
    exact ⟨vm, h1, by simp only [Vm.traceObject, h2, Res.bind_ok]⟩

theorem traceOwner_printable {vm : Vm} (hr : VmReachable vm) {t : Nat} {e : Env} (he : vm.heap.envs t = some e)
    {owner : Owner} (h : PrintableOwner vm owner) :
    ∃ vm1, Printed t vm vm1 owner ∧ vm.traceOwner t owner = .ok vm1 := by
  cases owner with
  | obj o => exact traceObject_printable hr he h
  | cls c =>
    refine ⟨vm, rfl, ?_⟩
    rcases h with rfl | ⟨k, hk⟩
    · rfl
    · simp only [Vm.traceOwner, Vm.traceClass, castClass_ref hr hk, Res.bind_ok]

theorem printed_world {t : Nat} {vm vm' : Vm} {owner : Owner} (h : Printed t vm vm' owner) :
    vm'.world = vm.world := by
  cases owner with
  | obj o => exact h.1
  | cls c => rw [show vm' = vm from h]

/-- Asking for the class of an object. -/
theorem afterGetClass_onlyLocals {vm vm' : Vm} (hr : VmReachable vm) {t : Nat} {obj : Option Nat} {i : Nat} {o : Obj}
    (h : AfterGetClass t obj vm vm') (hd : Denotes vm.heap obj (some i)) (ho : vm.heap.objs i = some o) :
    OnlyLocals t o.cls.toList vm.heap vm'.heap := by
  have hp := hr.2.inv.toPre
  obtain ⟨-, r, hx⟩ := h
  have hk := (getObjectClass_keeps hr.2 hx).2
  obtain ⟨h1, hx1, hc⟩ := Heap.run_ok hx
  have s := Heap.step_exec hp hx1
  obtain ⟨hb, -⟩ := Heap.exec_ok hx1
  obtain ⟨c, hb1, hc1⟩ := Heap.outRef_ok hb
  cases obj with
  | none => cases hd
  | some k =>
    simp only [Heap.getObjectClass, (Heap.denote_iff hp).2 hd, Res.bind_ok, ho] at hb1
    obtain ⟨rfl, p⟩ := Heap.pushed_toJNI? hb1
    rw [hc] at hk ⊢
    refine ⟨fun e he => ?_, fun u hu => ?_, ?_, fun j => ?_, ?_⟩
    · have := p.env e he
      cases hf : e.frames with
      | nil => exact absurd hf (hp.frames t e he)
      | cons f fs => exact ⟨f, fs, rfl, by rw [Heap.collect_envs, this, hf]; rfl⟩
    · rw [Heap.collect_envs, s.others u hu]
    · rw [Heap.collect_globals, p.globals]
    · cases hj : vm.heap.objs j with
      | none =>
        cases hj' : h1.collect.objs j with
        | none => rfl
        | some o' =>
          obtain ⟨o2, ho2, -⟩ := toJNI?_objs hb1 (Heap.collect_sub hj')
          rw [hj] at ho2; cases ho2
      | some oj =>
        obtain ⟨o', ho', hkk⟩ := hk.kinds j oj hj
        rw [ho', Option.map_some, Option.map_some, hkk]
    · rw [Heap.collect_classes, toJNI?_classes hb1]

/-- The class of null is "Invalid". -/
theorem traceObject_null {vm vm1 : Vm} {t : Nat} (h : vm.traceObject t none = .ok vm1) :
    (vm1.heap.classes.lookup "Invalid".toList).isSome := by
  obtain ⟨⟨v, c⟩, h1, h2⟩ := Res.bind_eq_ok.1 h
  cases h2
  obtain ⟨⟨h3, out⟩, hx, h4⟩ := Res.bind_eq_ok.1 h1
  obtain ⟨h5, hx1, rfl⟩ := Heap.run_ok hx
  obtain ⟨hb, -⟩ := Heap.exec_ok hx1
  obtain ⟨c', hb1, rfl⟩ := Heap.outRef_ok hb
  have hheap : v.heap = h5.collect := by
    simp only [Vm.classOf] at h4
    split at h4
    · cases h4; rfl
    · split at h4
      · cases h4
      · split at h4
        · cases h4; rfl
        · cases h4
  rw [hheap, Heap.collect_classes]
  have hcl : h5.classes = (vm.heap.intern "Invalid".toList).1.classes :=
    toJNI?_classes (i := some (vm.heap.intern "Invalid".toList).2) hb1
  rw [hcl]
  simp only [Heap.intern]
  split
  · rename_i k hk
    rw [hk]; rfl
  · rw [List.lookup_cons_self]; rfl

end Jnivm
