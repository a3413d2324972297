import Verif.Spec.Proxy
import Verif.Props.Calls
/-! Lemmas for `Props/Proxy`. -/
namespace Jnivm
open Spec

theorem toJValue_mod (ty : JType) (v : BitVec 64) :
    ty.toJValue v = BitVec.ofNat 64 (v.toNat % 2 ^ bits ty) := by
  apply BitVec.eq_of_toNat_eq
  have hv := v.isLt
  cases ty <;> simp [JType.toJValue, bits] <;> omega

theorem retJType_eq (ret : Option Ty) : (retKind ret).jtype = retJType ret := by
  match ret with
  | none => rfl
  | some (.prim p) => cases p <;> rfl
  | some (.cls _) => rfl
  | some (.arr _) => rfl

theorem rethrow_shown {t : Nat} {ty : JType} {o : Outcome Vm (BitVec 64)} (ho : EndsIn VmReachable o) :
    Shown t ty o (o.andThen fun vm v => vm.rethrow t (ty.toJValue v)) := by
  cases o with
  | raises vm e => exact .raises
  | ub u => exact .ub
  | aborts => exact .aborts
  | diverges => exact .diverges
  | returns vm v =>
    simp only [Outcome.andThen, Vm.rethrow]
    cases he : vm.heap.envs t with
    | none => exact .detached he
    | some env =>
      cases hp : env.pending with
      | none => simp only [hp]; rw [toJValue_mod]; exact .returns he hp
      | some x =>
        obtain ⟨⟨k, c⟩, p, hx, hk⟩ := ho.2.pending t env x he hp
        simp only at hk
        subst hk
        cases p with
        | none => simp only [hp, hx]; exact .empty he hp hx rfl
        | some p => simp only [hp, hx]; exact .pending he hp hx rfl

theorem handled_endsIn {t : Nat} {o o' : Outcome Vm (BitVec 64)} (hr : EndsIn VmReachable o)
    (h : o' = Vm.catchAll t o) : EndsIn VmReachable o' := by
  subst h
  cases o with
  | raises vm e =>
    cases he : vm.heap.envs t with
    | none =>
      have : (HeapOp.raise e).run vm.heap t = .ub .dangling := by
        simp [HeapOp.run, HeapOp.exec, HeapOp.needsEnv, he, Res.bind]
      simp only [Vm.catchAll, this, Outcome.lift]
      trivial
    | some env =>
      obtain ⟨h', o, hx, _⟩ := raise_run hr.2 he e
      simp only [Vm.catchAll, hx, Outcome.lift]
      exact ⟨hr.1, hr.2.step hx⟩
  | _ => exact hr

theorem afterRef_iff {t : Nat} {target : Recipient} {vm vm' : Vm} : AfterRef t target vm vm' ↔
    vm'.world = vm.world ∧ (HeapOp.returnObject (some target.ref) (some target.type)).run vm.heap t =
      .ok (vm'.heap, .ref (some target.ref)) := by
  cases target <;> rfl

/-- Making a local reference keeps the receiver, the classes and the pending exception. -/
theorem asRef_run {vm : Vm} (hr : VmReachable vm) {t : Nat} {e : Env} (he : vm.heap.envs t = some e)
    {target : Recipient} (hi : IsObject vm target.ref) :
    ∃ vm1, AfterRef t target vm vm1 ∧ VmReachable vm1 ∧
      (∃ e1, vm1.heap.envs t = some e1 ∧ e1.pending = e.pending) ∧
      ∀ j o, vm.heap.objs j = some o → j = target.ref ∨ j ∈ vm.heap.pinned →
        ∃ o1, vm1.heap.objs j = some o1 ∧ o.kind.Same o1.kind ∧ ∀ c, o.cls = some c → o1.cls = some c := by
  obtain ⟨o, ho, hk⟩ := hi
  have hp := hr.2.inv.toPre
  have hd : vm.heap.denote (some target.ref) = .ok (some target.ref) :=
    (Heap.denote_iff hp).2 (.direct ho hk)
  obtain ⟨h1, hx⟩ := Heap.toJNI?_exists hp (s := (some target.type).bind vm.heap.typeClass) he
    (i := some target.ref) (fun j hj => by cases hj; exact ⟨o, ho⟩)
    (fun c hc => hp.typeClass (n := target.type) hc)
  have hb : (HeapOp.returnObject (some target.ref) (some target.type)).exec vm.heap t =
      .ok (h1, .ref (some target.ref)) := by
    rw [Heap.exec_of_body he]
    simp only [HeapOp.body, outRef, Heap.returnObject, hd, Res.bind_ok, hx]
  have hrun : (HeapOp.returnObject (some target.ref) (some target.type)).run vm.heap t =
      .ok (h1.collect, .ref (some target.ref)) := by
    rw [HeapOp.run, hb]; rfl
  have s := Heap.step_exec hp hb
  have hpend := pending_unchanged hr.2 he (ops := [(t, .returnObject (some target.ref) (some target.type))])
    (h' := h1.collect) (by intro op hop; simp at hop; subst hop; simp [TouchesPending])
    (by simp only [runHeap, hrun, Res.bind_ok])
  obtain ⟨e1, he1, hp1, _⟩ := hpend
  refine ⟨⟨vm.world, h1.collect⟩, afterRef_iff.2 ⟨rfl, hrun⟩, ⟨hr.1, hr.2.step hrun⟩, ⟨e1, he1, hp1⟩, ?_⟩
  intro j oj hoj hj
  obtain ⟨o1, ho1, h2, h3⟩ := s.live j oj hoj
  refine ⟨o1, Heap.collect_keep s.pre.bound (.root (Heap.mem_roots.2 ?_)) ho1, h2, h3⟩
  rcases hj with rfl | hj
  · right; right
    have hpush := Heap.pushed_returnObject (h := vm.heap) (h' := h1) (t := t) (o := some target.ref)
      (r := some target.ref) (ty := some target.type)
      (by simp only [Heap.returnObject, hd, Res.bind_ok, hx])
    have h4 := hpush.2.env e he
    refine ⟨t, _, s.pre.thread t _ h4, h4, .inl ?_⟩
    have := hp.frames t e he
    cases hf : e.frames with
    | nil => exact absurd hf this
    | cons f fs => exact ⟨f ++ [target.ref], by simp [Heap.addFront], by simp⟩
  · exact .inr (.inl (s.pinned.subset hj))

end Jnivm
