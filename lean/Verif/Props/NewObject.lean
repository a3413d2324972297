import Verif.Lemmas.NewObject
import Verif.Props.Hooks
/-! C86: `NewObject` makes an object of the class or leaves an exception pending. -/
namespace Jnivm
open Spec

/-- C86: a constructor of a type bound to the class `n` that does not throw gives a reference to a new object of
class `n`; apart from this object and the local reference to it nothing changes, in particular no exception
becomes pending. -/
theorem new_object {code : Nat → Hook} {vm : Vm} (hr : VmReachable vm) {t : Nat} {e : Env}
    (he : vm.heap.envs t = some e) {cl : Option Nat} {d : Nat} (hd : IsClassRef vm cl d) {id : Nat} {m : MethodRec}
    (hn : Names vm.world id m) {f : Nat} (hf : m.handle = some f) {addr : Nat → BitVec 64} {n : Str}
    {fails : List (BitVec 64) → Option Exn} (hcode : code f = constructor addr t n fails) {k c : Nat}
    (hk : vm.heap.classes.lookup n = some k) (hc : vm.world.IsClass n c) {args : List (BitVec 64)}
    (hok : fails args = none) :
    ∃ vm' i, vm.newObjectA code t cl (some id) args = .returns vm' (addr i) ∧ VmReachable vm' ∧
      MadeObject t vm vm' i c := by
  obtain ⟨vm', i, hrun, hr', hm⟩ := constructor_run hr he hk hc addr hok (.cls (some d))
  refine ⟨vm', i, ?_, hr', hm⟩
  simp only [Vm.newObjectA, Vm.callA, castClass_ref hr hd, Outcome.lift, withMethod_hooked hr hn hf]
  rw [invoke_run hf, invoke_match (by rw [hcode]; rfl) (.inr (.inr ⟨by rw [hcode]; rfl, rfl⟩)), hcode, hrun]
  rfl

/-- C86: a constructor that throws gives null and its exception is pending; no object of the class is made. -/
theorem new_object_throws {code : Nat → Hook} {vm : Vm} (hr : VmReachable vm) {t : Nat} {e : Env}
    (he : vm.heap.envs t = some e) {cl : Option Nat} {d : Nat} (hd : IsClassRef vm cl d) {id : Nat} {m : MethodRec}
    (hn : Names vm.world id m) {f : Nat} (hf : m.handle = some f) {addr : Nat → BitVec 64} {n : Str}
    {fails : List (BitVec 64) → Option Exn} (hcode : code f = constructor addr t n fails) {args : List (BitVec 64)}
    {ex : Exn} (hbad : fails args = some ex) :
    ∃ vm' x o, vm.newObjectA code t cl (some id) args = .returns vm' 0 ∧ vm'.world = vm.world ∧
      vm'.heap.envs t = some { e with pending := some x } ∧ ¬ Live vm.heap x ∧ vm'.heap.objs x = some o ∧
      o.kind = .throwable (some ex) ∧ ∀ u, u ≠ t → vm'.heap.envs u = vm.heap.envs u := by
  have hrun : (code f).run vm (.cls (some d)) args = .raises vm ex := by
    rw [hcode]; simp only [constructor, hbad]
  have key : vm.newObjectA code t cl (some id) args = Vm.catchAll t (.raises vm ex) := by
    simp only [Vm.newObjectA, Vm.callA, castClass_ref hr hd, Outcome.lift, withMethod_hooked hr hn hf]
    rw [invoke_run hf, invoke_match (by rw [hcode]; rfl) (.inr (.inr ⟨by rw [hcode]; rfl, rfl⟩)), hrun]
  have hh := catchAll_handled (t := t) (o := .raises vm ex) (show EndsIn VmReachable (.raises vm ex) from hr)
  rw [← key] at hh
  generalize vm.newObjectA code t cl (some id) args = out at hh
  cases hh with
  | raises hw h0 h1 hlt ho hkind hoth =>
    rw [he] at h0
    cases h0
    refine ⟨_, _, _, rfl, hw, h1, fun ⟨o, ho⟩ => ?_, ho, hkind, hoth⟩
    exact absurd (hr.2.inv.bound _ _ ho) (Nat.not_lt.2 hlt)
  | detached h0 => rw [he] at h0; cases h0

/-- C86: from the hook to the object.  After a constructor was hooked on class `n`, and any later history of the
classes that does not hook it again, looking it up the way JNI says (`<init>`, whatever return type is written) and
calling `NewObject` with the id makes an object of class `n`. -/
theorem new_object_program {w : World} (hw : MemReachable w) {n : Str} {c : Nat} (hc : w.IsClass n c) {args ret : Str}
    (ha : ')' ∉ args) (f : Nat) {ops : List MemOp} {vm : Vm}
    (hops : runMem (w.hookMethod c true "<init>".toList ("(".toList ++ args ++ ")L".toList ++ n ++ ";".toList) f) ops =
      .ok vm.world)
    (hno : ∀ g, .hookMethod c true "<init>".toList ("(".toList ++ args ++ ")L".toList ++ n ++ ";".toList) g ∉ ops)
    (hh : HeapReachable vm.heap) {t : Nat} {e : Env} (he : vm.heap.envs t = some e) {cl : Option Nat}
    (hcl : IsClassRef vm cl c) {k : Nat} (hk : vm.heap.classes.lookup n = some k) {code : Nat → Hook}
    {addr : Nat → BitVec 64} {fails : List (BitVec 64) → Option Exn} (hcode : code f = constructor addr t n fails)
    {vals : List (BitVec 64)} (hok : fails vals = none) :
    ∃ id, (∀ depth rn, vm.world.getMethodID (depth + 1) false rn false (some c) "<init>".toList
        ("(".toList ++ args ++ ")".toList ++ ret) = .ok (vm.world, some id)) ∧
      ∃ vm' i, vm.newObjectA code t cl (some id) vals = .returns vm' (addr i) ∧ VmReachable vm' ∧
        MadeObject t vm vm' i c := by
  obtain ⟨m, hm, hf, hlook⟩ := hook_effective_partial hw hc (fun _ => rfl) (.inl rfl) f hops hno
  have hrun : (MemOp.hookMethod c true "<init>".toList ("(".toList ++ args ++ ")L".toList ++ n ++ ";".toList) f).run w =
    .ok _ := rfl
  have hr1 := hw.step hrun
  have hr2 : MemReachable vm.world := hr1.run hops
  have hc2 := isClass_run hr1.inv hops (isClass_step hw.inv hrun hc)
  refine ⟨m.id, fun depth rn => ?_, ?_⟩
  · rw [constructor_is_static_factory hr2 hc2 (depth + 1) rn false args ret ha]
    exact hlook depth rn
  · exact new_object ⟨hr2, hh⟩ he hcl ⟨n, c, hc2, hm.1, rfl⟩ hf hcode hk hc2 hok

/-- C86: the class of the new object is the one that `GetObjectClass` gives for it. -/
theorem new_object_get_class {t : Nat} {vm vm' : Vm} {i c : Nat} (hr' : VmReachable vm') (hm : MadeObject t vm vm' i c) :
    ∃ vm1, vm'.objectClass t (some i) = .ok (vm1, some c) := by
  obtain ⟨e, f, fs, _, _, he⟩ := hm.frame
  obtain ⟨vm1, _, h⟩ := objectClass_ref hr' he hm.cls
  exact ⟨vm1, h⟩

/-- C86: two calls make two objects; the first one is still there. -/
theorem new_object_distinct {t : Nat} {vm vm1 vm2 : Vm} {i j c d : Nat} (h1 : MadeObject t vm vm1 i c)
    (h2 : MadeObject t vm1 vm2 j d) : i ≠ j ∧ vm2.heap.objs i = vm1.heap.objs i ∧ Live vm2.heap i ∧ Live vm2.heap j := by
  have hl : ∀ {h : Heap} {i}, Denotes h (some i) (some i) → Live h i := fun hd => by
    cases hd with
    | direct ho _ => exact ⟨_, ho⟩
    | global ho _ _ => exact ⟨_, ho⟩
    | weak ho _ _ => exact ⟨_, ho⟩
  have hi := hl h1.self
  have hne : i ≠ j := fun h => h2.fresh (h ▸ hi)
  have ho := h2.old i hne
  exact ⟨hne, ho, by obtain ⟨o, hx⟩ := hi; exact ⟨o, by rw [ho]; exact hx⟩, hl h2.self⟩

/-- C86: the variadic forms read the arguments by the signature of the constructor and do the same. -/
theorem new_object_varargs (d2f : BitVec 64 → BitVec 32) (code : Nat → Hook) {vm : Vm} (hr : VmReachable vm) (t : Nat)
    (cl : Option Nat) {id : Nat} {m : MethodRec} (hn : Names vm.world id m) {params : List Ty} {ret : Option Ty}
    (hs : m.signature = renderSig params ret) (hv : ∀ p ∈ params, p.Valid) {args extra : List CArg}
    {vals : List (BitVec 64)} (hp : Passes d2f params args vals) :
    vm.newObjectV d2f code t cl (some id) (args ++ extra) = vm.newObjectA code t cl (some id) vals :=
  callV_is_callA d2f code hr t .object (.static cl) hn hs hv hp

/-- C86 fails for constructors that are not hooked, and for a null id: the result is null and no exception is
pending. -/
theorem new_object_unhooked (code : Nat → Hook) {vm : Vm} (hr : VmReachable vm) (t : Nat) {cl : Option Nat} {d : Nat}
    (hd : IsClassRef vm cl d) {id : Option Nat} (hid : ∀ i, id = some i → ∃ m, Names vm.world i m ∧ m.handle = none)
    (args : List (BitVec 64)) : vm.newObjectA code t cl id args = .returns vm 0 :=
  call_without_implementation code hr t .object (form := .static cl) (.inr ⟨d, hd⟩) hid args

/-- C86: `AllocObject` gives null for every class, without an exception. -/
theorem alloc_object_null (vm : Vm) (cl : Option Nat) : vm.allocObject cl = .returns vm 0 := rfl

/-! ### Samples and witnesses -/

def ctorCode (addr : Nat → BitVec 64) (fails : List (BitVec 64) → Option Exn) (_ : Nat) : Hook :=
  constructor addr 0 "A".toList fails

/-- Classes "A" and "B" (references 9 and 11) with the constructor `(I)` of "A" hooked as function 8 after "A" was
made. -/
theorem ctor_sample : ∃ w vm a b m, MemReachable w ∧ w.IsClass "A".toList a ∧
    runMem (w.hookMethod a true "<init>".toList ("(".toList ++ "I".toList ++ ")L".toList ++ "A".toList ++ ";".toList) 8)
      [] = .ok vm.world ∧ VmReachable vm ∧ (∃ e, vm.heap.envs 0 = some e ∧ e.pending = none) ∧
    IsClassRef vm (some 9) a ∧ IsClassRef vm (some 11) b ∧ a ≠ b ∧ vm.world.IsClass "A".toList a ∧
    vm.heap.classes.lookup "A".toList = some 9 ∧ Names vm.world m.id m ∧ m.handle = some 8 ∧
    m.signature = renderSig [.prim .int] (some (.cls "A".toList)) := by
  obtain ⟨w, a, b, c, hr, ha, hb, hc, hab, hac, hbc, ba, bb, bc, hm⟩ := sample_chain
  obtain ⟨h, _, hh, hp⟩ := reachable_of (ops := sampleHeapOps)
    (p := fun h => (h.envs 0).any (fun e => e.pending == none) && h.objs 9 == some ⟨.cls "A".toList, some 1⟩ &&
      h.objs 11 == some ⟨.cls "B".toList, some 1⟩ && h.classes.lookup "A".toList == some 9) (by decide +kernel)
  simp only [Bool.and_eq_true, beq_iff_eq] at hp
  obtain ⟨⟨⟨p0, p9⟩, p11⟩, pl⟩ := hp
  obtain ⟨e, he, hpe⟩ := Option.any_eq_true _ _ |>.1 p0
  have hs : (MemOp.hookMethod a true "<init>".toList "(I)LA;".toList 8).run w =
    .ok (w.hookMethod a true "<init>".toList "(I)LA;".toList 8) := rfl
  have hf : (w.mem a).methods.find? (hookHits true "<init>".toList "(I)LA;".toList) = none := by
    simp [hm a]
  have ka := isClass_step hr.inv hs ha
  have kb := isClass_step hr.inv hs hb
  refine ⟨w, ⟨w.hookMethod a true "<init>".toList "(I)LA;".toList 8, h⟩, a, b,
    ⟨w.next, "<init>".toList, "(I)LA;".toList, true, none, some 8⟩, hr, ha, rfl, ⟨hr.step hs, hh⟩,
    ⟨e, he, by simpa using hpe⟩, ⟨9, _, _, .direct p9 (by simp), p9, rfl, ka⟩,
    ⟨11, _, _, .direct p11 (by simp), p11, rfl, kb⟩, hab, ka, pl, ⟨_, a, ka, ?_, rfl⟩, rfl, rfl⟩
  simp only [hookMethod_new hf]
  simp

/-- Sample for `new_object`, `new_object_throws`, `new_object_get_class` and `new_object_distinct`: a constructor that
throws for zero, called with five and with zero, and twice. -/
example (addr : Nat → BitVec 64) : ∃ vm cl d id m k c, VmReachable vm ∧ (∃ e, vm.heap.envs 0 = some e) ∧
    IsClassRef vm cl d ∧ Names vm.world id m ∧ m.handle = some 8 ∧ vm.heap.classes.lookup "A".toList = some k ∧
    vm.world.IsClass "A".toList c ∧
    ctorCode addr (fun l => if l = [0] then some (.user 3) else none) 8 = constructor addr 0 "A".toList
      (fun l => if l = [0] then some (.user 3) else none) ∧
    (fun l : List (BitVec 64) => if l = [0] then some (Exn.user 3) else none) [5] = none ∧
    (fun l : List (BitVec 64) => if l = [0] then some (Exn.user 3) else none) [0] = some (.user 3) ∧
    ∃ vm1 vm2 i j, MadeObject 0 vm vm1 i c ∧ VmReachable vm1 ∧ MadeObject 0 vm1 vm2 j c := by
  obtain ⟨w, vm, a, b, m, _, _, _, hr, ⟨e, he, _⟩, rA, _, _, hA, hl, hn, hf, _⟩ := ctor_sample
  obtain ⟨vm1, i, _, hr1, hm⟩ := new_object (code := ctorCode addr fun _ => none) hr he rA hn hf rfl hl hA
    (args := [5]) rfl
  have hA1 : vm1.world.IsClass "A".toList a := by rw [hm.world]; exact hA
  obtain ⟨e1, f, fs, _, _, he1⟩ := hm.frame
  have hl1 : vm1.heap.classes.lookup "A".toList = some 9 := by rw [hm.classes]; exact hl
  obtain ⟨vm2, j, _, _, hm2⟩ := constructor_run hr1 he1 hl1 hA1 addr (fails := fun _ => none) (args := [5]) rfl (.cls none)
  exact ⟨vm, _, a, m.id, m, 9, a, hr, ⟨e, he⟩, rA, hn, hf, hl, hA, rfl, rfl, rfl, vm1, vm2, i, j, hm, hr1, hm2⟩

/-- Sample for `new_object_program`. -/
example (addr : Nat → BitVec 64) : ∃ w c vm cl k, MemReachable w ∧ w.IsClass "A".toList c ∧ ')' ∉ "I".toList ∧
    runMem (w.hookMethod c true "<init>".toList ("(".toList ++ "I".toList ++ ")L".toList ++ "A".toList ++ ";".toList) 8)
      [] = .ok vm.world ∧ HeapReachable vm.heap ∧ (∃ e, vm.heap.envs 0 = some e) ∧ IsClassRef vm cl c ∧
    vm.heap.classes.lookup "A".toList = some k ∧
    ctorCode addr (fun _ => none) 8 = constructor addr 0 "A".toList fun _ => none := by
  obtain ⟨w, vm, a, b, m, hw, hwa, hrun, hr, ⟨e, he, _⟩, rA, _, _, hA, hl, hn, hf, _⟩ := ctor_sample
  exact ⟨w, a, vm, _, 9, hw, hwa, by decide, hrun, hr.2, ⟨e, he⟩, rA, hl, rfl⟩

/-- Sample for `new_object_varargs`. -/
example (d2f : BitVec 64 → BitVec 32) : ∃ vm id m, VmReachable vm ∧ Names vm.world id m ∧
    m.signature = renderSig [.prim .int] (some (.cls "A".toList)) ∧ (∀ p ∈ [Ty.prim .int], p.Valid) ∧
    Passes d2f [.prim .int] [.int 5] [5] := by
  obtain ⟨w, vm, a, b, m, _, _, _, hr, _, _, _, _, _, _, hn, _, hs⟩ := ctor_sample
  exact ⟨vm, _, m, hr, hn, hs, by simp [Ty.Valid], .cons rfl .nil⟩

/-- Sample for `new_object_unhooked`. -/
example : ∃ vm cl d id m, VmReachable vm ∧ IsClassRef vm cl d ∧ Names vm.world id m ∧ m.handle = none := by
  obtain ⟨vm, a, b, c, q, m, m', s, q', f, g, S⟩ := sample_vm
  exact ⟨vm, some 9, a, q, ⟨q, "q".toList, "()V".toList, false, none, none⟩, S.reach, S.clsA,
    ⟨_, a, S.isA, by simp [S.methodsA], rfl⟩, rfl⟩

/-- C86 fails for a constructor of another class: `NewObject` on class "B" with the constructor of "A" makes an "A". -/
theorem new_object_other_class (addr : Nat → BitVec 64) : ∃ code vm cl b id vm' i a, VmReachable vm ∧
    IsClassRef vm cl b ∧ vm.newObjectA code 0 cl (some id) [5] = .returns vm' (addr i) ∧ MadeObject 0 vm vm' i a ∧
    a ≠ b := by
  obtain ⟨w, vm, a, b, m, _, _, _, hr, ⟨e, he, _⟩, _, rB, hab, hA, hl, hn, hf, _⟩ := ctor_sample
  obtain ⟨vm1, i, hx, _, hm⟩ := new_object (code := ctorCode addr fun _ => none) hr he rB hn hf rfl hl hA
    (args := [5]) rfl
  exact ⟨_, vm, _, b, m.id, vm1, i, a, hr, rB, hx, hm, hab⟩

end Jnivm
