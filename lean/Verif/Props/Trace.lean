import Verif.Lemmas.Trace
/-! C85: the build that traces every call. -/
namespace Jnivm
open Spec

/-- C85. Static calls are the same in both builds whether or not there is an implementation. -/
theorem trace_static (what : Exn → Option Str) {code : Nat → Hook} (hb : WellBehaved code) {vm : Vm}
    (hr : VmReachable vm) (t : Nat) (ty : JType) (cl id : Option Nat) (args : List (BitVec 64)) :
    vm.callAT what code t ty (.static cl) id args = vm.callA code t ty (.static cl) id args :=
  lift_congr fun p hp => withMethodT_quiet p.1 id fun _ => invokeT_eq what hb (castClass_vm hr hp) ..

/-- C85. A call of a method that has an implementation, in any of the three forms and with any arguments, has
the same outcome in both builds: the same result, the same exception pending and the same state. -/
theorem trace_call (what : Exn → Option Str) {code : Nat → Hook} (hb : WellBehaved code) {vm : Vm}
    (hr : VmReachable vm) (t : Nat) (ty : JType) (form : Form) {id : Nat} {m : MethodRec}
    (hn : Names vm.world id m) (hm : m.handle ≠ none) (args : List (BitVec 64)) :
    vm.callAT what code t ty form (some id) args = vm.callA code t ty form (some id) args := by
  have hs : m.handle.isSome = true := by
    cases h : m.handle with
    | none => exact absurd h hm
    | some f => rfl
  have hmeth := method?_names hr.1 hn
  cases form with
  | virtual obj =>
    simp only [Vm.callAT, Vm.callA, Vm.withMethodT, Vm.withMethod, hmeth, hs, if_true]
    exact lift_congr fun a ha => invokeT_eq what hb (objectClass_vm hr ha) ..
  | nonVirtual obj cl =>
    simp only [Vm.callAT, Vm.callA, Vm.withMethodT, Vm.withMethod, hmeth, hs, if_true]
    exact lift_congr fun a ha => invokeT_eq what hb (castClass_vm hr ha) ..
  | static cl => exact trace_static what hb hr ..

/-- C85. A virtual call of a method without implementation gives zero in both builds.  The traced one has asked
for the class of the object. -/
theorem trace_unknown_virtual_partial (what : Exn → Option Str) (code : Nat → Hook) {vm : Vm} (hr : VmReachable vm)
    {t : Nat} {e : Env} (he : vm.heap.envs t = some e) (ty : JType) {obj : Option Nat} (hobj : Printable vm obj)
    {id : Option Nat} (hid : ∀ i, id = some i → ∃ m, Names vm.world i m ∧ m.handle = none)
    (args : List (BitVec 64)) :
    vm.callA code t ty (.virtual obj) id args = .returns vm 0 ∧
      ∃ vm1, AfterGetClass t obj vm vm1 ∧ vm.callAT what code t ty (.virtual obj) id args = .returns vm1 0 := by
  refine ⟨call_without_implementation code hr t ty (form := .virtual obj) trivial hid args, ?_⟩
  obtain ⟨vm1, h1, h2⟩ := traceObject_printable hr he hobj
  refine ⟨vm1, h1, ?_⟩
  simp only [Vm.callAT, Vm.withMethodT]
  cases id with
  | none => simp only [h2, Outcome.lift]
  | some i =>
    obtain ⟨m, hn, hm⟩ := hid i rfl
    simp only [method?_names hr.1 hn, hm, h2, Outcome.lift]
    rfl

/-- C85. A non-virtual call of a method without implementation is the same in both builds if the class argument
is a class or null. -/
theorem trace_unknown_nonvirtual_partial (what : Exn → Option Str) (code : Nat → Hook) {vm : Vm}
    (hr : VmReachable vm) (t : Nat) (ty : JType) (obj : Option Nat) {cl : Option Nat}
    (hcl : PrintableOwner vm (.cls cl)) {id : Option Nat}
    (hid : ∀ i, id = some i → ∃ m, Names vm.world i m ∧ m.handle = none) (args : List (BitVec 64)) :
    vm.callAT what code t ty (.nonVirtual obj cl) id args = vm.callA code t ty (.nonVirtual obj cl) id args := by
  rw [call_without_implementation code hr t ty (form := .nonVirtual obj cl) hcl hid args]
  have h2 : vm.traceClass cl = .ok vm := by
    rcases hcl with rfl | ⟨k, hk⟩
    · rfl
    · simp only [Vm.traceClass, castClass_ref hr hk, Res.bind_ok]
  simp only [Vm.callAT, Vm.withMethodT]
  cases id with
  | none => simp only [h2, Outcome.lift]
  | some i =>
    obtain ⟨m, hn, hm⟩ := hid i rfl
    simp only [method?_names hr.1 hn, hm, h2, Outcome.lift]
    rfl

/-- C85. The forms with a variable number of arguments differ in nothing else: where the traced call with an
array of arguments is the untraced one, so are they. -/
theorem trace_varargs (d2f : BitVec 64 → BitVec 32) (what : Exn → Option Str) (code : Nat → Hook) (vm : Vm) (t : Nat)
    (ty : JType) (form : Form) (id : Option Nat) (va : List CArg)
    (h : ∀ args, id ≠ none → vm.callAT what code t ty form id args = vm.callA code t ty form id args) :
    vm.callVT d2f what code t ty form id va = vm.callV d2f code t ty form id va := by
  cases id with
  | none => rfl
  | some i =>
    simp only [Vm.callVT, Vm.callV]
    cases vm.world.method? i with
    | none => rfl
    | some m => exact lift_congr fun a _ => h _ (by simp)

/-- C85. Reading a field in the traced build is reading it after the class of the owner was asked for, whether
there is a getter or not, and whatever the getter does. -/
theorem trace_get_partial (code : Nat → Hook) {vm : Vm} (hr : VmReachable vm) {t : Nat} {e : Env}
    (he : vm.heap.envs t = some e) (ty : JType) {owner : Owner} (ho : PrintableOwner vm owner) (id : Option Nat) :
    ∃ vm1, Printed t vm vm1 owner ∧ vm.getFieldT code t ty owner id = vm1.getField code ty owner id := by
  obtain ⟨vm1, h1, h2⟩ := traceOwner_printable hr he ho
  refine ⟨vm1, h1, ?_⟩
  simp only [Vm.getFieldT, Vm.getField, printed_world h1, h2, Outcome.lift]
  cases id with
  | none => rfl
  | some i =>
    dsimp only
    cases vm.world.field? i with
    | none => rfl
    | some f => dsimp only; cases f.getter <;> rfl

/-- C85. Likewise for writing a field, if the id is null or denotes a field. -/
theorem trace_set_partial (code : Nat → Hook) {vm : Vm} (hr : VmReachable vm) {t : Nat} {e : Env}
    (he : vm.heap.envs t = some e) (ty : JType) {owner : Owner} (ho : PrintableOwner vm owner) {id : Option Nat}
    (hid : ∀ i, id = some i → ∃ f, NamesField vm.world i f) (value : BitVec 64) :
    ∃ vm1, Printed t vm vm1 owner ∧ vm.setFieldT code t ty owner id value = vm1.setField code ty owner id value := by
  obtain ⟨vm1, h1, h2⟩ := traceOwner_printable hr he ho
  refine ⟨vm1, h1, ?_⟩
  cases id with
  | none => simp only [Vm.setFieldT, Vm.setField, h2, Outcome.lift, ite_self]
  | some i =>
    obtain ⟨f, hf⟩ := hid i rfl
    simp only [Vm.setFieldT, Vm.setField, printed_world h1, h2, Outcome.lift, field?_names hr.1 hf]
    cases f.setter with
    | none => simp only [ite_self]
    | some s => rfl

/-- C85. What asking for the class of an object leaves behind: one more local reference to the class, none if the
object has no class.  Nothing else changes. -/
theorem trace_leaves {vm vm' : Vm} (hr : VmReachable vm) {t : Nat} {obj : Option Nat} {i : Nat} {o : Obj}
    (h : Printed t vm vm' (.obj obj)) (hd : Denotes vm.heap obj (some i)) (ho : vm.heap.objs i = some o) :
    vm'.world = vm.world ∧ OnlyLocals t o.cls.toList vm.heap vm'.heap :=
  ⟨h.1, afterGetClass_onlyLocals hr h hd ho⟩

/-- C85. The traced calls and accesses leave the VM in a state that an untraced one can be in: everything proved
of reachable states holds in the traced build. -/
theorem trace_reachable (what : Exn → Option Str) {code : Nat → Hook} (hb : WellBehaved code) {vm : Vm}
    (hr : VmReachable vm) (t : Nat) (ty : JType) (id : Option Nat) :
    (∀ form args, EndsIn VmReachable (vm.callAT what code t ty form id args)) ∧
    (∀ owner, EndsIn VmReachable (vm.getFieldT code t ty owner id)) ∧
    (∀ owner value, EndsIn VmReachable (vm.setFieldT code t ty owner id value)) := by
  have known : ∀ (v : Vm), VmReachable v → ∀ owner g s args, EndsIn VmReachable
      (Outcome.lift v (v.traceOwner t owner) fun v =>
        Outcome.lift v (v.ownerSelf owner) fun (v, self) => (code g).access s ty v self args) :=
    fun v hv owner g s args => lift_endsIn hv fun v1 h1 =>
      lift_endsIn (traceOwner_vm hv h1) fun p hp => access_endsIn hb (ownerSelf_vm (traceOwner_vm hv h1) hp) ..
  have unknown : ∀ owner, EndsIn VmReachable
      (Outcome.lift vm (vm.traceOwner t owner) fun vm => (.returns vm 0 : Outcome Vm (BitVec 64))) :=
    fun owner => lift_endsIn hr fun v hv => traceOwner_vm hr hv
  refine ⟨fun form args => ?_, fun owner => ?_, fun owner value => ?_⟩
  · cases form with
    | virtual obj =>
      refine withMethodT_endsIn hr (fun v hv => traceOwner_vm (owner := .obj obj) hr hv) fun m => ?_
      refine lift_endsIn hr fun p hp => ?_
      dsimp only
      rw [invokeT_eq what hb (objectClass_vm hr hp)]
      exact invoke_endsIn hb (objectClass_vm hr hp) ..
    | nonVirtual obj cl =>
      refine withMethodT_endsIn hr (fun v hv => traceOwner_vm (t := t) (owner := .cls cl) hr hv) fun m => ?_
      refine lift_endsIn hr fun p hp => ?_
      dsimp only
      rw [invokeT_eq what hb (castClass_vm hr hp)]
      exact invoke_endsIn hb (castClass_vm hr hp) ..
    | static cl =>
      refine lift_endsIn hr fun p hp => ?_
      have hp' := castClass_vm hr hp
      refine withMethodT_endsIn hp' (fun v hv => by cases hv; exact hp') fun m => ?_
      rw [invokeT_eq what hb hp']
      exact invoke_endsIn hb hp' ..
  · unfold Vm.getFieldT
    split
    · exact unknown owner
    · split
      · trivial
      · split
        · exact unknown owner
        · split
          · exact known vm hr ..
          · trivial
  · unfold Vm.setFieldT
    split
    · exact unknown owner
    · split
      · trivial
      · split
        · exact unknown owner
        · split
          · exact unknown owner
          · split
            · exact known vm hr ..
            · trivial

/-- C85. Looking up a method of a class is the same in both builds. -/
theorem trace_lookup (depth : Nat) (st rn an : Bool) (w : World) (c : Nat) (name sig : Str) :
    w.getMethodIDT depth st rn an (some c) name sig = w.getMethodID depth st rn an (some c) name sig := rfl

/-! ## Samples -/

/-- Sample for all of the above: an object of class "C" with a method that has an implementation and one that has
none, an object without class, a class, and a field with getter and setter. -/
example : ∃ vm id m id' m' c k i o f fld, VmReachable vm ∧ WellBehaved sampleCode ∧ (∃ e, vm.heap.envs 0 = some e) ∧
    Names vm.world id m ∧ m.handle ≠ none ∧ Names vm.world id' m' ∧ m'.handle = none ∧
    Printable vm (some 14) ∧ ClassIs vm (some 14) c ∧ Printable vm (some 15) ∧ Denotes vm.heap (some 15) (some i) ∧
    vm.heap.objs i = some o ∧ PrintableOwner vm (.cls (some 9)) ∧ IsClassRef vm (some 9) k ∧
    NamesField vm.world f fld ∧ fld.getter ≠ none ∧ fld.setter ≠ none := by
  obtain ⟨vm, a, b, c, q, m, m', s, q', f, g, S⟩ := sample_vm
  obtain ⟨e, he, -⟩ := S.env
  have hd : Denotes vm.heap (some 15) (some 15) := .direct S.objN (by simp)
  exact ⟨vm, m, _, q, _, c, a, 15, _, f, _, S.reach, sampleCode_behaved, ⟨e, he⟩, S.namesA, by simp,
    ⟨_, a, S.isA, by rw [S.methodsA]; exact List.mem_cons_self .., rfl⟩, rfl, .inl ⟨c, S.objC⟩, S.objC,
    .inr ⟨15, _, hd, S.objN, rfl⟩, hd, S.objN, .inr ⟨a, S.clsA⟩, S.clsA,
    ⟨_, a, S.isA, by rw [S.fieldsA]; exact List.mem_cons_self .., rfl⟩, by simp, by simp⟩

/-! ## Where the builds differ -/

/-- C85 fails: calling a method without implementation on an object leaves a local reference to its class in the
traced build, reading or writing a field does so as well, with or without accessor. -/
theorem trace_adds_locals : ∃ vm obj id fid e, VmReachable vm ∧ vm.heap.envs 0 = some e ∧
    ∀ what ty, ∃ vm1 e1 k,
      vm.callA sampleCode 0 ty (.virtual obj) (some id) [] = .returns vm 0 ∧
      vm.callAT what sampleCode 0 ty (.virtual obj) (some id) [] = .returns vm1 0 ∧
      vm.getField sampleCode .int (.obj obj) (some fid) = .returns vm 4 ∧
      vm.getFieldT sampleCode 0 .int (.obj obj) (some fid) = .returns vm1 4 ∧
      vm.setField sampleCode .int (.obj obj) (some fid) 1 = .returns vm 5 ∧
      vm.setFieldT sampleCode 0 .int (.obj obj) (some fid) 1 = .returns vm1 5 ∧
      vm1.heap.envs 0 = some e1 ∧ e1.frames.flatten.count k = e.frames.flatten.count k + 1 := by
  obtain ⟨vm, a, b, c, q, m, m', s, q', f, g, S⟩ := sample_vm
  obtain ⟨e, he, -⟩ := S.env
  refine ⟨vm, some 10, q, f, e, S.reach, he, fun what ty => ?_⟩
  have hp : Printable vm (some 10) := .inl ⟨a, S.objA⟩
  have hq : Names vm.world q ⟨q, "q".toList, "()V".toList, false, none, none⟩ :=
    ⟨_, a, S.isA, by rw [S.methodsA]; exact List.mem_cons_self .., rfl⟩
  have hf : NamesField vm.world f ⟨f, "f".toList, "I".toList, false, some 4, some 5⟩ :=
    ⟨_, a, S.isA, by rw [S.fieldsA]; exact List.mem_cons_self .., rfl⟩
  obtain ⟨vm1, h1, h2⟩ := traceObject_printable S.reach he hp
  have hd : Denotes vm.heap (some 10) (some 10) := .direct S.objA' (by simp)
  obtain ⟨fr, fs, hfr, he1⟩ := (afterGetClass_onlyLocals S.reach h1 hd S.objA').frames e he
  have hff := field?_names S.reach.1 hf
  refine ⟨vm1, _, 9, ?_, ?_, ?_, ?_, ?_, ?_, he1, ?_⟩
  · exact call_without_implementation sampleCode S.reach 0 ty (form := .virtual (some 10)) trivial
      (fun i hi => by cases hi; exact ⟨_, hq, rfl⟩) []
  · simp only [Vm.callAT, Vm.withMethodT, method?_names S.reach.1 hq, h2, Outcome.lift]
    rfl
  · simp only [Vm.getField, hff, Vm.ownerSelf, Owner.isClass, Outcome.lift, if_true]
    rfl
  · simp only [Vm.getFieldT, hff, Vm.traceOwner, h2, Vm.ownerSelf, Owner.isClass, Outcome.lift, if_true]
    rfl
  · simp only [Vm.setField, hff, Vm.ownerSelf, Owner.isClass, Owner.isNull, Outcome.lift, if_true]
    rfl
  · simp only [Vm.setFieldT, hff, Vm.traceOwner, h2, Vm.ownerSelf, Owner.isClass, Owner.isNull, Outcome.lift, if_true]
    rfl
  · rw [hfr]
    simp only [List.flatten_cons, List.count_append, Option.toList]
    simp
    omega

/-- C85 fails: a call or access with a null object and a null id makes a class "Invalid" in the traced build. -/
theorem trace_null_makes_class (what : Exn → Option Str) (code : Nat → Hook) (vm : Vm) (t : Nat) (ty : JType)
    (args : List (BitVec 64)) (value : BitVec 64) (vm' : Vm) (r : BitVec 64)
    (h : vm.callAT what code t ty (.virtual none) none args = .returns vm' r ∨
      vm.getFieldT code t ty (.obj none) none = .returns vm' r ∨
      vm.setFieldT code t ty (.obj none) none value = .returns vm' r) :
    (vm'.heap.classes.lookup "Invalid".toList).isSome ∧
      vm.callA code t ty (.virtual none) none args = .returns vm 0 ∧
      vm.getField code ty (.obj none) none = .returns vm 0 ∧
      vm.setField code ty (.obj none) none value = .returns vm 0 := by
  refine ⟨?_, rfl, rfl, rfl⟩
  have h : Outcome.lift vm (vm.traceObject t none) (fun vm => (.returns vm 0 : Outcome Vm (BitVec 64))) =
      .returns vm' r := by
    rcases h with h | h | h <;> exact h
  cases hx : vm.traceObject t none with
  | ok v =>
    rw [hx] at h
    cases h
    exact traceObject_null hx
  | throws e => rw [hx] at h; cases h
  | ub u => rw [hx] at h; cases h
  | diverges => rw [hx] at h; cases h

/-- Such a call, in a VM without that class. -/
example : ∃ vm vm' : Vm, VmReachable vm ∧ vm.heap.classes.lookup "Invalid".toList = none ∧
    vm.callAT (fun _ => none) sampleCode 0 .void (.virtual none) none [] = .returns vm' 0 := by
  obtain ⟨h, _, hr, hp⟩ := reachable_of (ops := [(0, .newObject none)])
    (p := fun h => h.classes.lookup "Invalid".toList == none &&
      (match (HeapOp.getObjectClass none).run h 0 with
        | .ok (h, .ref (some c)) => (h.objs c).any fun o => o.kind == .cls "Invalid".toList
        | _ => false)) (by decide +kernel)
  simp only [Bool.and_eq_true, beq_iff_eq] at hp
  obtain ⟨hp1, hp2⟩ := hp
  obtain ⟨vm, a, b, c, q, m, m', s, q', f, g, S⟩ := sample_vm
  split at hp2
  · rename_i h1 k hx
    obtain ⟨o, ho, hk⟩ := Option.any_eq_true _ _ |>.1 hp2
    have hk : o.kind = .cls "Invalid".toList := by simpa using hk
    have : ∃ v, (Vm.mk vm.world h).traceObject 0 none = .ok v :=
      ⟨_, by simp only [Vm.traceObject, Vm.objectClass, hx, Res.bind_ok, Vm.classOf, ho, hk]; rfl⟩
    obtain ⟨v, hv⟩ := this
    exact ⟨⟨vm.world, h⟩, v, ⟨S.reach.1, hr⟩, hp1, by simp only [Vm.callAT, Vm.withMethodT, hv, Outcome.lift]⟩
  · cases hp2

/-- C85 fails: where the untraced call of a method without implementation, or the access of a field without
accessor, gives zero for a reference to nothing, the traced one dereferences it. -/
theorem trace_cleared (what : Exn → Option Str) (code : Nat → Hook) {vm : Vm} (hr : VmReachable vm) {t : Nat}
    {e : Env} (he : vm.heap.envs t = some e) (ty : JType) {r : Nat} (hd : Denotes vm.heap (some r) none)
    (args : List (BitVec 64)) (value : BitVec 64) :
    vm.callA code t ty (.virtual (some r)) none args = .returns vm 0 ∧
    vm.callAT what code t ty (.virtual (some r)) none args = .ub .nullDeref ∧
    vm.getField code ty (.obj (some r)) none = .returns vm 0 ∧
    vm.getFieldT code t ty (.obj (some r)) none = .ub .nullDeref ∧
    vm.setField code ty (.obj (some r)) none value = .returns vm 0 ∧
    vm.setFieldT code t ty (.obj (some r)) none value = .ub .nullDeref := by
  have hx : (HeapOp.getObjectClass (some r)).run vm.heap t = .ub .nullDeref := by
    rw [HeapOp.run, Heap.exec_of_body he]
    simp only [HeapOp.body, outRef, Heap.getObjectClass, (Heap.denote_iff hr.2.inv.toPre).2 hd, Res.bind_ok]
    rfl
  have h2 : vm.traceObject t (some r) = .ub .nullDeref := by
    simp only [Vm.traceObject, Vm.objectClass, hx]
    rfl
  refine ⟨rfl, ?_, rfl, ?_, rfl, ?_⟩
  · simp only [Vm.callAT, Vm.withMethodT, h2, Outcome.lift]
  · simp only [Vm.getFieldT, Vm.traceOwner, h2, Outcome.lift]
  · simp only [Vm.setFieldT, Vm.traceOwner, h2, Outcome.lift]

/-- A weak reference to an object that is gone. -/
example : ∃ (vm : Vm) (e : Env) (r : Nat), VmReachable vm ∧ vm.heap.envs 0 = some e ∧ Denotes vm.heap (some r) none := by
  obtain ⟨h, _, hr, hp⟩ := reachable_of
    (ops := [(0, .newObject none), (0, .newWeakGlobalRef (some 9)), (0, .deleteLocalRef (some 9))])
    (p := fun h => (h.envs 0).isSome && (h.objs 9).isNone && (h.objs 10).any fun o => o.kind == .weak 9)
    (by decide +kernel)
  simp only [Bool.and_eq_true] at hp
  obtain ⟨⟨p0, p1⟩, p2⟩ := hp
  obtain ⟨vm, a, b, c, q, m, m', s, q', f, g, S⟩ := sample_vm
  obtain ⟨e, he⟩ := Option.isSome_iff_exists.1 p0
  obtain ⟨o, ho, hk⟩ := Option.any_eq_true _ _ |>.1 p2
  have hk : o.kind = .weak 9 := by simpa using hk
  refine ⟨⟨vm.world, h⟩, e, 10, ⟨S.reach.1, hr⟩, he, .cleared ho hk fun ⟨o9, h9⟩ => ?_⟩
  rw [show h.objs 9 = some o9 from h9] at p1
  cases p1

/-- C85 fails: an exception escapes from the traced build if the class argument is no class, where the untraced
non-virtual call of a method without implementation, or access of a static field without accessor, gives zero. -/
theorem trace_bad_class (what : Exn → Option Str) (code : Nat → Hook) {vm : Vm} (hr : VmReachable vm) (t : Nat)
    (ty : JType) (obj : Option Nat) {cl : Option Nat} {i : Nat} {o : Obj} (hd : Denotes vm.heap cl (some i))
    (ho : vm.heap.objs i = some o) (hk : ∀ n, o.kind ≠ .cls n) (args : List (BitVec 64)) (value : BitVec 64) :
    vm.callA code t ty (.nonVirtual obj cl) none args = .returns vm 0 ∧
    vm.callAT what code t ty (.nonVirtual obj cl) none args = .raises vm .badCast ∧
    vm.getField code ty (.cls cl) none = .returns vm 0 ∧
    vm.getFieldT code t ty (.cls cl) none = .raises vm .badCast ∧
    vm.setField code ty (.cls cl) none value = .returns vm 0 ∧
    vm.setFieldT code t ty (.cls cl) none value = .raises vm .badCast := by
  have h2 : vm.traceClass cl = .throws .badCast := by
    simp only [Vm.traceClass, Vm.castClass, Heap.cast, (Heap.denote_iff hr.2.inv.toPre).2 hd, Res.bind_ok, ho]
    cases hkk : o.kind with
    | cls n => exact absurd hkk (hk n)
    | _ => rfl
  refine ⟨rfl, ?_, rfl, ?_, ?_, ?_⟩
  · simp only [Vm.callAT, Vm.withMethodT, h2, Outcome.lift]
  · simp only [Vm.getFieldT, Vm.traceOwner, h2, Outcome.lift]
  · simp only [Vm.setField, ite_self]
  · simp only [Vm.setFieldT, Vm.traceOwner, h2, Outcome.lift]

example : ∃ vm i o, VmReachable vm ∧ Denotes vm.heap (some i) (some i) ∧ vm.heap.objs i = some o ∧
    ∀ n, o.kind ≠ .cls n := by
  obtain ⟨vm, a, b, c, q, m, m', s, q', f, g, S⟩ := sample_vm
  exact ⟨vm, 15, _, S.reach, .direct S.objN (by simp), S.objN, by simp⟩

/-- C85 fails: looking up a method of a null class, which gives null or a new method without class, never succeeds
in the traced build. -/
theorem trace_null_lookup (depth : Nat) (st an : Bool) (w : World) (name sig : Str) :
    w.getMethodID depth st true an none name sig = .ok (w, none) ∧
    w.getMethodIDT depth st true an none name sig = .ub .nullDeref ∧
    (∀ w' r, w.getMethodID depth st false an none name sig = .ok (w', r) →
      w.getMethodIDT depth st false an none name sig = .ub .nullDeref) := by
  refine ⟨rfl, rfl, fun w' r h => ?_⟩
  obtain ⟨reg, h1, -⟩ := Res.bind_eq_ok.1 h
  simp only [World.getMethodIDT, h1, Res.bind_ok]
  rfl

example (w : World) : ∃ w' r, w.getMethodID 0 false false false none "m".toList "()V".toList = .ok (w', some r) :=
  ⟨_, _, by simp only [World.getMethodID, declare_unit, Res.bind_ok]; rfl⟩

end Jnivm
