import Verif.Lemmas.Jni
import Verif.Props.Release
/-!
# C79: classes through references

A client names a class by a reference: a local one, a global one, a weak one, or the bare address that
`GetSuperclass` returns.  Whatever the history of calls and threads, such a call is the call on the class of
that name; so what was proved about classes and members by name holds for clients of the JNI.
-/
namespace Jnivm
open Spec
open Heap hiding Live

/-! ### Class objects and classes -/

/-- After any history of calls every class object stands for a class that is known by its name, and no other
object does. -/
theorem jni_classes {vm : Vm} (hr : JniReachable vm) : VmReachable vm ∧
    ∀ k o n, vm.heap.objs k = some o → o.kind = .cls n →
      (∃ c, vm.world.IsClass n c) ∧ ∀ l p, vm.heap.objs l = some p → p.kind = .cls n → l = k := by
  have inv := hr.jniInv
  refine ⟨inv.vm, fun k o n ho hk => ⟨?_, fun l p hl hp => inv.heap.classObject_unique hl hp ho hk⟩⟩
  exact inv.known (n, k) (lookup_mem (inv.heap.classTable k o n ho hk))

example : ∃ vm, JniReachable vm ∧ ∃ o, vm.heap.objs 10 = some o ∧ o.kind = .cls "B".toList := by
  obtain ⟨vm, _, _, S⟩ := sample_jni
  exact ⟨vm, S.reach, S.b⟩

/-- `FindClass` returns a reference to the class of that name. -/
theorem find_class_refers {vm : Vm} (hr : JniReachable vm) {t : Nat} {e : Env} (he : vm.heap.envs t = some e)
    (n : Str) : ∃ vm' r, (JniOp.heap (.findClass n)).run vm t = .ok (vm', .out (.ref (some r))) ∧
      RefersTo vm'.heap (some r) (some n) ∧ ∃ c, vm'.world.IsClass n c ∧ IsClassRef vm' (some r) c := by
  have inv := hr.jniInv
  have hp := inv.heap.inv.toPre
  obtain ⟨h1, k, hx, hlook⟩ := findClass_run inv.heap he n
  have hcall : vm.heapCall t (.findClass n) = .ok (Vm.sync { vm with heap := h1 }, .ref (some k)) := by
    simp only [Vm.heapCall, hx, Res.bind_ok]
  have inv' := (heapCall_grows inv hcall).inv
  obtain ⟨_, o, ho, hk⟩ := inv'.heap.inv.toPre.classes n k (lookup_mem hlook)
  have href : RefersTo (Vm.sync { vm with heap := h1 }).heap (some k) (some n) :=
    ⟨k, o, .direct ho (by simp [hk]), ho, hk⟩
  refine ⟨_, k, ?_, href, refersTo_class inv' href⟩
  rw [run_attached he]
  simp only [JniOp.body, hcall, Res.bind_ok]

/-- On the second thread, a class that is known and one that is not. -/
example : ∃ vm, JniReachable vm ∧ ∃ e, vm.heap.envs 1 = some e := by
  obtain ⟨vm, _, _, S⟩ := sample_jni
  exact ⟨vm, S.reach, S.envs 1 (by omega)⟩

/-- All references to a class denote the same object: `IsSameObject` holds of any two. -/
theorem class_refs_same {vm : Vm} (hr : JniReachable vm) {r s : Option Nat} {n : Str}
    (h1 : RefersTo vm.heap r (some n)) (h2 : RefersTo vm.heap s (some n)) :
    (∃ k, Denotes vm.heap r (some k) ∧ Denotes vm.heap s (some k)) ∧ vm.heap.isSameObject r s = .ok true := by
  have inv := hr.jniInv
  obtain ⟨k, o, hd, ho, hk⟩ := h1
  obtain ⟨l, p, hd', hl, hp⟩ := h2
  cases inv.heap.classObject_unique hl hp ho hk
  refine ⟨⟨k, hd, hd'⟩, ?_⟩
  have hpre := inv.heap.inv.toPre
  simp only [isSameObject, (denote_iff hpre).2 hd, (denote_iff hpre).2 hd', Res.bind_ok]
  split <;> simp

/-- The address, a global and a weak global reference. -/
example : ∃ vm, JniReachable vm ∧ ∀ r, r = 10 ∨ r = 11 ∨ r = 12 → RefersTo vm.heap (some r) (some "B".toList) := by
  obtain ⟨vm, _, _, S⟩ := sample_jni
  exact ⟨vm, S.reach, fun _ => S.refersB⟩

/-! ### Calls -/

/-- A call that gets classes by reference ends like the call that gets them by name: with the same tables of
members, the same answer, the same exception or the same undefined behaviour. -/
theorem call_by_name {vm : Vm} (hr : JniReachable vm) {t : Nat} {e : Env} (he : vm.heap.envs t = some e)
    {op : JniOp} {c : ClientOp} (h : ByName vm.heap op c) :
    SameResult (op.run vm t) (c.run .debug vm.world) := by
  rw [run_attached he]
  exact byName_body hr.jniInv he h

/-- The inherited method is found through the weak reference. -/
example : ∃ vm e, JniReachable vm ∧ vm.heap.envs 1 = some e ∧
    ByName vm.heap (.getMethodID 9 false true false (some 12) "m".toList "()V".toList)
      (.getMethodID 9 false true false (some "B".toList) "m".toList "()V".toList) := by
  obtain ⟨vm, _, _, S⟩ := sample_jni
  obtain ⟨e, he⟩ := S.envs 1 (by omega)
  exact ⟨vm, e, S.reach, he, .getMethodID (S.refersB (by omega))⟩

/-- `IsInstanceOf` is `IsAssignableFrom` of the class of the object. -/
theorem instance_by_name {vm : Vm} (hr : JniReachable vm) {t : Nat} {e : Env} (he : vm.heap.envs t = some e)
    {d r i : Nat} {o : Obj} {cl : Option Nat} {n1 n2 : Option Str} (hd : Denotes vm.heap (some r) (some i))
    (ho : vm.heap.objs i = some o) (h1 : RefersTo vm.heap o.cls n1) (h2 : RefersTo vm.heap cl n2) :
    SameResult ((JniOp.isInstanceOf d (some r) cl).run vm t)
      ((ClientOp.isAssignableFrom d n1 n2).run .debug vm.world) := by
  rw [run_attached he]
  exact isInstanceOf_body hr.jniInv he hd ho h1 h2

/-- An object of "B" and the class "A". -/
example : ∃ vm e o, JniReachable vm ∧ vm.heap.envs 1 = some e ∧ Denotes vm.heap (some 13) (some 13) ∧
    vm.heap.objs 13 = some o ∧ RefersTo vm.heap o.cls (some "B".toList) ∧
    RefersTo vm.heap (some 9) (some "A".toList) := by
  obtain ⟨vm, _, _, S⟩ := sample_jni
  obtain ⟨e, he⟩ := S.envs 1 (by omega)
  obtain ⟨o, ho, hk, hc⟩ := S.obj
  exact ⟨vm, e, o, S.reach, he, .direct ho (by simp [hk]), ho, hc ▸ S.refersB (by omega), S.refersA⟩

/-- Null is an instance of nothing. -/
theorem instance_null {vm : Vm} {t : Nat} {e : Env} (he : vm.heap.envs t = some e) (d : Nat) (cl : Option Nat) :
    (JniOp.isInstanceOf d none cl).run vm t = .ok (vm, .client (.bool false)) := by
  rw [run_attached he]; rfl

/-- It makes no difference which reference to a class a call is given. -/
theorem any_reference {vm : Vm} (hr : JniReachable vm) {t : Nat} {op op' : JniOp} {c : ClientOp}
    (h : ByName vm.heap op c) (h' : ByName vm.heap op' c) (hc : ∀ x, op ≠ .cpp x) (hc' : ∀ x, op' ≠ .cpp x) :
    op.run vm t = op'.run vm t := by
  have inv := hr.jniInv
  have go : op.body vm t = op'.body vm t := by
    cases h with
    | cpp => exact absurd rfl (hc _)
    | isAssignableFrom a b =>
      cases h' with
      | cpp => exact absurd rfl (hc' _)
      | isAssignableFrom a' b' =>
        simp only [JniOp.body, Vm.assignable, (castClass_name inv a).1, (castClass_name inv b).1,
          (castClass_name inv a').1, (castClass_name inv b').1, Res.bind_ok]
    | getMethodID a =>
      cases h' with
      | cpp => exact absurd rfl (hc' _)
      | getMethodID a' => simp only [JniOp.body, (castClass_name inv a).1, (castClass_name inv a').1]
    | getFieldID a =>
      cases h' with
      | cpp => exact absurd rfl (hc' _)
      | getFieldID a' => simp only [JniOp.body, (castClass_name inv a).1, (castClass_name inv a').1]
    | registerNatives a =>
      cases h' with
      | cpp => exact absurd rfl (hc' _)
      | registerNatives a' => simp only [JniOp.body, (castClass_name inv a).1, (castClass_name inv a').1]
    | unregisterNatives a =>
      cases h' with
      | cpp => exact absurd rfl (hc' _)
      | unregisterNatives a' => simp only [JniOp.body, (castClass_name inv a).1, (castClass_name inv a').1]
    | getSuperclass a =>
      cases h' with
      | cpp => exact absurd rfl (hc' _)
      | getSuperclass a' => simp only [JniOp.body, (castClass_name inv a).1, (castClass_name inv a').1]
  have hn : op.needsEnv = true := by cases h <;> rfl
  have hn' : op'.needsEnv = true := by cases h' <;> rfl
  simp only [JniOp.run, hn, hn', go]

/-- The address and the weak reference, for a question and for a change. -/
example : ∃ vm, JniReachable vm ∧
    (ByName vm.heap (.isAssignableFrom 9 (some 10) (some 9)) (.isAssignableFrom 9 (some "B".toList) (some "A".toList)) ∧
    ByName vm.heap (.isAssignableFrom 9 (some 12) (some 9)) (.isAssignableFrom 9 (some "B".toList) (some "A".toList))) ∧
    ByName vm.heap (.unregisterNatives (some 11)) (.unregisterNatives (some "B".toList)) ∧
    ByName vm.heap (.unregisterNatives (some 12)) (.unregisterNatives (some "B".toList)) := by
  obtain ⟨vm, _, _, S⟩ := sample_jni
  exact ⟨vm, S.reach, ⟨.isAssignableFrom (S.refersB (by omega)) S.refersA,
    .isAssignableFrom (S.refersB (by omega)) S.refersA⟩, .unregisterNatives (S.refersB (by omega)),
    .unregisterNatives (S.refersB (by omega))⟩

/-- What such a call does to objects and references: nothing, except that `GetSuperclass` and C++ code can
make the object of a class, to which no reference is added. -/
theorem named_call_heap {vm vm' : Vm} (hr : JniReachable vm) {t : Nat} {op : JniOp} {c : ClientOp} {a : JniAnswer}
    (h : ByName vm.heap op c) (hx : op.run vm t = .ok (vm', a)) :
    vm'.heap.envs = vm.heap.envs ∧ vm'.heap.globals = vm.heap.globals ∧
      ((∀ x, op ≠ .cpp x) → (∀ cl, op ≠ .getSuperclass cl) → vm'.heap = vm.heap) := by
  have inv := hr.jniInv
  obtain ⟨hb, hne⟩ := run_body hx
  have obj : ∀ {v v' : Vm} {n : Str} {o : Out}, v.heapCall t (.classObject n) = .ok (v', o) →
      v'.heap.envs = v.heap.envs ∧ v'.heap.globals = v.heap.globals := by
    intro v v' n o hc
    obtain ⟨h1, _⟩ := heapCall_ok hc
    obtain ⟨h2, hx1, e2⟩ := Heap.run_ok h1
    obtain ⟨hb1, _⟩ := Heap.exec_ok hx1
    cases hb1
    rw [e2]
    simp only [collect_envs, collect_globals, intern_envs, intern_globals, and_self]
  cases h with
  | getMethodID a =>
    simp only [JniOp.body, (castClass_name inv a).1, Res.bind_ok] at hb
    obtain ⟨⟨w, id⟩, _, h4⟩ := Res.bind_eq_ok.1 hb
    cases h4; exact ⟨rfl, rfl, fun _ _ => rfl⟩
  | getFieldID a =>
    simp only [JniOp.body, (castClass_name inv a).1, Res.bind_ok] at hb
    obtain ⟨⟨w, id⟩, _, h4⟩ := Res.bind_eq_ok.1 hb
    cases h4; exact ⟨rfl, rfl, fun _ _ => rfl⟩
  | registerNatives a =>
    simp only [JniOp.body, (castClass_name inv a).1, Res.bind_ok] at hb
    cases hb; exact ⟨rfl, rfl, fun _ _ => rfl⟩
  | unregisterNatives a =>
    simp only [JniOp.body, (castClass_name inv a).1, Res.bind_ok] at hb
    cases hb; exact ⟨rfl, rfl, fun _ _ => rfl⟩
  | isAssignableFrom a b =>
    cases assignable_self inv hb
    exact ⟨rfl, rfl, fun _ _ => rfl⟩
  | getSuperclass a =>
    simp only [JniOp.body, (castClass_name inv a).1, Res.bind_ok] at hb
    obtain ⟨d, _, h2⟩ := onClass_inv hb
    obtain ⟨b, h3, h4⟩ := Res.bind_eq_ok.1 h2
    refine ⟨?_, ?_, fun _ hs => absurd rfl (hs _)⟩ <;>
    · cases hn : vm.world.nameOf b with
      | none => simp only [hn] at h4; cases h4; rfl
      | some n =>
        simp only [hn] at h4
        obtain ⟨⟨v, o⟩, h5, h6⟩ := Res.bind_eq_ok.1 h4
        cases h6
        first | exact (obj h5).1 | exact (obj h5).2
  | cpp =>
    obtain ⟨⟨w, x⟩, h1, h2⟩ := Res.bind_eq_ok.1 hb
    refine ⟨?_, ?_, fun hc _ => absurd rfl (hc _)⟩ <;>
    · cases hm : c.makes with
      | none => simp only [hm] at h2; cases h2; rfl
      | some n =>
        simp only [hm] at h2
        obtain ⟨⟨v, o⟩, h5, h6⟩ := Res.bind_eq_ok.1 h2
        cases h6
        first | exact (obj h5).1 | exact (obj h5).2

example : ∃ vm vm' a, JniReachable vm ∧ ByName vm.heap (.getSuperclass (some 12)) (.getSuperclass "B".toList) ∧
    (JniOp.getSuperclass (some 12)).run vm 1 = .ok (vm', a) ∧ SameAnswer vm'.heap a (.cls (some "A".toList)) := by
  obtain ⟨vm, as, hx, S⟩ := sample_jni
  obtain ⟨v, _, hv, _, hp⟩ := jniReachable_of (ops := sampleJni) (p := fun v _ =>
    ((JniOp.getSuperclass (some 12)).run v 1).holds fun (y : Vm × JniAnswer) => decide (y.2 = .out (.ref (some 9))) &&
      (y.1.heap.objs 9).any fun (o : Obj) => decide (o.kind = .cls "A".toList)) (by decide +kernel)
  rw [hx] at hv; cases hv
  obtain ⟨⟨vm', a⟩, h1, h2⟩ := Res.holds_iff.1 hp
  simp only [Bool.and_eq_true, decide_eq_true_eq, Option.any_eq_true] at h2
  obtain ⟨rfl, o, ho, hk⟩ := h2
  exact ⟨vm, vm', _, S.reach, .getSuperclass (S.refersB (by omega)), h1, 9, o,
    .direct ho (by rw [hk]; exact fun _ => ⟨nofun, nofun⟩), ho, hk⟩

/-- The JNI demands a local reference for every class it returns.  `GetSuperclass` makes none, so a client that
deletes what it got deletes a local reference of an earlier `FindClass`. -/
theorem superclass_takes_local : ∃ ops vm as vm' as', runJni Vm.initial ops = .ok (vm, as) ∧ HasLocal vm.heap 0 9 ∧
    as.getLast? = some (.out (.ref (some 9))) ∧
    runJni vm [(0, .getSuperclass (some 10)), (0, .heap (.deleteLocalRef (some 9)))] = .ok (vm', as') ∧
    as'.head? = some (.out (.ref (some 9))) ∧ ¬ HasLocal vm'.heap 0 9 := by
  obtain ⟨vm, as, hx, _, hp⟩ := jniReachable_of (ops := sampleJni ++ [(0, .heap (.findClass "A".toList))])
    (p := fun v as => (v.heap.envs 0).any (fun (e : Env) => decide (∃ f ∈ e.frames, 9 ∈ f)) &&
      decide (as.getLast? = some (.out (.ref (some 9)))) &&
      (runJni v [(0, .getSuperclass (some 10)), (0, .heap (.deleteLocalRef (some 9)))]).holds fun (y : Vm × List JniAnswer) =>
        decide (y.2.head? = some (.out (.ref (some 9)))) &&
        (y.1.heap.envs 0).all (fun (e : Env) => decide (¬ ∃ f ∈ e.frames, 9 ∈ f))) (by decide +kernel)
  simp only [Bool.and_eq_true, decide_eq_true_eq, Option.any_eq_true, Option.all_eq_true, Res.holds_iff] at hp
  obtain ⟨⟨⟨e, he, hf⟩, hlast⟩, ⟨vm', as'⟩, h1, h2, h3⟩ := hp
  refine ⟨_, vm, as, vm', as', hx, ⟨e, he, hf⟩, hlast, h1, h2, ?_⟩
  rintro ⟨e', he', hf'⟩
  exact h3 e' he' hf'

/-! ### Arguments that are no classes -/

/-- A call that is given an object that is no class ends with the exception `std::bad_cast` of the conversion,
which no JNI function catches. -/
theorem no_class_bad_cast {vm : Vm} (hr : JniReachable vm) {t : Nat} {e : Env} (he : vm.heap.envs t = some e)
    {op : JniOp} {cl : Option Nat} (hop : classArgs op = [cl] ∨ ∃ d c2, op = .isAssignableFrom d cl c2)
    (h : RefersToNoClass vm.heap cl) : op.run vm t = .throws .badCast := by
  obtain ⟨k, o, hd, ho, hk⟩ := h
  have hc : vm.castClass cl = .throws .badCast := by
    simp only [Vm.castClass, Heap.cast, (denote_iff hr.jniInv.heap.inv.toPre).2 hd, Res.bind_ok, ho]
    cases hkk : o.kind with
    | cls n => exact absurd hkk (hk n)
    | _ => rfl
  rw [run_attached he]
  rcases hop with hop | ⟨d, c2, rfl⟩
  · cases op <;> simp only [classArgs, List.cons.injEq, and_true, reduceCtorEq, and_false] at hop <;> subst hop <;>
      simp only [JniOp.body, hc] <;> rfl
  · simp only [JniOp.body, Vm.assignable, hc]; rfl

example : ∃ vm e, JniReachable vm ∧ vm.heap.envs 1 = some e ∧ RefersToNoClass vm.heap (some 13) ∧
    classArgs (.getMethodID 9 false true false (some 13) "m".toList "()V".toList) = [some 13] := by
  obtain ⟨vm, _, _, S⟩ := sample_jni
  obtain ⟨e, he⟩ := S.envs 1 (by omega)
  obtain ⟨o, ho, hk, _⟩ := S.obj
  exact ⟨vm, e, S.reach, he, ⟨13, o, .direct ho (by simp [hk]), ho, by simp [hk]⟩, rfl⟩

/-- A call that is given a reference to nothing that is alive has undefined behaviour. -/
theorem dangling_class {vm : Vm} {t : Nat} {e : Env} (he : vm.heap.envs t = some e) {op : JniOp} {r : Nat}
    (hop : classArgs op = [some r] ∨ ∃ d c2, op = .isAssignableFrom d (some r) c2) (h : ¬ Live vm.heap r) :
    op.run vm t = .ub .dangling := by
  have hn : vm.heap.objs r = none := by
    cases e : vm.heap.objs r with
    | none => rfl
    | some o => exact absurd ⟨o, e⟩ h
  have hc : vm.castClass (some r) = .ub .dangling := by
    simp only [Vm.castClass, Heap.cast, Heap.denote, Heap.unwrap, hn]; rfl
  rw [run_attached he]
  rcases hop with hop | ⟨d, c2, rfl⟩
  · cases op <;> simp only [classArgs, List.cons.injEq, and_true, reduceCtorEq, and_false] at hop <;> subst hop <;>
      simp only [JniOp.body, hc] <;> rfl
  · simp only [JniOp.body, Vm.assignable, hc]; rfl

/-- A global reference to a class that was deleted. -/
example : ∃ vm e, JniReachable vm ∧ vm.heap.envs 0 = some e ∧ ¬ Live vm.heap 11 ∧
    classArgs (.getSuperclass (some 11)) = [some 11] := by
  obtain ⟨vm, as, hx, hr, hp⟩ := jniReachable_of (ops := sampleJni ++ [(0, .heap (.deleteGlobalRef (some 11)))])
    (p := fun v _ => (v.heap.envs 0).isSome && (v.heap.objs 11).isNone) (by decide +kernel)
  simp only [Bool.and_eq_true] at hp
  obtain ⟨e, he⟩ := Option.isSome_iff_exists.1 hp.1
  refine ⟨vm, e, hr, he, fun ⟨o, ho⟩ => ?_, rfl⟩
  rw [ho] at hp; cases hp.2

/-- `GetSuperclass(null)` dereferences a null pointer. -/
theorem superclass_null {vm : Vm} {t : Nat} {e : Env} (he : vm.heap.envs t = some e) :
    (JniOp.getSuperclass none).run vm t = .ub .nullDeref := by
  rw [run_attached he]; rfl

/-! ### How long a reference to a class is good for -/

/-- Whatever calls follow: the object of a class is never released, and its bare address stays good also when
its local references are deleted, frames are popped and threads are detached. -/
theorem class_address_forever {vm vm' : Vm} (hr : JniReachable vm) {ops : List (Nat × JniOp)}
    {as : List JniAnswer} (hx : runJni vm ops = .ok (vm', as)) {k c : Nat} {o : Obj} {n : Str}
    (ho : vm.heap.objs k = some o) (hk : o.kind = .cls n) (hc : vm.world.IsClass n c) :
    RefersTo vm'.heap (some k) (some n) ∧ IsClassRef vm' (some k) c := by
  have inv := hr.jniInv
  have g := runJni_grows inv hx
  obtain ⟨hops, hh, _⟩ := g.heap
  obtain ⟨o', ho', hk'⟩ := classObject_kept inv.heap hh ho hk
  have hd : Denotes vm'.heap (some k) (some k) := .direct ho' (by simp [hk'])
  exact ⟨⟨k, o', hd, ho', hk'⟩, k, o', n, hd, ho', hk', g.names n c hc⟩

/-- Any reference to a class means that class until the reference itself is released. -/
theorem class_ref_until_released {vm vm' : Vm} (hr : JniReachable vm) {ops : List (Nat × JniOp)}
    {as : List JniAnswer} (hx : runJni vm ops = .ok (vm', as)) {r : Nat} {n : Str}
    (h : RefersTo vm.heap (some r) (some n)) (hl : Live vm'.heap r) : RefersTo vm'.heap (some r) (some n) := by
  have inv := hr.jniInv
  obtain ⟨hops, hh, _⟩ := (runJni_grows inv hx).heap
  exact refersTo_kept inv.heap hh h hl

/-- A global or weak global reference to a class is good until it is deleted; the weak one is never
cleared. -/
theorem global_class_ref {vm vm' : Vm} (hr : JniReachable vm) {ops : List (Nat × JniOp)}
    {as : List JniAnswer} (hx : runJni vm ops = .ok (vm', as)) {g : Nat} {n : Str}
    (hg : g ∈ vm.heap.globals) (h : RefersTo vm.heap (some g) (some n))
    (hd : ∀ x ∈ ops, x.2 ≠ .heap (.deleteGlobalRef (some g)) ∧ x.2 ≠ .heap (.deleteWeakGlobalRef (some g))) :
    RefersTo vm'.heap (some g) (some n) := by
  have inv := hr.jniInv
  obtain ⟨hops, hh, hall⟩ := (runJni_grows inv hx).heap
  have hdel : ∀ x ∈ hops, x.2 ≠ .deleteGlobalRef (some g) ∧ x.2 ≠ .deleteWeakGlobalRef (some g) := by
    intro x hx
    obtain ⟨y, hy, _, h1 | ⟨m, h1⟩ | ⟨m, h1⟩⟩ := hall x hx
    · have := hd y hy
      rw [h1] at this
      exact ⟨fun e => this.1 (congrArg _ e), fun e => this.2 (congrArg _ e)⟩
    · rw [h1]; exact ⟨(nomatch ·), (nomatch ·)⟩
    · rw [h1]; exact ⟨(nomatch ·), (nomatch ·)⟩
  refine refersTo_kept inv.heap hh h ?_
  obtain ⟨k, o, hden, ho, hk⟩ := h
  cases hden with
  | direct =>
    obtain ⟨o', ho', _⟩ := classObject_kept inv.heap hh ho hk
    exact ⟨o', ho'⟩
  | global h1 h2 => exact wrapper_stays inv.heap (k := .global _) rfl hg ⟨_, h1, h2⟩ hdel hh
  | weak h1 h2 => exact wrapper_stays inv.heap (k := .weak _) rfl hg ⟨_, h1, h2⟩ hdel hh

/-- The local reference is deleted, an object is released and a thread ends. -/
def laterJni : List (Nat × JniOp) :=
  [(0, .heap (.deleteLocalRef (some 10))), (0, .heap (.deleteLocalRef (some 13))),
    (1, .getMethodID 9 false true false (some 12) "m".toList "()V".toList), (1, .heap .detach),
    (0, .isAssignableFrom 9 (some 11) (some 9))]

/-- Sample for the three theorems. -/
example : ∃ vm vm' as, SampleJni vm ∧ runJni vm laterJni = .ok (vm', as) ∧ ¬ Live vm'.heap 13 ∧
    Live vm'.heap 12 ∧ as.getLast? = some (.client (.bool true)) ∧
    ∀ x ∈ laterJni, x.2 ≠ .heap (.deleteGlobalRef (some 12)) ∧ x.2 ≠ .heap (.deleteWeakGlobalRef (some 12)) := by
  obtain ⟨vm, as, hx, S⟩ := sample_jni
  obtain ⟨v, _, hv, _, hp⟩ := jniReachable_of (ops := sampleJni) (p := fun v _ =>
    (runJni v laterJni).holds fun (y : Vm × List JniAnswer) => (y.1.heap.objs 13).isNone && (y.1.heap.objs 12).isSome &&
      decide (y.2.getLast? = some (.client (.bool true)))) (by decide +kernel)
  rw [hx] at hv; cases hv
  obtain ⟨⟨vm', as'⟩, h1, h2⟩ := Res.holds_iff.1 hp
  simp only [Bool.and_eq_true, decide_eq_true_eq] at h2
  obtain ⟨⟨h3, h4⟩, h5⟩ := h2
  refine ⟨vm, vm', as', S, h1, fun ⟨o, ho⟩ => ?_, Option.isSome_iff_exists.1 h4, h5, fun x hx => ?_⟩
  · rw [ho] at h3; cases h3
  · simp only [laterJni, List.mem_cons, List.not_mem_nil, or_false] at hx
    rcases hx with rfl | rfl | rfl | rfl | rfl <;> exact ⟨nofun, nofun⟩

/-! ### Whole programs -/

/-- Every history of JNI calls, on any number of threads, is a program that names classes instead of holding
references: it leaves the same tables and gets the same answers. -/
theorem jni_program {vm vm' : Vm} (hr : JniReachable vm) {ops : List (Nat × JniOp)} {as : List JniAnswer}
    (hx : runJni vm ops = .ok (vm', as)) : ∃ prog bs, Translates vm ops as prog bs ∧
      Build.debug.run vm.world prog = .ok (vm'.world, bs) := by
  have inv := hr.jniInv
  clear hr
  induction ops generalizing vm as with
  | nil => cases hx; exact ⟨[], [], .nil, rfl⟩
  | cons x ops ih =>
    obtain ⟨t, op⟩ := x
    obtain ⟨⟨v, a⟩, h1, h2⟩ := Res.bind_eq_ok.1 hx
    obtain ⟨⟨v', as'⟩, h3, h4⟩ := Res.bind_eq_ok.1 h2
    cases h4
    obtain ⟨prog, bs, htr, hrun⟩ := ih h3 (jni_grows inv h1).inv
    have one : ∀ {c : ClientOp}, SameResult (op.run vm t) (c.run .debug vm.world) → ∃ b,
        SameAnswer v.heap a b ∧ Build.debug.run vm.world (c :: prog) = .ok (v'.world, b :: bs) := by
      intro c hs
      obtain ⟨b, hb, hsame⟩ := sameResult_ok hs h1
      refine ⟨b, hsame, ?_⟩
      simp only [Build.run, hb, Res.bind_ok, hrun]
    rcases ok_byName inv h1 with ⟨x, rfl⟩ | ⟨d, o, cl, rfl⟩ | ⟨c, hc⟩
    · refine ⟨_, _, .heap h1 htr, ?_⟩
      obtain ⟨⟨v1, o⟩, h5, h6⟩ := Res.bind_eq_ok.1 (run_body h1).1
      cases h6
      obtain ⟨_, hw⟩ := heapCall_ok h5
      rw [run_append, finds, found_answers _ inv.world, ← hw]
      simp only [Res.bind_ok, hrun]
      rfl
    · obtain ⟨e, he⟩ := (run_body h1).2 rfl
      rcases ok_instance inv h1 with ⟨rfl, rfl, rfl⟩ | ⟨r, i, ob, n1, n2, rfl, hd, ho, hn1, hn2⟩
      · exact ⟨prog, bs, .null htr, hrun⟩
      · have hs := isInstanceOf_body inv he (d := d) hd ho hn1 hn2
        rw [← run_attached he] at hs
        obtain ⟨b, hsame, hr⟩ := one hs
        exact ⟨_, _, .instance hd ho hn1 hn2 h1 hsame htr, hr⟩
    · have hne : op.needsEnv = true := by cases hc <;> rfl
      obtain ⟨e, he⟩ := (run_body h1).2 hne
      have hs := byName_body inv he hc
      rw [← run_attached he] at hs
      obtain ⟨b, hsame, hr⟩ := one hs
      exact ⟨_, _, .named hc h1 hsame htr, hr⟩

/-- So the answers of a history of JNI calls do not depend on the debugging features of the build. -/
theorem jni_release_answers {vm : Vm} {ops : List (Nat × JniOp)} {as : List JniAnswer}
    (hx : runJni Vm.initial ops = .ok (vm, as)) : ∃ prog bs, Translates Vm.initial ops as prog bs ∧
      answers .debug prog = .ok bs ∧ answers .release prog = .ok bs := by
  obtain ⟨prog, bs, htr, hrun⟩ := jni_program ⟨[], [], rfl⟩ hx
  have hd : answers .debug prog = .ok bs := by
    simp only [answers]
    rw [show Build.debug.run Build.debug.start prog = _ from hrun]
    rfl
  exact ⟨prog, bs, htr, hd, release_answers prog bs hd⟩

/-- The history of `laterJni` after `sampleJni`. -/
example : ∃ vm as, runJni Vm.initial (sampleJni ++ laterJni) = .ok (vm, as) ∧ as.length = 14 := by
  obtain ⟨vm, as, hx, _, hp⟩ := jniReachable_of (ops := sampleJni ++ laterJni) (p := fun _ as => as.length == 14)
    (by decide +kernel)
  exact ⟨vm, as, hx, by simpa using hp⟩

end Jnivm
