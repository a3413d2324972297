import Verif.Lemmas.CallSample
import Verif.Props.Members
import Verif.Props.Sig
import Verif.Props.Threads
/-!
Properties of method calls: virtual calls (C22), non-virtual calls (C23), exceptions of handlers (C24)
and field accesses (C52).
-/
namespace Jnivm
open Spec

/-! ### Helpers -/

theorem withMethod_hooked {vm : Vm} (hr : VmReachable vm) {id : Nat} {m : MethodRec}
    (hn : Names vm.world id m) {f : Nat} (hf : m.handle = some f)
    (k : MethodRec → Outcome Vm (BitVec 64)) : vm.withMethod (some id) k = k m := by
  simp only [Vm.withMethod, method?_names hr.1 hn, hf, Option.isSome_some, if_true]

theorem invoke_match {k : Hook} {a : Access} {ty : JType} (ht : k.type = ty)
    (hk : k.kind = .inst ∧ a ≠ .static ∨ k.kind = .member ∧ a = .inst ∨ k.kind = .static ∧ a = .static)
    (vm : Vm) (self : Self) (args : List (BitVec 64)) : k.invoke a ty vm self args = k.run vm self args := by
  unfold Hook.invoke
  rw [if_pos ht]
  rcases hk with ⟨h1, h2⟩ | ⟨h1, h2⟩ | ⟨h1, h2⟩
  · rw [h1]; cases a <;> first | rfl | exact absurd rfl h2
  · rw [h1, h2]
  · rw [h1, h2]

/-- A virtual call on a method whose overload for the receiver is `g`. -/
theorem callVirtual_eq {code : Nat → Hook} {vm : Vm} (hr : VmReachable vm) {t : Nat} {env : Env}
    (he : vm.heap.envs t = some env) {obj : Option Nat} {c : Nat} (hc : ClassIs vm obj c)
    {id : Nat} {m : MethodRec} (hn : Names vm.world id m) {f : Nat} (hf : m.handle = some f)
    (ty : JType) (args : List (BitVec 64)) :
    ∃ vm1, AfterGetClass t obj vm vm1 ∧ ∀ g, (findVirtualOverload vm.world (some c) m).handle = some g →
      vm.callA code t ty (.virtual obj) (some id) args =
        Vm.catchAll t ((code g).invoke .inst ty vm1 (.obj obj) args) := by
  obtain ⟨vm1, h1, h2⟩ := objectClass_ref hr he hc
  refine ⟨vm1, h1, fun g hg => ?_⟩
  simp only [Vm.callA, withMethod_hooked hr hn hf, h2, Outcome.lift]
  rw [invoke_run (f := g)]
  rw [h1.1]; exact hg

/-! ## C22: virtual calls -/

/-- C22, exact. A virtual call on an object of class `c`, with an id that denotes a hooked method,
runs `c`'s own implementation of that method if it has one, otherwise the implementation the id
denotes.  Before that only `GetObjectClass` ran. -/
theorem virtual_call_exact {code : Nat → Hook} (hb : WellBehaved code) {vm : Vm} (hr : VmReachable vm)
    {t : Nat} {env : Env} (he : vm.heap.envs t = some env) {obj : Option Nat} {c : Nat}
    (hc : ClassIs vm obj c) {id : Nat} {m : MethodRec} (hn : Names vm.world id m) {f : Nat}
    (hf : m.handle = some f) (ty : JType) (args : List (BitVec 64)) :
    ∃ vm1, AfterGetClass t obj vm vm1 ∧ ∀ g,
      (Implements vm.world c m.name m.signature g ∨
        g = f ∧ ∀ g', ¬ Implements vm.world c m.name m.signature g') →
      (code g).type = ty → (code g).kind ≠ .static →
      Handled t ((code g).run vm1 (.obj obj) args) (vm.callA code t ty (.virtual obj) (some id) args) := by
  obtain ⟨vm1, h1, h2⟩ := callVirtual_eq hr he hc hn hf ty args
  refine ⟨vm1, h1, fun g hg hty hk => ?_⟩
  have hover : (findVirtualOverload vm.world (some c) m).handle = some g := by
    rcases hg with hg | ⟨rfl, hg⟩
    · exact virtual_own hr.1 hg
    · rw [virtual_none hg, hf]
  rw [h2 g hover, invoke_match hty]
  · exact catchAll_handled (hb g vm1 (.obj obj) args (AfterGetClass.reachable h1 hr))
  · cases hkk : (code g).kind with
    | static => exact absurd hkk hk
    | inst => exact .inl ⟨rfl, by simp⟩
    | member => exact .inr (.inl ⟨rfl, rfl⟩)

theorem searchOrder_head {bases : Nat → Option (List (Option Nat))} {c : Nat} {cs : List (Option Nat)}
    {l : List Nat} (h : SearchOrder bases (some c :: cs) l) : ∃ rest, l = c :: rest := by
  cases h with | visit _ _ => exact ⟨_, rfl⟩

theorem first_unique {α : Type} {P : α → Prop} {as bs as' bs' : List α} {a a' : α}
    (h : as ++ a :: bs = as' ++ a' :: bs') (h1 : ∀ x ∈ as, ¬ P x) (h2 : ∀ x ∈ as', ¬ P x) (ha : P a)
    (ha' : P a') : a = a' := by
  induction as generalizing as' with
  | nil =>
    cases as' with
    | nil => cases h; rfl
    | cons y ys => cases h; exact absurd ha (h2 a (by simp))
  | cons x xs ih =>
    cases as' with
    | nil => cases h; exact absurd ha' (h1 a' (by simp))
    | cons y ys =>
      simp only [List.cons_append, List.cons.injEq] at h
      exact ih h.2 (fun z hz => h1 z (by simp [hz])) (fun z hz => h2 z (by simp [hz]))

/-- C22, partial. A virtual call runs the nearest implementation for the class of the receiver if that
class has an own implementation, or if the id is the one a lookup on the class of the receiver gives
and no native method is hooked.
Missing: an id looked up on a superclass, when the override is neither there nor in the class of the
receiver but in between (`virtual_call_skips_override`), and an id without implementation
(`virtual_call_unhooked_id`). -/
theorem virtual_call_nearest_partial {code : Nat → Hook} (hb : WellBehaved code) {vm : Vm}
    (hr : VmReachable vm) {t : Nat} {env : Env} (he : vm.heap.envs t = some env) {obj : Option Nat}
    {c : Nat} (hc : ClassIs vm obj c) {id : Nat} {m : MethodRec} (hn : Names vm.world id m) {f : Nat}
    (hf : m.handle = some f) (ty : JType) (args : List (BitVec 64))
    (hok : (∃ g, Implements vm.world c m.name m.signature g) ∨
      m.static = false ∧ m.name ≠ "<init>".toList ∧
      (∃ depth, vm.world.getMethodID depth false true false (some c) m.name m.signature
        = .ok (vm.world, some id)) ∧
      ∀ d m', m' ∈ (vm.world.mem d).methods → m'.native.isSome → m'.handle = none) :
    ∃ vm1, AfterGetClass t obj vm vm1 ∧ ∀ g, NearestImpl vm.world c m.name m.signature g →
      (code g).type = ty → (code g).kind ≠ .static →
      Handled t ((code g).run vm1 (.obj obj) args) (vm.callA code t ty (.virtual obj) (some id) args) := by
  obtain ⟨vm1, h1, h2⟩ := virtual_call_exact hb hr he hc hn hf ty args
  refine ⟨vm1, h1, fun g hg hty hk => h2 g ?_ hty hk⟩
  obtain ⟨pre, d, post, hord, hpre, himp⟩ := hg
  have hown : ∀ g', Implements vm.world c m.name m.signature g' → d = c := by
    intro g' hg'
    obtain ⟨rest, hrest⟩ := searchOrder_head hord
    cases pre with
    | nil => exact (List.cons.inj hrest).1
    | cons x xs =>
      obtain ⟨rfl, _⟩ := List.cons.inj hrest
      exact absurd hg' (hpre _ (by simp) g')
  by_cases hex : ∃ g', Implements vm.world c m.name m.signature g'
  · obtain ⟨g', hg'⟩ := hex
    rw [hown g' hg'] at himp
    exact .inl himp
  · refine .inr ⟨?_, fun g' hg' => hex ⟨g', hg'⟩⟩
    rcases hok with h | ⟨hst, hinit, ⟨depth, hlook⟩, hnat⟩
    · exact absurd h hex
    obtain ⟨_, _, k, _, _, _, _, _, nm, _, _, _, hcls⟩ := hc
    rw [getMethodID_isClass hr.1.inv hcls, effKey_plain (fun h => absurd h hinit)] at hlook
    have hdfs : dfs vm.world.bases (vm.world.ownMethod ⟨false, false, m.name, m.signature⟩) depth c
        = .ok (some id) := by
      rcases methodOf_ok hlook with ⟨_, h, _⟩ | ⟨h, _⟩
      · exact h
      · cases h
    have hdfs2 := dfs_mono (Nat.le_max_left depth (pre ++ d :: post).length) hdfs
    rw [dfs_searchOrder hord (by omega)] at hdfs2
    injection hdfs2 with hfs
    obtain ⟨as, a, bs, hl, hown2, has⟩ := List.findSome?_eq_some_iff.1 hfs
    obtain ⟨m2, ⟨hm2, k1, k2, k3, k4⟩, hid2⟩ := ownMethod_some hown2
    obtain ⟨n0, c0, _, hm0, hid0⟩ := hn
    obtain ⟨_, rfl⟩ := method_unique hr.1.inv hm2 hm0 (by rw [hid2, hid0])
    have hia : Implements vm.world a m2.name m2.signature f := ⟨m2, hm2, k1, rfl, rfl, hf⟩
    have : d = a := by
      refine first_unique (P := fun x => ∃ g, Implements vm.world x m2.name m2.signature g) hl
        (fun x hx ⟨g, hg⟩ => hpre x hx g hg) (fun x hx ⟨g, hg⟩ => ?_) ⟨g, himp⟩ ⟨f, hia⟩
      obtain ⟨m', hm', j1, j2, j3, j4⟩ := hg
      refine ownMethod_none.1 (has x hx) m' ⟨hm', j1, ?_, j2, j3⟩
      cases hnn : m'.native.isSome with
      | false => rfl
      | true => rw [hnat x m' hm' hnn] at j4; cases j4
    subst this
    exact implements_unique hr.1 himp hia

/-- C22, an object without a class: the implementation the id denotes runs. -/
theorem virtual_call_classless {code : Nat → Hook} (hb : WellBehaved code) {vm : Vm} (hr : VmReachable vm)
    {t : Nat} {env : Env} (he : vm.heap.envs t = some env) {obj : Option Nat} {i : Nat} {o : Obj}
    (hd : Denotes vm.heap obj (some i)) (ho : vm.heap.objs i = some o) (hc : o.cls = none)
    {id : Nat} {m : MethodRec} (hn : Names vm.world id m) {f : Nat} (hf : m.handle = some f)
    {ty : JType} (hty : (code f).type = ty) (hk : (code f).kind ≠ .static) (args : List (BitVec 64)) :
    Handled t ((code f).run vm (.obj obj) args) (vm.callA code t ty (.virtual obj) (some id) args) := by
  obtain ⟨_, h2⟩ := objectClass_none hr he hd ho hc
  simp only [Vm.callA, withMethod_hooked hr hn hf, h2, Outcome.lift, virtual_null]
  rw [invoke_run hf, invoke_match hty]
  · exact catchAll_handled (hb f vm (.obj obj) args hr)
  · cases hkk : (code f).kind with
    | static => exact absurd hkk hk
    | inst => exact .inl ⟨rfl, by simp⟩
    | member => exact .inr (.inl ⟨rfl, rfl⟩)

/-- Sample for `virtual_call_exact`: own implementation of "B" and inherited one of "A". -/
example : ∃ vm id m c obj, WellBehaved sampleCode ∧ VmReachable vm ∧ (∃ e, vm.heap.envs 0 = some e) ∧
    ClassIs vm obj c ∧ Names vm.world id m ∧ m.handle = some 1 ∧ Implements vm.world c m.name m.signature 2 ∧
    (sampleCode 2).type = .int ∧ (sampleCode 2).kind ≠ .static := by
  obtain ⟨vm, a, b, c, q, m, m', s, q', f, g, S⟩ := sample_vm
  obtain ⟨e, he, _⟩ := S.env
  exact ⟨vm, m, ⟨m, "m".toList, "()I".toList, false, none, some 1⟩, b, some 12, sampleCode_behaved, S.reach,
    ⟨e, he⟩, S.objB, ⟨_, a, S.isA, by simp [S.methodsA], rfl⟩, rfl, ⟨⟨m', "m".toList, "()I".toList, false, none, some 2⟩,
    by simp [S.methodsB], rfl, rfl, rfl, rfl⟩, rfl, by simp [sampleCode]⟩

theorem SampleVm.order {vm : Vm} {a b c q m m' s q' f g : Nat} (S : SampleVm vm a b c q m m' s q' f g) :
    SearchOrder vm.world.bases [some c] [c, b, a] := by
  refine .visit (up := [b, a]) (l := []) ?_ .nil
  rw [S.basesC]
  refine .visit (up := [a]) (l := []) ?_ .nil
  rw [S.basesB]
  refine .visit (up := []) (l := []) ?_ .nil
  rw [S.basesA]
  exact .skip .nil

theorem SampleVm.notImplC {vm : Vm} {a b c q m m' s q' f g : Nat} (S : SampleVm vm a b c q m m' s q' f g)
    (n sg : Str) (x : Nat) : ¬ Implements vm.world c n sg x := by
  rintro ⟨k, hk, _⟩
  rw [S.methods c (Ne.symm S.ac) (Ne.symm S.bc)] at hk
  cases hk

theorem SampleVm.nearest {vm : Vm} {a b c q m m' s q' f g : Nat} (S : SampleVm vm a b c q m m' s q' f g) :
    NearestImpl vm.world c "m".toList "()I".toList 2 :=
  ⟨[c], b, [a], S.order, fun x hx y hy => by
      cases List.mem_singleton.1 hx; exact S.notImplC _ _ _ hy,
    _, by rw [S.methodsB]; exact List.mem_cons_self .., rfl, rfl, rfl, rfl⟩

theorem SampleVm.namesA {vm : Vm} {a b c q m m' s q' f g : Nat} (S : SampleVm vm a b c q m m' s q' f g) :
    Names vm.world m ⟨m, "m".toList, "()I".toList, false, none, some 1⟩ :=
  ⟨_, a, S.isA, by simp [S.methodsA], rfl⟩

theorem SampleVm.namesB {vm : Vm} {a b c q m m' s q' f g : Nat} (S : SampleVm vm a b c q m m' s q' f g) :
    Names vm.world m' ⟨m', "m".toList, "()I".toList, false, none, some 2⟩ :=
  ⟨_, b, S.isB, by simp [S.methodsB], rfl⟩

theorem SampleVm.lookupC {vm : Vm} {a b c q m m' s q' f g : Nat} (S : SampleVm vm a b c q m m' s q' f g) :
    vm.world.getMethodID 3 false true false (some c) "m".toList "()I".toList = .ok (vm.world, some m') := by
  rw [lookup_order S.reach.1 S.isC S.order (by simp) false false _ _ (by simp)]
  simp [S.methods c (Ne.symm S.ac) (Ne.symm S.bc), S.methodsB, List.findSome?]

/-- Sample for `virtual_call_nearest_partial`: an object of class "C", the id looked up on "C"; the
method is inherited from "B", which overrides that of "A". -/
example : ∃ vm id m c obj, VmReachable vm ∧ (∃ e, vm.heap.envs 0 = some e) ∧ ClassIs vm obj c ∧
    Names vm.world id m ∧ m.handle = some 2 ∧ (∀ g, ¬ Implements vm.world c m.name m.signature g) ∧
    m.static = false ∧ m.name ≠ "<init>".toList ∧
    (∃ depth, vm.world.getMethodID depth false true false (some c) m.name m.signature
        = .ok (vm.world, some id)) ∧
    (∀ d m', m' ∈ (vm.world.mem d).methods → m'.native.isSome → m'.handle = none) ∧
    NearestImpl vm.world c m.name m.signature 2 := by
  obtain ⟨vm, a, b, c, q, m, m', s, q', f, g, S⟩ := sample_vm
  obtain ⟨e, he, _⟩ := S.env
  refine ⟨vm, m', ⟨m', "m".toList, "()I".toList, false, none, some 2⟩, c, some 14, S.reach, ⟨e, he⟩, S.objC,
    S.namesB, rfl, S.notImplC _ _, rfl, by simp, ⟨3, S.lookupC⟩, ?_, S.nearest⟩
  · intro d k hk hn
    by_cases h1 : d = a
    · rw [h1, S.methodsA] at hk
      simp at hk
      rcases hk with rfl | rfl | rfl <;> simp at hn
    · by_cases h2 : d = b
      · rw [h2, S.methodsB] at hk
        simp at hk
        rcases hk with rfl | rfl <;> simp at hn
      · rw [S.methods d h1 h2] at hk; cases hk

/-- Sample for `virtual_call_classless`. -/
example : ∃ vm id m i o, VmReachable vm ∧ (∃ e, vm.heap.envs 0 = some e) ∧ Denotes vm.heap (some i) (some i) ∧
    vm.heap.objs i = some o ∧ o.cls = none ∧ Names vm.world id m ∧ m.handle = some 1 ∧
    (sampleCode 1).type = .int ∧ (sampleCode 1).kind ≠ .static := by
  obtain ⟨vm, a, b, c, q, m, m', s, q', f, g, S⟩ := sample_vm
  obtain ⟨e, he, _⟩ := S.env
  exact ⟨vm, m, _, 15, _, S.reach, ⟨e, he⟩, .direct S.objN (by simp), S.objN, rfl, S.namesA, rfl, rfl,
    by simp [sampleCode]⟩

/-- C22 fails: an override between the class of the receiver and the class on which the id was looked
up is skipped.  Here function 2 is the nearest implementation for the receiver, but function 1 runs. -/
theorem virtual_call_skips_override : ∃ code vm t obj c id m vm1,
    WellBehaved code ∧ VmReachable vm ∧ ClassIs vm obj c ∧ Names vm.world id m ∧ m.handle.isSome ∧
    NearestImpl vm.world c m.name m.signature 2 ∧
    (code 2).run vm1 (.obj obj) [] = .returns vm1 2 ∧
    vm.callA code t .int (.virtual obj) (some id) [] = .returns vm1 1 := by
  obtain ⟨vm, a, b, c, q, m, m', s, q', f, g, S⟩ := sample_vm
  obtain ⟨e, he, _⟩ := S.env
  obtain ⟨vm1, _, h2⟩ := virtual_call_exact sampleCode_behaved S.reach he S.objC S.namesA rfl .int []
  have := h2 1 (.inr ⟨rfl, S.notImplC _ _⟩) rfl (by simp [sampleCode])
  refine ⟨sampleCode, vm, 0, some 14, c, m, _, vm1, sampleCode_behaved, S.reach, S.objC, S.namesA, rfl,
    S.nearest, rfl, ?_⟩
  generalize vm.callA sampleCode 0 .int (.virtual (some 14)) (some m) [] = out at this
  cases this
  rfl

/-- C22 fails: an id whose own method has no implementation gives the default value, though the class
of the receiver implements the method. -/
theorem virtual_call_unhooked_id : ∃ code vm t obj c id m,
    WellBehaved code ∧ VmReachable vm ∧ (∃ e, vm.heap.envs t = some e) ∧ ClassIs vm obj c ∧
    Names vm.world id m ∧ Implements vm.world c m.name m.signature 3 ∧
    (∀ vm' self, (code 3).run vm' self [] = .returns vm' 3) ∧
    vm.callA code t .void (.virtual obj) (some id) [] = .returns vm 0 := by
  obtain ⟨vm, a, b, c, q, m, m', s, q', f, g, S⟩ := sample_vm
  obtain ⟨e, he, _⟩ := S.env
  have hn : Names vm.world q ⟨q, "q".toList, "()V".toList, false, none, none⟩ :=
    ⟨_, a, S.isA, by simp [S.methodsA], rfl⟩
  refine ⟨sampleCode, vm, 0, some 12, b, q, _, sampleCode_behaved, S.reach, ⟨e, he⟩, S.objB, hn,
    ⟨⟨q', "q".toList, "()V".toList, false, none, some 3⟩, by simp [S.methodsB], rfl, rfl, rfl, rfl⟩,
    fun _ _ => rfl, ?_⟩
  simp only [Vm.callA, Vm.withMethod, method?_names S.reach.1 hn]
  rfl

/-! ## C23: non-virtual calls -/

/-- C23, partial. `CallNonvirtual<ty>MethodA(obj, cl, id)` runs the implementation of class `cl`,
whatever the class of the object is.
Missing: a method that `cl` only inherits (`nonvirtual_inherited_ub`) and implementations given by
pointers to member functions (`nonvirtual_member_pointer`). -/
theorem nonvirtual_call_partial {code : Nat → Hook} (hb : WellBehaved code) {vm : Vm} (hr : VmReachable vm)
    {t : Nat} {obj cl : Option Nat} {c : Nat} (hc : IsClassRef vm cl c) {id : Nat} {m : MethodRec}
    (hn : Names vm.world id m) (hf : m.handle.isSome) {g : Nat}
    (hg : Implements vm.world c m.name m.signature g) {ty : JType} (hty : (code g).type = ty)
    (hk : (code g).kind = .inst) (args : List (BitVec 64)) :
    Handled t ((code g).run vm (.obj obj) args) (vm.callA code t ty (.nonVirtual obj cl) (some id) args) := by
  obtain ⟨f, hf⟩ := Option.isSome_iff_exists.1 hf
  obtain ⟨m2, h1, h2⟩ := nonVirtual_own hr.1 hg
  simp only [Vm.callA, withMethod_hooked hr hn hf, castClass_ref hr hc, Outcome.lift, h1]
  rw [invoke_run h2, invoke_match hty (.inl ⟨hk, by simp⟩)]
  exact catchAll_handled (hb g vm (.obj obj) args hr)

/-- C23, a null class: the implementation the id denotes runs. -/
theorem nonvirtual_null_class {code : Nat → Hook} (hb : WellBehaved code) {vm : Vm} (hr : VmReachable vm)
    {t : Nat} {obj : Option Nat} {id : Nat} {m : MethodRec} (hn : Names vm.world id m) {f : Nat}
    (hf : m.handle = some f) {ty : JType} (hty : (code f).type = ty) (hk : (code f).kind = .inst)
    (args : List (BitVec 64)) :
    Handled t ((code f).run vm (.obj obj) args) (vm.callA code t ty (.nonVirtual obj none) (some id) args) := by
  simp only [Vm.callA, withMethod_hooked hr hn hf, castClass_null, Outcome.lift, findNonVirtualOverload]
  rw [invoke_run hf, invoke_match hty (.inl ⟨hk, by simp⟩)]
  exact catchAll_handled (hb f vm (.obj obj) args hr)

/-- Sample for `nonvirtual_call_partial` and `nonvirtual_null_class`: `super.m()` on an object of "C",
that is class "A" and the id of the override in "B". -/
example : ∃ vm id m c cl obj c', VmReachable vm ∧ IsClassRef vm cl c ∧ ClassIs vm obj c' ∧ c ≠ c' ∧
    Names vm.world id m ∧ m.handle = some 2 ∧ Implements vm.world c m.name m.signature 1 ∧
    (sampleCode 1).type = .int ∧ (sampleCode 1).kind = .inst ∧ (sampleCode 2).kind = .inst := by
  obtain ⟨vm, a, b, c, q, m, m', s, q', f, g, S⟩ := sample_vm
  exact ⟨vm, m', _, a, some 9, some 14, c, S.reach, S.clsA, S.objC, S.ac, S.namesB, rfl,
    ⟨⟨m, "m".toList, "()I".toList, false, none, some 1⟩, by simp [S.methodsA], rfl, rfl, rfl, rfl⟩, rfl,
    by simp [sampleCode], by simp [sampleCode]⟩

/-- C23 fails: a non-virtual call with a class that inherits the method dereferences a null pointer,
even with the id a lookup on that class gives. -/
theorem nonvirtual_inherited_ub : ∃ vm cl c id m, VmReachable vm ∧ IsClassRef vm cl c ∧
    Names vm.world id m ∧ m.handle.isSome ∧ NearestImpl vm.world c m.name m.signature 2 ∧
    vm.world.getMethodID 3 false true false (some c) m.name m.signature = .ok (vm.world, some id) ∧
    ∀ code t ty obj args, vm.callA code t ty (.nonVirtual obj cl) (some id) args = .ub .nullDeref := by
  obtain ⟨vm, a, b, c, q, m, m', s, q', f, g, S⟩ := sample_vm
  refine ⟨vm, some 13, c, m', _, S.reach, S.clsC, S.namesB, rfl, S.nearest, S.lookupC, ?_⟩
  · intro code t ty obj args
    simp only [Vm.callA]
    rw [withMethod_hooked S.reach S.namesB rfl]
    simp only [castClass_ref S.reach S.clsC, Outcome.lift,
      nonVirtual_none (S.notImplC _ _), Vm.invoke]

/-- C23 fails: an implementation given by a pointer to a member function never runs in a non-virtual
call, the exception "not supported" becomes pending instead. -/
theorem nonvirtual_member_pointer {code : Nat → Hook} {vm : Vm} (hr : VmReachable vm)
    {t : Nat} {obj cl : Option Nat} {c : Nat} (hc : IsClassRef vm cl c) {id : Nat} {m : MethodRec}
    (hn : Names vm.world id m) (hf : m.handle.isSome) {g : Nat}
    (hg : Implements vm.world c m.name m.signature g) {ty : JType} (hty : (code g).type = ty)
    (hk : (code g).kind = .member) (args : List (BitVec 64)) :
    Handled t (.raises vm .notSupported) (vm.callA code t ty (.nonVirtual obj cl) (some id) args) := by
  obtain ⟨f, hf⟩ := Option.isSome_iff_exists.1 hf
  obtain ⟨m2, h1, h2⟩ := nonVirtual_own hr.1 hg
  simp only [Vm.callA, withMethod_hooked hr hn hf, castClass_ref hr hc, Outcome.lift, h1]
  rw [invoke_run h2]
  have : (code g).invoke .nonVirtual ty vm (.obj obj) args = .raises vm .notSupported := by
    unfold Hook.invoke
    rw [if_pos hty, hk]
  rw [this]
  exact catchAll_handled (show VmReachable vm from hr)

/-! ## C24: results and exceptions of calls -/

theorem unwrap_noThrow (h : Heap) : ∀ n i e, h.unwrap n i ≠ .throws e := by
  intro n
  induction n with
  | zero => intro i e; simp [Heap.unwrap]
  | succ n ih =>
    intro i e
    unfold Heap.unwrap
    cases h.objs i with
    | none => simp
    | some o =>
      simp only
      split
      · split
        · simp
        · exact ih _ e
      · exact ih _ e
      · simp

theorem toJNI_noThrow (h : Heap) (t : Nat) (s : Option Nat) (i : Nat) (e : Exn) : h.toJNI t s i ≠ .throws e := by
  unfold Heap.toJNI
  cases h.objs i with
  | none => simp
  | some o =>
    simp only [Heap.pushLocal, Heap.env]
    generalize (if o.cls.isNone then h.setObj i { o with cls := s } else h) = h1
    cases h1.envs t with
    | none => simp [Res.bind]
    | some env =>
      simp only [Res.bind_ok]
      cases env.frames <;> simp

theorem getObjectClass_noThrow (h : Heap) (t : Nat) (obj : Option Nat) (e : Exn) :
    (HeapOp.getObjectClass obj).run h t ≠ .throws e := by
  have hb : ∀ e, h.getObjectClass t obj ≠ .throws e := by
    intro e
    cases obj with
    | none =>
      simp only [Heap.getObjectClass, Heap.findClass]
      generalize h.intern "Invalid".toList = p
      obtain ⟨h1, c⟩ := p
      simp only
      cases hx : h1.toJNI t (h1.typeClass "java/lang/Class".toList) c with
      | throws p => exact absurd hx (toJNI_noThrow _ _ _ _ _)
      | _ => simp [Res.bind]
    | some r =>
      simp only [Heap.getObjectClass, Heap.denote]
      cases hu : h.unwrap (h.next + 1) r with
      | throws p => exact absurd hu (unwrap_noThrow _ _ _ _)
      | ub u => simp [Res.bind]
      | diverges => simp [Res.bind]
      | ok i =>
        simp only [Res.bind_ok]
        cases i with
        | none => simp
        | some i =>
          simp only
          cases h.objs i with
          | none => simp
          | some o =>
            simp only
            cases o.cls with
            | none => simp [Heap.toJNI?]
            | some k =>
              simp only [Heap.toJNI?]
              cases hx : h.toJNI t (h.typeClass "java/lang/Class".toList) k with
              | throws p => exact absurd hx (toJNI_noThrow _ _ _ _ _)
              | _ => simp [Res.bind]
  simp only [HeapOp.run, HeapOp.exec, HeapOp.body, outRef]
  split
  · simp [Res.bind]
  · cases hx : h.getObjectClass t obj with
    | throws p => exact absurd hx (hb p)
    | _ => simp [Res.bind]

theorem classOf_noThrow (vm : Vm) (i : Option Nat) (e : Exn) : vm.classOf i ≠ .throws e := by
  cases i with
  | none => simp [Vm.classOf]
  | some i =>
    simp only [Vm.classOf]
    cases vm.heap.objs i with
    | none => simp
    | some o => simp only; split <;> simp

theorem objectClass_noThrow (vm : Vm) (t : Nat) (obj : Option Nat) (e : Exn) :
    vm.objectClass t obj ≠ .throws e := by
  unfold Vm.objectClass
  cases hx : (HeapOp.getObjectClass obj).run vm.heap t with
  | throws p => exact absurd hx (getObjectClass_noThrow _ _ _ _)
  | ub u => simp [Res.bind]
  | diverges => simp [Res.bind]
  | ok p =>
    obtain ⟨h, out⟩ := p
    simp only [Res.bind_ok]
    split
    · exact classOf_noThrow _ _ e
    · simp

theorem invoke_noEscape (code : Nat → Hook) (t : Nat) (ty : JType) (a : Access) (self : Self)
    (args : List (BitVec 64)) (vm : Vm) (m : Option MethodRec) :
    NoEscape (Vm.invoke code t ty a self args vm m) := by
  cases m with
  | none => trivial
  | some m =>
    simp only [Vm.invoke]
    cases m.handle with
    | none => trivial
    | some f => exact catchAll_noEscape ..

theorem withMethod_noEscape {vm : Vm} {id : Option Nat} {k : MethodRec → Outcome Vm (BitVec 64)}
    (hk : ∀ m, NoEscape (k m)) : NoEscape (vm.withMethod id k) := by
  unfold Vm.withMethod
  cases id with
  | none => trivial
  | some i =>
    simp only
    cases vm.world.method? i with
    | none => trivial
    | some m =>
      simp only
      split
      · exact hk m
      · trivial

/-- The class argument of the call, if it has one, is null or a class. -/
def ClassArgOk (vm : Vm) : Form → Prop
  | .virtual _ => True
  | .nonVirtual _ cl => cl = none ∨ ∃ c, IsClassRef vm cl c
  | .static cl => cl = none ∨ ∃ c, IsClassRef vm cl c

/-- C24: no C++ exception leaves `Call..MethodA`, in any state of any thread, for any ids and
arguments, whatever the handlers do; the class argument has to be a class. -/
theorem call_no_escape (code : Nat → Hook) {vm : Vm} (hr : VmReachable vm) (t : Nat) (ty : JType) {form : Form}
    (hc : ClassArgOk vm form) (id : Option Nat) (args : List (BitVec 64)) :
    NoEscape (vm.callA code t ty form id args) := by
  cases form with
  | virtual obj =>
    refine withMethod_noEscape fun m => ?_
    cases hx : vm.objectClass t obj with
    | ok p => simp only [Outcome.lift]; exact invoke_noEscape ..
    | throws e => exact absurd hx (objectClass_noThrow _ _ _ _)
    | ub u => trivial
    | diverges => trivial
  | nonVirtual obj cl =>
    refine withMethod_noEscape fun m => ?_
    rcases hc with rfl | ⟨c, hc⟩
    · rw [castClass_null]; simp only [Outcome.lift]; exact invoke_noEscape ..
    · rw [castClass_ref hr hc]; simp only [Outcome.lift]; exact invoke_noEscape ..
  | static cl =>
    simp only [Vm.callA]
    rcases hc with rfl | ⟨c, hc⟩
    · rw [castClass_null]
      exact withMethod_noEscape fun m => invoke_noEscape ..
    · rw [castClass_ref hr hc]
      exact withMethod_noEscape fun m => invoke_noEscape ..

/-- C24: a static call runs the function of the id on the class. -/
theorem static_call {code : Nat → Hook} (hb : WellBehaved code) {vm : Vm} (hr : VmReachable vm)
    {t : Nat} {cl : Option Nat} {c : Option Nat}
    (hc : cl = none ∧ c = none ∨ ∃ x, IsClassRef vm cl x ∧ c = some x) {id : Nat} {m : MethodRec}
    (hn : Names vm.world id m) {f : Nat} (hf : m.handle = some f) {ty : JType} (hty : (code f).type = ty)
    (hk : (code f).kind = .static) (args : List (BitVec 64)) :
    Handled t ((code f).run vm (.cls c) args) (vm.callA code t ty (.static cl) (some id) args) := by
  have hcast : vm.castClass cl = .ok (vm, c) := by
    rcases hc with ⟨rfl, rfl⟩ | ⟨x, hx, rfl⟩
    · exact castClass_null vm
    · exact castClass_ref hr hx
  simp only [Vm.callA, hcast, Outcome.lift, withMethod_hooked hr hn hf]
  rw [invoke_run hf, invoke_match hty (.inr (.inr ⟨hk, rfl⟩))]
  exact catchAll_handled (hb f vm (.cls c) args hr)

/-- Sample for `static_call`. -/
example : ∃ vm id m cl c, VmReachable vm ∧ IsClassRef vm cl c ∧ Names vm.world id m ∧ m.handle = some 6 ∧
    (sampleCode 6).type = .int ∧ (sampleCode 6).kind = .static := by
  obtain ⟨vm, a, b, c, q, m, m', s, q', f, g, S⟩ := sample_vm
  exact ⟨vm, s, ⟨s, "s".toList, "()I".toList, true, none, some 6⟩, some 9, a, S.reach, S.clsA,
    ⟨_, a, S.isA, by simp [S.methodsA], rfl⟩, rfl, rfl, rfl⟩

/-- The call and the handler do not fit: another result type, or an instance function called as a
static one or the other way round. -/
def Mismatch (k : Hook) (ty : JType) (a : Access) : Prop :=
  k.type ≠ ty ∨ ¬ (k.kind = .static ↔ a = .static)

theorem invoke_mismatch {k : Hook} {ty : JType} {a : Access} (h : Mismatch k ty a) (vm : Vm) (self : Self)
    (args : List (BitVec 64)) : k.invoke a ty vm self args = .raises vm .mismatchedHandle := by
  unfold Hook.invoke
  by_cases hty : k.type = ty
  · rw [if_pos hty]
    rcases h with h | h
    · exact absurd hty h
    · cases hk : k.kind <;> cases a <;> simp_all
  · rw [if_neg hty]

/-- C24: a call that does not fit the handler does not run it: the exception "Mismatched
MethodHandle!" becomes pending and the result is zero. -/
theorem call_mismatch_static {code : Nat → Hook} {vm : Vm} (hr : VmReachable vm)
    {t : Nat} {cl : Option Nat} {c : Nat} (hc : IsClassRef vm cl c) {id : Nat} {m : MethodRec}
    (hn : Names vm.world id m) {f : Nat} (hf : m.handle = some f) {ty : JType}
    (hm : Mismatch (code f) ty .static) (args : List (BitVec 64)) :
    Handled t (.raises vm .mismatchedHandle) (vm.callA code t ty (.static cl) (some id) args) := by
  simp only [Vm.callA, castClass_ref hr hc, Outcome.lift, withMethod_hooked hr hn hf]
  rw [invoke_run hf, invoke_mismatch hm]
  exact catchAll_handled (show VmReachable vm from hr)

theorem call_mismatch_virtual {code : Nat → Hook} {vm : Vm} (hr : VmReachable vm) {t : Nat} {env : Env}
    (he : vm.heap.envs t = some env) {obj : Option Nat} {c : Nat} (hc : ClassIs vm obj c) {id : Nat}
    {m : MethodRec} (hn : Names vm.world id m) {f : Nat} (hf : m.handle = some f) {ty : JType}
    (args : List (BitVec 64)) :
    ∃ vm1, AfterGetClass t obj vm vm1 ∧ ∀ g,
      (Implements vm.world c m.name m.signature g ∨
        g = f ∧ ∀ g', ¬ Implements vm.world c m.name m.signature g') →
      Mismatch (code g) ty .inst →
      Handled t (.raises vm1 .mismatchedHandle) (vm.callA code t ty (.virtual obj) (some id) args) := by
  obtain ⟨vm1, h1, h2⟩ := callVirtual_eq hr he hc hn hf ty args
  refine ⟨vm1, h1, fun g hg hm => ?_⟩
  have hover : (findVirtualOverload vm.world (some c) m).handle = some g := by
    rcases hg with hg | ⟨rfl, hg⟩
    · exact virtual_own hr.1 hg
    · rw [virtual_none hg, hf]
  rw [h2 g hover, invoke_mismatch hm]
  exact catchAll_handled (show VmReachable vm1 from AfterGetClass.reachable h1 hr)

theorem call_mismatch_nonvirtual {code : Nat → Hook} {vm : Vm} (hr : VmReachable vm)
    {t : Nat} {obj cl : Option Nat} {c : Nat} (hc : IsClassRef vm cl c) {id : Nat} {m : MethodRec}
    (hn : Names vm.world id m) (hf : m.handle.isSome) {g : Nat}
    (hg : Implements vm.world c m.name m.signature g) {ty : JType}
    (hm : Mismatch (code g) ty .nonVirtual) (args : List (BitVec 64)) :
    Handled t (.raises vm .mismatchedHandle) (vm.callA code t ty (.nonVirtual obj cl) (some id) args) := by
  obtain ⟨f, hf⟩ := Option.isSome_iff_exists.1 hf
  obtain ⟨m2, h1, h2⟩ := nonVirtual_own hr.1 hg
  simp only [Vm.callA, withMethod_hooked hr hn hf, castClass_ref hr hc, Outcome.lift, h1]
  rw [invoke_run h2, invoke_mismatch hm]
  exact catchAll_handled (show VmReachable vm from hr)

/-- Sample for the three theorems on mismatches. -/
example : ∃ vm id m id' m' cl c obj, VmReachable vm ∧ IsClassRef vm cl c ∧ ClassIs vm obj c ∧
    (∃ e, vm.heap.envs 0 = some e) ∧ Names vm.world id m ∧ m.handle = some 6 ∧ Names vm.world id' m' ∧
    m'.handle = some 1 ∧ Implements vm.world c m'.name m'.signature 1 ∧
    Mismatch (sampleCode 6) .long .static ∧ Mismatch (sampleCode 1) .int .static ∧
    Mismatch (sampleCode 1) .float .inst ∧ Mismatch (sampleCode 1) .object .nonVirtual := by
  obtain ⟨vm, a, b, c, q, m, m', s, q', f, g, S⟩ := sample_vm
  obtain ⟨e, he, _⟩ := S.env
  exact ⟨vm, s, ⟨s, "s".toList, "()I".toList, true, none, some 6⟩, m, _, some 9, a, some 10, S.reach, S.clsA,
    S.objA, ⟨e, he⟩, ⟨_, a, S.isA, by simp [S.methodsA], rfl⟩, rfl, S.namesA, rfl,
    ⟨⟨m, "m".toList, "()I".toList, false, none, some 1⟩, by simp [S.methodsA], rfl, rfl, rfl, rfl⟩,
    .inl (by decide), .inr (by decide), .inl (by decide), .inl (by decide)⟩

/-- C24: a null id or the id of a method without implementation gives zero and changes nothing. -/
theorem call_without_implementation (code : Nat → Hook) {vm : Vm} (hr : VmReachable vm) (t : Nat) (ty : JType)
    {form : Form} (hc : ClassArgOk vm form) {id : Option Nat}
    (hid : ∀ i, id = some i → ∃ m, Names vm.world i m ∧ m.handle = none) (args : List (BitVec 64)) :
    vm.callA code t ty form id args = .returns vm 0 := by
  have key : ∀ k, vm.withMethod id k = .returns vm 0 := by
    intro k
    cases id with
    | none => rfl
    | some i =>
      obtain ⟨m, hn, hm⟩ := hid i rfl
      simp only [Vm.withMethod, method?_names hr.1 hn, hm]
      rfl
  cases form with
  | virtual obj => exact key _
  | nonVirtual obj cl => exact key _
  | static cl =>
    simp only [Vm.callA]
    rcases hc with rfl | ⟨c, hc⟩
    · rw [castClass_null]; exact key _
    · rw [castClass_ref hr hc]; exact key _

/-- Sample for `call_without_implementation` and `call_no_escape`. -/
example : ∃ vm cl id m, VmReachable vm ∧ ClassArgOk vm (.static cl) ∧ cl ≠ none ∧ Names vm.world id m ∧
    m.handle = none := by
  obtain ⟨vm, a, b, c, q, m, m', s, q', f, g, S⟩ := sample_vm
  exact ⟨vm, some 9, q, ⟨q, "q".toList, "()V".toList, false, none, none⟩, S.reach, .inr ⟨a, S.clsA⟩, by simp,
    ⟨_, a, S.isA, by simp [S.methodsA], rfl⟩, rfl⟩

/-- C24: what a virtual call does before it runs the handler leaves the pending exception alone, so
after the call there is the one the handler left, or the one it threw. -/
theorem getClass_keeps_pending {vm vm1 : Vm} (hr : VmReachable vm) {t : Nat} {obj : Option Nat}
    (h : AfterGetClass t obj vm vm1) {env : Env} (he : vm.heap.envs t = some env) :
    ∃ env', vm1.heap.envs t = some env' ∧ env'.pending = env.pending := by
  obtain ⟨_, r, hx⟩ := h
  obtain ⟨e', h1, h2, _⟩ := pending_unchanged hr.2 he (ops := [(t, .getObjectClass obj)]) (h' := vm1.heap)
    (by intro op hop; simp at hop; subst hop; simp [TouchesPending])
    (by simp only [runHeap, hx, Res.bind_ok])
  exact ⟨e', h1, h2⟩

example : ∃ vm vm1 obj env, VmReachable vm ∧ AfterGetClass 0 obj vm vm1 ∧ vm.heap.envs 0 = some env := by
  obtain ⟨vm, a, b, c, q, m, m', s, q', f, g, S⟩ := sample_vm
  obtain ⟨e, he, _⟩ := S.env
  obtain ⟨vm1, h, _⟩ := objectClass_ref S.reach he S.objC
  exact ⟨vm, vm1, _, e, S.reach, h, he⟩

/-- C24: the `va_list` and variadic forms pass the arguments according to the signature and are then
the same as the array form. -/
theorem callV_is_callA (d2f : BitVec 64 → BitVec 32) (code : Nat → Hook) {vm : Vm} (hr : VmReachable vm) (t : Nat)
    (ty : JType) (form : Form) {id : Nat} {m : MethodRec} (hn : Names vm.world id m) {params : List Ty}
    {ret : Option Ty} (hs : m.signature = renderSig params ret) (hv : ∀ p ∈ params, p.Valid)
    {args extra : List CArg} {vals : List (BitVec 64)} (hp : Passes d2f params args vals) :
    vm.callV d2f code t ty form (some id) (args ++ extra) = vm.callA code t ty form (some id) vals := by
  simp only [Vm.callV, method?_names hr.1 hn, hs, varargs_delivered d2f params ret hv args extra vals hp,
    Outcome.lift]

/-- Sample for `callV_is_callA`: a method `(IJ)V`. -/
example (d2f : BitVec 64 → BitVec 32) : ∃ vm id m, VmReachable vm ∧ Names vm.world id m ∧
    m.signature = renderSig [.prim .int, .prim .long] none ∧ (∀ p ∈ [Ty.prim .int, .prim .long], p.Valid) ∧
    Passes d2f [.prim .int, .prim .long] [.int 5, .long 7] [5, 7] := by
  obtain ⟨vm, a, b, c, q, m, m', s, q', f, g, S⟩ := sample_vm
  have hs : (MemOp.hookMethod a false "p".toList "(IJ)V".toList 8).run vm.world =
    .ok (vm.world.hookMethod a false "p".toList "(IJ)V".toList 8) := rfl
  have hf : (vm.world.mem a).methods.find? (hookHits false "p".toList "(IJ)V".toList) = none := by
    rw [S.methodsA]; rfl
  refine ⟨⟨vm.world.hookMethod a false "p".toList "(IJ)V".toList 8, vm.heap⟩, vm.world.next,
    ⟨vm.world.next, "p".toList, "(IJ)V".toList, false, none, some 8⟩, ⟨S.reach.1.step hs, S.reach.2⟩,
    ⟨_, a, isClass_step S.reach.1.inv hs S.isA, ?_, rfl⟩, rfl, by simp [Ty.Valid], ?_⟩
  · simp only [hookMethod_new hf]
    simp
  · exact .cons rfl (.cons rfl .nil)

/-- C24 fails: an exception escapes if the class argument is no class. -/
theorem call_escapes_class : ∃ vm cl id m, VmReachable vm ∧ (∃ e, vm.heap.envs 0 = some e) ∧
    Names vm.world id m ∧ m.handle.isSome ∧
    ∀ code ty args, vm.callA code 0 ty (.static cl) (some id) args = .raises vm .badCast ∧
      ∀ obj, vm.callA code 0 ty (.nonVirtual obj cl) (some id) args = .raises vm .badCast := by
  obtain ⟨vm, a, b, c, q, m, m', s, q', f, g, S⟩ := sample_vm
  obtain ⟨e, he, _⟩ := S.env
  have hd : Denotes vm.heap (some 10) (some 10) := .direct S.objA' (by simp)
  have hcast : vm.castClass (some 10) = .throws .badCast := by
    simp only [Vm.castClass, Heap.cast, (Heap.denote_iff S.reach.2.inv.toPre).2 hd, Res.bind_ok, S.objA']
    rfl
  refine ⟨vm, some 10, m, _, S.reach, ⟨e, he⟩, S.namesA, rfl, fun code ty args => ⟨?_, fun obj => ?_⟩⟩
  · simp only [Vm.callA, hcast, Outcome.lift]
  · simp only [Vm.callA]
    rw [withMethod_hooked S.reach S.namesA rfl]
    simp only [hcast, Outcome.lift]

/-- C24 fails: the `va_list` and variadic forms let the exception about a signature that is none
escape. -/
theorem callV_escapes_signature (d2f : BitVec 64 → BitVec 32) {vm : Vm} (hr : VmReachable vm) {id : Nat}
    {m : MethodRec} (hn : Names vm.world id m) {ch : Char} {rest : Str} (hs : m.signature = ch :: rest)
    (hch : ch ≠ '(') (code : Nat → Hook) (t : Nat) (ty : JType) (form : Form) (va : List CArg) :
    vm.callV d2f code t ty form (some id) va = .raises vm .invalidSignature := by
  have : jvaluesFromValist d2f (ch :: rest) va = .throws .invalidSignature := by
    have h0 : chAt (ch :: rest) 0 = .ok ch := rfl
    unfold jvaluesFromValist
    rw [h0]
    exact if_pos hch
  simp only [Vm.callV, method?_names hr.1 hn, hs, this, Outcome.lift]

example : ∃ vm id m, VmReachable vm ∧ Names vm.world id m ∧ m.signature = "I".toList := by
  obtain ⟨vm, a, b, c, q, m, m', s, q', f, g, S⟩ := sample_vm
  have hs : (MemOp.hookMethod a false "p".toList "I".toList 8).run vm.world =
    .ok (vm.world.hookMethod a false "p".toList "I".toList 8) := rfl
  have hf : (vm.world.mem a).methods.find? (hookHits false "p".toList "I".toList) = none := by
    rw [S.methodsA]; rfl
  refine ⟨⟨vm.world.hookMethod a false "p".toList "I".toList 8, vm.heap⟩, vm.world.next,
    ⟨vm.world.next, "p".toList, "I".toList, false, none, some 8⟩, ⟨S.reach.1.step hs, S.reach.2⟩,
    ⟨_, a, isClass_step S.reach.1.inv hs S.isA, ?_, rfl⟩, rfl⟩
  simp only [hookMethod_new hf]
  simp

/-! ## C52: field accesses -/

theorem field?_names {w : World} (hr : MemReachable w) {id : Nat} {m : FieldRec} (h : NamesField w id m) :
    w.field? id = some m := by
  obtain ⟨n, c, hc, hm, rfl⟩ := h
  have hlt := isClass_lt hr.inv hc
  unfold World.field?
  cases hf : ((List.range w.reg.cls.length).flatMap fun c => (w.mem c).fields).find? (·.id == m.id) with
  | none =>
    have := List.find?_eq_none.1 hf m (List.mem_flatMap.2 ⟨c, List.mem_range.2 hlt, hm⟩)
    simp at this
  | some m' =>
    obtain ⟨d, _, hd⟩ := List.mem_flatMap.1 (List.mem_of_find?_eq_some hf)
    have hid := List.find?_some hf
    simp only [beq_iff_eq] at hid
    rw [(field_unique hr.inv hm hd hid.symm).2]

/-- What an accessor is called on: the object itself, or the class behind the reference. -/
inductive Receiver (vm : Vm) : Owner → Self → Prop where
  | obj (o : Option Nat) : Receiver vm (.obj o) (.obj o)
  | nullClass : Receiver vm (.cls none) (.cls none)
  | cls {r c} : IsClassRef vm r c → Receiver vm (.cls r) (.cls (some c))

/-- The function fits an access as `static` with type `ty`. -/
def Fits (k : Hook) (static : Bool) (ty : JType) : Prop := k.type = ty ∧ (k.kind = .static ↔ static = true)

theorem ownerSelf_receiver {vm : Vm} (hr : VmReachable vm) {owner : Owner} {self : Self}
    (h : Receiver vm owner self) : vm.ownerSelf owner = .ok (vm, self) := by
  cases h with
  | obj o => rfl
  | nullClass => rfl
  | cls h => simp only [Vm.ownerSelf, castClass_ref hr h, Res.bind_ok]

/-- C52: `Get<ty>Field`/`GetStatic<ty>Field` runs the installed getter of the field the id denotes,
in the state and on the receiver of the call, and its result or exception is that of the call. -/
theorem getField_runs_getter (code : Nat → Hook) {vm : Vm} (hr : VmReachable vm) {owner : Owner} {self : Self}
    (ho : Receiver vm owner self) {id : Nat} {f : FieldRec} (hn : NamesField vm.world id f) {g : Nat}
    (hg : f.getter = some g) (hs : f.static = owner.isClass) {ty : JType} (hf : Fits (code g) f.static ty) :
    vm.getField code ty owner (some id) = (code g).run vm self [] := by
  simp only [Vm.getField, field?_names hr.1 hn, hg, if_pos hs, ownerSelf_receiver hr ho, Outcome.lift, Hook.access]
  exact if_pos hf

/-- C52: `Set<ty>Field`/`SetStatic<ty>Field` on a non-null receiver runs the installed setter with
the value. -/
theorem setField_runs_setter (code : Nat → Hook) {vm : Vm} (hr : VmReachable vm) {owner : Owner} {self : Self}
    (ho : Receiver vm owner self) (hnn : owner.isNull = false) {id : Nat} {f : FieldRec}
    (hn : NamesField vm.world id f) {s : Nat} (hg : f.setter = some s) (hs : f.static = owner.isClass)
    {ty : JType} (hf : Fits (code s) f.static ty) (value : BitVec 64) :
    vm.setField code ty owner (some id) value = (code s).run vm self [value] := by
  simp only [Vm.setField, hnn, field?_names hr.1 hn, hg, if_pos hs, ownerSelf_receiver hr ho, Outcome.lift,
    Hook.access, Bool.false_eq_true, if_false]
  exact if_pos hf

/-- C52: a null id, or a field without the accessor, gives zero; the setter also does nothing on a null
receiver. -/
theorem field_without_accessor (code : Nat → Hook) {vm : Vm} (hr : VmReachable vm) (ty : JType) (owner : Owner)
    {id : Option Nat} (value : BitVec 64) :
    ((∀ i, id = some i → ∃ f, NamesField vm.world i f ∧ f.getter = none) →
      vm.getField code ty owner id = .returns vm 0) ∧
    ((owner.isNull = true ∨ ∀ i, id = some i → ∃ f, NamesField vm.world i f ∧ f.setter = none) →
      vm.setField code ty owner id value = .returns vm 0) := by
  constructor
  · intro h
    cases id with
    | none => rfl
    | some i =>
      obtain ⟨f, hn, hf⟩ := h i rfl
      simp only [Vm.getField, field?_names hr.1 hn, hf]
  · intro h
    unfold Vm.setField
    cases hnull : owner.isNull with
    | true => rfl
    | false =>
      simp only [Bool.false_eq_true, if_false]
      rcases h with h | h
      · rw [hnull] at h; cases h
      · cases id with
        | none => rfl
        | some i =>
          obtain ⟨f, hn, hf⟩ := h i rfl
          simp only [field?_names hr.1 hn, hf]

/-- C52: the access as a field of the other staticness ends the process. -/
theorem field_static_mismatch (code : Nat → Hook) {vm : Vm} (hr : VmReachable vm) (ty : JType) {owner : Owner}
    {id : Nat} {f : FieldRec} (hn : NamesField vm.world id f) (hs : f.static ≠ owner.isClass) (value : BitVec 64) :
    (f.getter.isSome → vm.getField code ty owner (some id) = .aborts) ∧
    (f.setter.isSome → owner.isNull = false → vm.setField code ty owner (some id) value = .aborts) := by
  constructor
  · intro h
    obtain ⟨g, hg⟩ := Option.isSome_iff_exists.1 h
    simp only [Vm.getField, field?_names hr.1 hn, hg, if_neg hs]
  · intro h hnn
    obtain ⟨g, hg⟩ := Option.isSome_iff_exists.1 h
    simp only [Vm.setField, field?_names hr.1 hn, hg, if_neg hs, hnn, Bool.false_eq_true, if_false]

/-- C52: an accessor of another type is not run, the exception escapes. -/
theorem field_type_mismatch (code : Nat → Hook) {vm : Vm} (hr : VmReachable vm) {owner : Owner} {self : Self}
    (ho : Receiver vm owner self) {id : Nat} {f : FieldRec} (hn : NamesField vm.world id f)
    (hs : f.static = owner.isClass) {ty : JType} (value : BitVec 64) :
    (∀ g, f.getter = some g → ¬ Fits (code g) f.static ty →
      vm.getField code ty owner (some id) = .raises vm .mismatchedHandle) ∧
    (∀ g, f.setter = some g → owner.isNull = false → ¬ Fits (code g) f.static ty →
      vm.setField code ty owner (some id) value = .raises vm .mismatchedHandle) := by
  constructor
  · intro g hg hf
    simp only [Vm.getField, field?_names hr.1 hn, hg, if_pos hs, ownerSelf_receiver hr ho, Outcome.lift, Hook.access]
    exact if_neg hf
  · intro g hg hnn hf
    simp only [Vm.setField, hnn, field?_names hr.1 hn, hg, if_pos hs, ownerSelf_receiver hr ho, Outcome.lift,
      Hook.access, Bool.false_eq_true, if_false]
    exact if_neg hf

/-- Sample for the theorems on fields: the field `f` of an object of class "C" and the static field `g`
of "A". -/
example : ∃ vm id f id' f' obj cl c self, VmReachable vm ∧ Receiver vm (.obj obj) self ∧
    (Owner.obj obj).isNull = false ∧
    NamesField vm.world id f ∧ f.getter = some 4 ∧ f.setter = some 5 ∧ f.static = (Owner.obj obj).isClass ∧
    f.static ≠ (Owner.cls cl).isClass ∧
    Fits (sampleCode 4) f.static .int ∧ Fits (sampleCode 5) f.static .int ∧ ¬ Fits (sampleCode 4) f.static .long ∧
    NamesField vm.world id' f' ∧ f'.getter = some 7 ∧ f'.setter = none ∧ Receiver vm (.cls cl) (.cls (some c)) ∧
    f'.static = (Owner.cls cl).isClass ∧ Fits (sampleCode 7) f'.static .int := by
  obtain ⟨vm, a, b, c, q, m, m', s, q', f, g, S⟩ := sample_vm
  exact ⟨vm, f, ⟨f, "f".toList, "I".toList, false, some 4, some 5⟩, g, ⟨g, "g".toList, "I".toList, true, some 7, none⟩,
    some 14, some 9, a, _, S.reach, .obj _, rfl, ⟨_, a, S.isA, by simp [S.fieldsA], rfl⟩, rfl, rfl, rfl,
    by simp [Owner.isClass], by simp [Fits, sampleCode], by simp [Fits, sampleCode], by simp [Fits, sampleCode],
    ⟨_, a, S.isA, by simp [S.fieldsA], rfl⟩, rfl, rfl, .cls S.clsA, rfl, by simp [Fits, sampleCode]⟩

/-- C52: an exception of an accessor escapes from the access. -/
theorem field_exception_escapes : ∃ code vm id owner, VmReachable vm ∧ WellBehaved code ∧
    ∀ e, ∃ vm', vm.getField (code := fun f => { code f with run := fun vm _ _ => .raises vm e }) .int owner
      (some id) = .raises vm' e := by
  obtain ⟨vm, a, b, c, q, m, m', s, q', f, g, S⟩ := sample_vm
  refine ⟨sampleCode, vm, f, .obj (some 14), S.reach, sampleCode_behaved, fun e => ⟨vm, ?_⟩⟩
  rw [getField_runs_getter _ S.reach (.obj _) (f := ⟨f, "f".toList, "I".toList, false, some 4, some 5⟩)
    ⟨_, a, S.isA, by simp [S.fieldsA], rfl⟩ rfl rfl (by simp [Fits, sampleCode])]

end Jnivm
