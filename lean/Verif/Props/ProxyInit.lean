import Verif.Props.Proxy
/-!
Constructors found and invoked from C++ (C47): `getMethod` with the name `<init>`.
-/
namespace Jnivm
open Spec

theorem no_static_native {w : World} (hr : MemReachable w) (c : Nat) (name sig : Str) :
    ¬ Available w c true true name sig := by
  rintro ⟨d, m, _, h1, h2, h3, _⟩
  have := hr.native_not_static h1 (h3 ▸ rfl)
  rw [h2] at this
  cases this

/-- The three lookups of `getMethod` on a constructor. -/
theorem getMethod_init_inv {w : World} (hr : MemReachable w) {n : Str} {c : Nat} (hc : w.IsClass n c)
    {depth : Nat} {args ret : Str} (ha : ')' ∉ args) {w' : World} {p : MethodProxy}
    (h : w.getMethod depth c ("(".toList ++ args ++ ")".toList ++ ret) "<init>".toList = .ok (w', p)) :
    w' = w ∧ p.native = none ∧
      w.getMethodID depth true true false (some c) "<init>".toList (factorySig n args) = .ok (w, p.member) ∧
      w.getMethodID depth true true false (some c) "<init>".toList ("(".toList ++ args ++ ")".toList ++ ret) =
        .ok (w, p.static) := by
  obtain ⟨⟨w1, a⟩, h1, hx⟩ := Res.bind_eq_ok.1 h
  rw [constructor_is_static_factory hr hc depth true false args ret ha] at h1
  obtain ⟨e1, _⟩ := lookup_null hr hc (fun _ => rfl) h1
  rw [e1] at hx h1
  obtain ⟨⟨w2, b⟩, h2, hy⟩ := Res.bind_eq_ok.1 hx
  obtain ⟨e2, _⟩ := lookup_null hr hc (fun _ => rfl) h2
  rw [e2] at hy h2
  by_cases hcond : (a.isNone && b.isNone) = true
  · have hz := (if_pos hcond).symm.trans hy
    obtain ⟨⟨w3, d⟩, h3, hz⟩ := Res.bind_eq_ok.1 hz
    rw [constructor_is_static_factory hr hc depth true true args ret ha] at h3
    obtain ⟨e3, hn⟩ := lookup_null hr hc (fun _ => rfl) h3
    have hd : d = none := hn.2 fun x hs m hm => no_static_native hr c _ _ ⟨x, m, hs, hm⟩
    cases hz
    simp only [Bool.and_eq_true, Option.isNone_iff_eq_none] at hcond
    obtain ⟨rfl, rfl⟩ := hcond
    exact ⟨e3, hd, h1, h2⟩
  · have hz := (if_neg hcond).symm.trans hy
    cases hz
    exact ⟨rfl, rfl, h1, h2⟩

/-- C47, constructors. `getMethod` with the name `<init>` changes nothing.  In the place of the member
function it has the constructor with these parameters, whatever return type is written, exactly if there is
one; in the place of the static function the constructor whose signature is the one that was written; it never
has a native function. -/
theorem getMethod_init {w : World} (hr : MemReachable w) {n : Str} {c : Nat} (hc : w.IsClass n c)
    {depth : Nat} {args ret : Str} (ha : ')' ∉ args) {w' : World} {p : MethodProxy}
    (h : w.getMethod depth c ("(".toList ++ args ++ ")".toList ++ ret) "<init>".toList = .ok (w', p)) :
    w' = w ∧ (p.member.isSome ↔ Available w c true false "<init>".toList (factorySig n args)) ∧
    (∀ id, p.member = some id → Identifies w c true false "<init>".toList (factorySig n args) id) ∧
    (p.static.isSome ↔ Available w c true false "<init>".toList ("(".toList ++ args ++ ")".toList ++ ret)) ∧
    (∀ id, p.static = some id →
      Identifies w c true false "<init>".toList ("(".toList ++ args ++ ")".toList ++ ret) id) ∧
    p.native = none := by
  obtain ⟨e, hn, h1, h2⟩ := getMethod_init_inv hr hc ha h
  have den : ∀ {sig id}, w.getMethodID depth true true false (some c) "<init>".toList sig = .ok (w, some id) →
      Identifies w c true false "<init>".toList sig id := fun h =>
    lookup_denotes hr hc (fun _ => rfl) (fun h => by cases h) h
  exact ⟨e, available_iff (lookup_null hr hc (fun _ => rfl) h1).2, fun id hi => den (by rw [h1, hi]),
    available_iff (lookup_null hr hc (fun _ => rfl) h2).2, fun id hi => den (by rw [h2, hi]), hn⟩

/-- C47, constructors. `getMethod` answers on every acyclic hierarchy. -/
theorem getMethod_init_total {w : World} (hr : MemReachable w) {n : Str} {c : Nat} (hc : w.IsClass n c)
    (hac : Acyclic w.bases) {args : Str} (ha : ')' ∉ args) (ret : Str) :
    ∃ N, ∀ depth, N ≤ depth →
      ∃ p, w.getMethod depth c ("(".toList ++ args ++ ")".toList ++ ret) "<init>".toList = .ok (w, p) := by
  obtain ⟨l, hl⟩ := acyclic_searchOrder hac c
  refine ⟨l.length, fun depth hd => ?_⟩
  have key : ∀ nat sig, ∃ r, w.getMethodID depth true true nat (some c) "<init>".toList sig = .ok (w, r) := by
    intro nat sig
    rw [getMethodID_isClass hr.inv hc, effKey_plain (fun _ => rfl)]
    unfold World.methodOf
    rw [dfs_searchOrder hl hd]
    simp only [Res.bind_ok]
    cases l.findSome? (w.ownMethod ⟨true, nat, "<init>".toList, sig⟩) <;> exact ⟨_, rfl⟩
  obtain ⟨a, h1⟩ := key false ("(".toList ++ args ++ ")L".toList ++ n ++ ";".toList)
  obtain ⟨b, h2⟩ := key false ("(".toList ++ args ++ ")".toList ++ ret)
  obtain ⟨d, h3⟩ := key true ("(".toList ++ args ++ ")L".toList ++ n ++ ";".toList)
  simp only [World.getMethod, constructor_is_static_factory hr hc depth _ _ args ret ha, h1, h2, h3, Res.bind_ok]
  cases a <;> cases b <;> exact ⟨_, rfl⟩

/-- C47 for the way Java writes constructors: with a return type that is not the class, invoking the proxy on
the class throws, whether or not the class has the constructor. -/
theorem init_on_class {w : World} (hr : MemReachable w) {n : Str} {c : Nat} (hc : w.IsClass n c)
    {depth : Nat} {args ret : Str} (ha : ')' ∉ args) {w' : World} {p : MethodProxy}
    (h : w.getMethod depth c ("(".toList ++ args ++ ")".toList ++ ret) "<init>".toList = .ok (w', p))
    (hno : ¬ Available w c true false "<init>".toList ("(".toList ++ args ++ ")".toList ++ ret))
    (natives : NativeCode) (code : Nat → Hook) (vm : Vm) (t k : Nat) (vals : List (BitVec 64)) :
    vm.invokeProxy natives code t p (.cls k) vals = .raises vm .noSuchMethod := by
  obtain ⟨_, _, _, hs, _, hn⟩ := getMethod_init hr hc ha h
  refine (invoke_nothing natives code vm t p vals hn).1 ?_ k
  cases hp : p.static with
  | none => rfl
  | some x => exact absurd (hs.1 (hp ▸ rfl)) hno

/-- C47, constructors, invoked on an object: the constructor is a static function, so the call throws. -/
theorem init_on_object {natives : NativeCode} {code : Nat → Hook} {vm : Vm} (hr : VmReachable vm) {t : Nat}
    {env : Env} (he : vm.heap.envs t = some env) {i c : Nat} (hi : IsObject vm i) (hc : ClassIs vm (some i) c)
    {p : MethodProxy} {id : Nat} (hp : p.member = some id) {m : MethodRec} (hn : Names vm.world id m)
    (hst : m.static = true) {f : Nat} (hf : m.handle = some f) (hkind : (code f).kind = .static)
    (hno : ∀ g, ¬ Implements vm.world c m.name m.signature g) {params : List Ty} {ret : Option Ty}
    (hs : m.signature = renderSig params ret) (hret : ')' ∉ renderRet ret) (vals : List (BitVec 64)) :
    ∃ vm', vm.invokeProxy natives code t p (.obj i) vals = .raises vm' .mismatchedHandle ∧
      vm'.world = vm.world := by
  obtain ⟨vm1, h1, hr1, ⟨e1, he1, _⟩, keep⟩ := asRef_run hr he (target := .obj i) hi
  have hc1 := ClassIs_afterRef hr hc hi h1.1 rfl keep
  have hn1 : Names vm1.world id m := by rw [h1.1]; exact hn
  obtain ⟨vm2, h2, hcall⟩ := callVirtual_eq (code := code) hr1 he1 hc1 hn1 hf (retJType ret) vals
  have hcall := hcall f (by rw [h1.1, virtual_none hno, hf])
  have hrun : (code f).invoke .inst (retJType ret) vm2 (.obj (some i)) vals = .raises vm2 .mismatchedHandle := by
    unfold Hook.invoke
    split
    · rw [hkind]
    · rfl
  rw [hrun] at hcall
  have hr2 := AfterGetClass.reachable h2 hr1
  have hend : EndsIn VmReachable (Outcome.raises (α := BitVec 64) vm2 .mismatchedHandle) := hr2
  have hnat : m.native = none := by
    cases hx : m.native with
    | none => rfl
    | some x =>
      obtain ⟨_, d, _, hm, _⟩ := hn
      have := hr.1.native_not_static hm (hx ▸ rfl)
      rw [hst] at this
      cases this
  have hpick : p.onObject = .ok id := ((proxy_picks p).2.1 id).2 (.inl hp)
  have hsh : Shown t (retJType ret) (Vm.catchAll t (.raises vm2 .mismatchedHandle))
      (vm.invokeProxy natives code t p (.obj i) vals) := by
    simp only [Vm.invokeProxy, hpick, Outcome.lift, invokeMethod_hooked hr h1 hn hnat hs hret, Recipient.form, hcall]
    exact rethrow_shown (handled_endsIn hend rfl)
  obtain ⟨hw2, r, hx2⟩ := h2
  obtain ⟨e2, he2, _⟩ := pending_unchanged hr1.2 he1 (ops := [(t, .getObjectClass (some i))]) (h' := vm2.heap)
    (by intro op hop; simp at hop; subst hop; simp [TouchesPending]) (by simp only [runHeap, hx2, Res.bind_ok])
  obtain ⟨vm', _, _, h3, h4, _⟩ := invoke_throws he2 (catchAll_handled hend) hsh
  exact ⟨vm', h3, h4.trans (hw2.trans h1.1)⟩

/-- C47, constructors, with the signature they are recorded under: the proxy has the constructor twice.  It
converts to false and its conversion to a method throws, but invoking it on the class runs the constructor
(`invoke_on_class`). -/
theorem init_written_out {w : World} (hr : MemReachable w) {n : Str} {c : Nat} (hc : w.IsClass n c)
    {depth : Nat} {args : Str} (ha : ')' ∉ args) {w' : World} {p : MethodProxy}
    (h : w.getMethod depth c (factorySig n args) "<init>".toList = .ok (w', p)) :
    p.member = p.static ∧ p.native = none ∧ p.toBool = false ∧
    (Available w c true false "<init>".toList (factorySig n args) → p.toMethod = .throws .ambiguous ∧
      ∃ id, p.onClass = .ok id ∧ p.static = some id ∧
        Identifies w c true false "<init>".toList (factorySig n args) id) := by
  have e : factorySig n args = "(".toList ++ args ++ ")".toList ++ ("L".toList ++ n ++ ";".toList) := by
    simp [factorySig]
  rw [e] at h
  obtain ⟨_, hn, h1, h2⟩ := getMethod_init_inv hr hc ha h
  obtain ⟨_, h3, h4, _⟩ := getMethod_init hr hc ha h
  rw [← e, h1] at h2
  obtain ⟨a, b, d⟩ := p
  cases h2
  cases hn
  refine ⟨rfl, rfl, by cases a <;> rfl, fun hav => ?_⟩
  cases a with
  | none => exact absurd (h3.2 hav) (by simp)
  | some id => exact ⟨rfl, id, rfl, rfl, h4 id rfl⟩

/-! ### A sample -/

/-- Class "A" has the hooked constructor `k` without parameters; object 9 is the class, object 10 an object of
it. -/
structure SampleInit (vm : Vm) (a k : Nat) : Prop where
  reach : VmReachable vm
  isA : vm.world.IsClass "A".toList a
  bases : vm.world.bases a = some [none]
  known : ⟨k, "<init>".toList, "()LA;".toList, true, none, some 6⟩ ∈ (vm.world.mem a).methods
  only : ∀ m ∈ (vm.world.mem a).methods, m.name = "<init>".toList →
    m = ⟨k, "<init>".toList, "()LA;".toList, true, none, some 6⟩
  env : ∃ e, vm.heap.envs 0 = some e ∧ e.pending = none
  obj : IsObject vm 10
  classIs : ClassIs vm (some 10) a

theorem sample_init : ∃ vm a k, SampleInit vm a k := by
  obtain ⟨vm, a, q, m, s, m', s', n, S⟩ := sample_proxy
  have r1 : (MemOp.hookMethod a true "<init>".toList "()LA;".toList 6).run vm.world =
    .ok (vm.world.hookMethod a true "<init>".toList "()LA;".toList 6) := rfl
  have hf : (vm.world.mem a).methods.find? (hookHits true "<init>".toList "()LA;".toList) = none := by
    rw [S.methods]; rfl
  have c1 := isClass_step S.reach.1.inv r1 S.isA
  have e1 := hookMethod_new hf 6
  have b1 := hookMethod_bases vm.world a true "<init>".toList "()LA;".toList 6
  have m1 : ((vm.world.hookMethod a true "<init>".toList "()LA;".toList 6).mem a).methods =
      (vm.world.mem a).methods ++ [⟨vm.world.next, "<init>".toList, "()LA;".toList, true, none, some 6⟩] := by
    rw [e1]; simp
  have q1 := S.reach.1.step r1
  obtain ⟨i, o, kc, hd, ho, hk, kc', ok, n2, hd2, hok, hkind, hcls⟩ := S.classIs
  refine ⟨⟨vm.world.hookMethod a true "<init>".toList "()LA;".toList 6, vm.heap⟩, a, vm.world.next,
    ⟨q1, S.reach.2⟩, c1, (congrFun b1 a).trans S.bases, ?_, ?_, S.env, ⟨_, S.obj, by simp⟩,
    ⟨i, o, kc, hd, ho, hk, kc', ok, n2, hd2, hok, hkind, isClass_step S.reach.1.inv r1 hcls⟩⟩
  · show _ ∈ ((vm.world.hookMethod a true "<init>".toList "()LA;".toList 6).mem a).methods
    rw [m1]; exact List.mem_append_right _ (List.mem_singleton.2 rfl)
  · show ∀ m ∈ ((vm.world.hookMethod a true "<init>".toList "()LA;".toList 6).mem a).methods, _
    rw [m1, S.methods]
    intro x hx hn
    rcases List.mem_append.1 hx with hx | hx
    · simp only [List.mem_cons, List.not_mem_nil, or_false] at hx
      rcases hx with rfl | rfl | rfl | rfl | rfl | rfl <;> dsimp only at hn <;> exact absurd hn (by decide)
    · exact List.mem_singleton.1 hx

theorem SampleInit.lookup {vm : Vm} {a k : Nat} (S : SampleInit vm a k) (nat : Bool) (sig : Str) :
    vm.world.getMethodID 1 true true nat (some a) "<init>".toList sig =
      .ok (vm.world, if sig = "()LA;".toList ∧ nat = false then some k else none) := by
  rw [getMethodID_isClass S.reach.1.inv S.isA, effKey_plain (fun _ => rfl)]
  unfold World.methodOf
  cases ho : vm.world.ownMethod ⟨true, nat, "<init>".toList, sig⟩ a with
  | some x =>
    rw [dfs_own ho]
    obtain ⟨m, ⟨h1, h2, h3, h4, h5⟩, rfl⟩ := ownMethod_some ho
    have := S.only m h1 h4
    subst this
    have hs : sig = "()LA;".toList := h5.symm
    have hk : nat = false := h3.symm
    simp only [Res.bind_ok, hs, hk, and_self, if_true]
  | none =>
    have : dfs vm.world.bases (vm.world.ownMethod ⟨true, nat, "<init>".toList, sig⟩) 1 a = .ok none := by
      simp only [dfs, ho, S.bases]; rfl
    rw [this]
    have hx : ¬ (sig = "()LA;".toList ∧ nat = false) := by
      rintro ⟨rfl, rfl⟩
      exact ownMethod_none.1 ho _ ⟨S.known, rfl, rfl, rfl, rfl⟩
    simp only [Res.bind_ok, if_true, if_neg hx]

theorem SampleInit.proxy {vm : Vm} {a k : Nat} (S : SampleInit vm a k) (ret : Str) :
    vm.world.getMethod 1 a ("(".toList ++ [] ++ ")".toList ++ ret) "<init>".toList =
      .ok (vm.world, ⟨some k, if ret = "LA;".toList then some k else none, none⟩) := by
  have e : ("(".toList ++ [] ++ ")".toList ++ ret = "()LA;".toList) ↔ ret = "LA;".toList := by simp
  simp only [World.getMethod, constructor_is_static_factory S.reach.1 S.isA 1 _ _ [] ret (by simp), S.lookup,
    Res.bind_ok, e, and_true]
  have e2 : "(".toList ++ [] ++ ")L".toList ++ "A".toList ++ ";".toList = "()LA;".toList := by decide
  rw [if_pos e2, if_neg (by simp)]

/-- C47 fails for constructors: `getMethod("()V", "<init>")` finds the constructor of the class and the proxy
converts to true, but invoking it throws, on the class as well as on an object. -/
theorem getMethod_init_useless : ∃ vm a p id m, VmReachable vm ∧ vm.world.IsClass "A".toList a ∧
    vm.world.getMethod 1 a "()V".toList "<init>".toList = .ok (vm.world, p) ∧ p.toBool = true ∧
    p.toMethod = .ok (some id) ∧ Names vm.world id m ∧ ConstructorOf "A".toList m ∧ m.handle = some 6 ∧
    IsObject vm 10 ∧ ClassIs vm (some 10) a ∧ ∀ natives (code : Nat → Hook) vals, (code 6).kind = .static →
      (∀ k, vm.invokeProxy natives code 0 p (.cls k) vals = .raises vm .noSuchMethod) ∧
      ∃ vm', vm.invokeProxy natives code 0 p (.obj 10) vals = .raises vm' .mismatchedHandle := by
  obtain ⟨vm, a, k, S⟩ := sample_init
  obtain ⟨e, he, _⟩ := S.env
  have hp := S.proxy "V".toList
  rw [if_neg (by decide)] at hp
  have hn : Names vm.world k ⟨k, "<init>".toList, "()LA;".toList, true, none, some 6⟩ :=
    ⟨_, a, S.isA, S.known, rfl⟩
  refine ⟨vm, a, _, k, _, S.reach, S.isA, hp, rfl, rfl, hn, ⟨rfl, rfl, "(".toList, by decide, rfl⟩, rfl, S.obj, S.classIs,
    fun natives code vals hk => ⟨fun j => (invoke_nothing natives code vm 0 _ vals rfl).1 rfl j, ?_⟩⟩
  have hno : ∀ g, ¬ Implements vm.world a "<init>".toList "()LA;".toList g := by
    rintro g ⟨m, h1, h2, h3, _⟩
    rw [S.only m h1 h3] at h2
    cases h2
  obtain ⟨vm', h, _⟩ := init_on_object (natives := natives) S.reach he S.obj S.classIs (p := ⟨some k, none, none⟩) rfl hn rfl rfl
    hk hno (params := []) (ret := some (.cls "A".toList)) rfl (by decide) vals
  exact ⟨vm', h⟩

/-- Sample for the theorems on constructors. -/
example : ∃ w a p, MemReachable w ∧ w.IsClass "A".toList a ∧
    w.getMethod 1 a ("(".toList ++ [] ++ ")".toList ++ "V".toList) "<init>".toList = .ok (w, p) ∧ p.member ≠ none ∧
    ¬ Available w a true false "<init>".toList ("(".toList ++ [] ++ ")".toList ++ "V".toList) := by
  obtain ⟨vm, a, k, S⟩ := sample_init
  have hp := S.proxy "V".toList
  rw [if_neg (by decide)] at hp
  refine ⟨vm.world, a, _, S.reach.1, S.isA, hp, by simp, fun hav => ?_⟩
  have := (getMethod_init S.reach.1 S.isA (by simp) hp).2.2.2.1.2 hav
  simp at this

/-- Sample for `init_written_out`. -/
example : ∃ w a p, MemReachable w ∧ w.IsClass "A".toList a ∧
    w.getMethod 1 a (factorySig "A".toList []) "<init>".toList = .ok (w, p) ∧
    Available w a true false "<init>".toList (factorySig "A".toList []) := by
  obtain ⟨vm, a, k, S⟩ := sample_init
  have hp := S.proxy "LA;".toList
  exact ⟨vm.world, a, _, S.reach.1, S.isA, hp, a, _, .refl a, S.known, rfl, rfl, rfl, rfl⟩

end Jnivm
