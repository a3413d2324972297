import Verif.Lemmas.Proxy
import Verif.Props.Hooks
/-!
Properties of `getMethod`, `MethodProxy` and `Method::invoke` (C47).
-/
namespace Jnivm
open Spec

/-! ### A sample -/

/-- Class "A" has the member functions `q` (unhooked) and `m`, the static functions `s` and `m` and the
native functions `s` and `n`; object 9 is the class, object 10 an object of it. -/
structure SampleProxy (vm : Vm) (a q m s m' s' n : Nat) : Prop where
  reach : VmReachable vm
  isA : vm.world.IsClass "A".toList a
  bases : vm.world.bases a = some [none]
  methods : (vm.world.mem a).methods = [⟨q, "q".toList, "()V".toList, false, none, none⟩,
    ⟨m, "m".toList, "()I".toList, false, none, some 1⟩, ⟨s, "s".toList, "()I".toList, true, none, some 6⟩,
    ⟨m', "m".toList, "()I".toList, true, none, some 6⟩, ⟨s', "s".toList, "()I".toList, false, some 8, none⟩,
    ⟨n, "n".toList, "()I".toList, false, some 9, none⟩]
  env : ∃ e, vm.heap.envs 0 = some e ∧ e.pending = none
  obj : vm.heap.objs 10 = some ⟨.plain, some 9⟩
  cls : ∃ o, vm.heap.objs 9 = some o ∧ o.kind = .cls "A".toList

theorem sample_proxy : ∃ vm a q m s m' s' n, SampleProxy vm a q m s m' s' n := by
  obtain ⟨vm, a, b, c, q, m, m', s, q', f, g, S⟩ := sample_vm
  have r1 : (MemOp.hookMethod a true "m".toList "()I".toList 6).run vm.world =
    .ok (vm.world.hookMethod a true "m".toList "()I".toList 6) := rfl
  have hf : (vm.world.mem a).methods.find? (hookHits true "m".toList "()I".toList) = none := by
    rw [S.methodsA]; rfl
  have c1 := isClass_step S.reach.1.inv r1 S.isA
  have e1 := hookMethod_new hf 6
  have b1 := hookMethod_bases vm.world a true "m".toList "()I".toList 6
  have m1 : ((vm.world.hookMethod a true "m".toList "()I".toList 6).mem a).methods =
      (vm.world.mem a).methods ++ [⟨vm.world.next, "m".toList, "()I".toList, true, none, some 6⟩] := by
    rw [e1]; simp
  have q1 := S.reach.1.step r1
  generalize vm.world.hookMethod a true "m".toList "()I".toList 6 = w1 at r1 c1 m1 q1 b1
  have r2 : (MemOp.registerNatives (some a) [⟨"s".toList, "()I".toList, some 8⟩, ⟨"n".toList, "()I".toList, some 9⟩]).run w1 =
    .ok (w1.registerNatives (some a) [⟨"s".toList, "()I".toList, some 8⟩, ⟨"n".toList, "()I".toList, some 9⟩]) := rfl
  have c2 := isClass_step q1.inv r2 c1
  have b2 := (register_keeps w1 a [⟨"s".toList, "()I".toList, some 8⟩, ⟨"n".toList, "()I".toList, some 9⟩]).2.2.2.1
  refine ⟨⟨w1.registerNatives (some a) [⟨"s".toList, "()I".toList, some 8⟩, ⟨"n".toList, "()I".toList, some 9⟩], vm.heap⟩,
    a, q, m, s, vm.world.next, w1.next, w1.next + 1, ⟨q1.step r2, S.reach.2⟩, c2, ?_, ?_, S.env, S.objA', ?_⟩
  · exact (congrFun b2 a).trans ((congrFun b1 a).trans S.basesA)
  · simp [World.registerNatives, World.registerOne, m1, S.methodsA]
  · exact S.cls9

/-- The answer on a class without superclasses. -/
theorem getMethod_leaf {w : World} (hr : MemReachable w) {n : Str} {a : Nat} (ha : w.IsClass n a)
    (hb : w.bases a = some [none]) (sig : Str) {name : Str} (hname : name ≠ "<init>".toList) :
    w.getMethod 1 a sig name = .ok (w,
      if w.ownMethod ⟨false, false, name, sig⟩ a = none ∧ w.ownMethod ⟨true, false, name, sig⟩ a = none then
        ⟨none, none, w.ownMethod ⟨false, true, name, sig⟩ a⟩
      else ⟨w.ownMethod ⟨false, false, name, sig⟩ a, w.ownMethod ⟨true, false, name, sig⟩ a, none⟩) := by
  have key : ∀ st nat, w.getMethodID 1 st true nat (some a) name sig =
      .ok (w, w.ownMethod ⟨st, nat, name, sig⟩ a) := by
    intro st nat
    rw [getMethodID_isClass hr.inv ha, effKey_plain (fun h => absurd h hname)]
    unfold World.methodOf
    cases ho : w.ownMethod ⟨st, nat, name, sig⟩ a with
    | some x => rw [dfs_own ho]; rfl
    | none =>
      have : dfs w.bases (w.ownMethod ⟨st, nat, name, sig⟩) 1 a = .ok none := by
        simp only [dfs, ho, hb]; rfl
      rw [this]; rfl
  simp only [World.getMethod, key, Res.bind_ok]
  cases w.ownMethod ⟨false, false, name, sig⟩ a <;> cases w.ownMethod ⟨true, false, name, sig⟩ a <;> simp

theorem SampleProxy.both {vm : Vm} {a q m s m' s' n : Nat} (S : SampleProxy vm a q m s m' s' n) :
    vm.world.getMethod 1 a "()I".toList "m".toList = .ok (vm.world, ⟨some m, some m', none⟩) := by
  rw [getMethod_leaf S.reach.1 S.isA S.bases _ (by decide)]
  have h1 : vm.world.ownMethod ⟨false, false, "m".toList, "()I".toList⟩ a = some m := by
    unfold World.ownMethod; rw [S.methods]; rfl
  have h2 : vm.world.ownMethod ⟨true, false, "m".toList, "()I".toList⟩ a = some m' := by
    unfold World.ownMethod; rw [S.methods]; rfl
  rw [h1, h2]; simp

theorem SampleProxy.static {vm : Vm} {a q m s m' s' n : Nat} (S : SampleProxy vm a q m s m' s' n) :
    vm.world.getMethod 1 a "()I".toList "s".toList = .ok (vm.world, ⟨none, some s, none⟩) := by
  rw [getMethod_leaf S.reach.1 S.isA S.bases _ (by decide)]
  have h1 : vm.world.ownMethod ⟨false, false, "s".toList, "()I".toList⟩ a = none := by
    unfold World.ownMethod; rw [S.methods]; rfl
  have h2 : vm.world.ownMethod ⟨true, false, "s".toList, "()I".toList⟩ a = some s := by
    unfold World.ownMethod; rw [S.methods]; rfl
  rw [h1, h2]; simp

theorem SampleProxy.native {vm : Vm} {a q m s m' s' n : Nat} (S : SampleProxy vm a q m s m' s' n) :
    vm.world.getMethod 1 a "()I".toList "n".toList = .ok (vm.world, ⟨none, none, some n⟩) := by
  rw [getMethod_leaf S.reach.1 S.isA S.bases _ (by decide)]
  have h1 : vm.world.ownMethod ⟨false, false, "n".toList, "()I".toList⟩ a = none := by
    unfold World.ownMethod; rw [S.methods]; rfl
  have h2 : vm.world.ownMethod ⟨true, false, "n".toList, "()I".toList⟩ a = none := by
    unfold World.ownMethod; rw [S.methods]; rfl
  have h3 : vm.world.ownMethod ⟨false, true, "n".toList, "()I".toList⟩ a = some n := by
    unfold World.ownMethod; rw [S.methods]; rfl
  rw [h1, h2, h3]; simp

/-! ### Finding -/

theorem available_iff {w : World} {c : Nat} {st nat : Bool} {name sig : Str} {r : Option Nat}
    (h : r = none ↔ ∀ d, Super w.bases c d → ∀ m, ¬ w.Declares d st nat name sig m) :
    r.isSome = true ↔ Available w c st nat name sig := by
  rw [Option.isSome_iff_ne_none, ne_eq, h]
  constructor
  · intro hn
    refine Classical.byContradiction fun hc => hn fun d hd m hm => hc ⟨d, m, hd, hm⟩
  · rintro ⟨d, m, hd, hm⟩ hn
    exact hn d hd m hm

theorem getMethod_inv {w : World} (hr : MemReachable w) {n : Str} {c : Nat} (hc : w.IsClass n c)
    {depth : Nat} {sig name : Str} (hname : name ≠ "<init>".toList) {w' : World} {p : MethodProxy}
    (h : w.getMethod depth c sig name = .ok (w', p)) :
    ∃ a b, w.getMethodID depth false true false (some c) name sig = .ok (w, a) ∧
      w.getMethodID depth true true false (some c) name sig = .ok (w, b) ∧ w' = w ∧
      ((a = none ∧ b = none ∧ ∃ d, w.getMethodID depth false true true (some c) name sig = .ok (w, d) ∧
        p = ⟨none, none, d⟩) ∨ ¬ (a = none ∧ b = none) ∧ p = ⟨a, b, none⟩) := by
  obtain ⟨⟨w1, a⟩, h1, hx⟩ := Res.bind_eq_ok.1 h
  obtain ⟨e1, _⟩ := lookup_null hr hc (fun h => absurd h hname) h1
  rw [e1] at hx h1
  obtain ⟨⟨w2, b⟩, h2, hy⟩ := Res.bind_eq_ok.1 hx
  obtain ⟨e2, _⟩ := lookup_null hr hc (fun h => absurd h hname) h2
  rw [e2] at hy h2
  refine ⟨a, b, h1, h2, ?_⟩
  by_cases hcond : (a.isNone && b.isNone) = true
  · have hz := (if_pos hcond).symm.trans hy
    obtain ⟨⟨w3, d⟩, h3, hz⟩ := Res.bind_eq_ok.1 hz
    obtain ⟨e3, _⟩ := lookup_null hr hc (fun h => absurd h hname) h3
    cases hz
    rw [e3] at h3
    simp only [Bool.and_eq_true, Option.isNone_iff_eq_none] at hcond
    exact ⟨e3, .inl ⟨hcond.1, hcond.2, d, h3, rfl⟩⟩
  · have hz := (if_neg hcond).symm.trans hy
    cases hz
    simp only [Bool.and_eq_true, Option.isNone_iff_eq_none] at hcond
    exact ⟨rfl, .inr ⟨hcond, rfl⟩⟩

/-- C47. `getMethod` changes nothing; it finds a member and a static function exactly when one exists,
and a native one exactly when one exists and there is neither a member nor a static function. -/
theorem getMethod_exact {w : World} (hr : MemReachable w) {n : Str} {c : Nat} (hc : w.IsClass n c)
    {depth : Nat} {sig name : Str} (hname : name ≠ "<init>".toList) {w' : World} {p : MethodProxy}
    (h : w.getMethod depth c sig name = .ok (w', p)) :
    w' = w ∧ (p.member.isSome ↔ Available w c false false name sig) ∧
    (p.static.isSome ↔ Available w c true false name sig) ∧
    (p.native.isSome ↔ Available w c false true name sig ∧ ¬ Available w c false false name sig ∧
      ¬ Available w c true false name sig) := by
  obtain ⟨a, b, h1, h2, e, hp⟩ := getMethod_inv hr hc hname h
  have ha := available_iff (lookup_null hr hc (fun h => absurd h hname) h1).2
  have hb := available_iff (lookup_null hr hc (fun h => absurd h hname) h2).2
  rcases hp with ⟨rfl, rfl, d, h3, rfl⟩ | ⟨hn, rfl⟩
  · have hd := available_iff (lookup_null hr hc (fun h => absurd h hname) h3).2
    refine ⟨e, ha, hb, ?_⟩
    rw [← ha, ← hb, hd]
    simp
  · refine ⟨e, ha, hb, ?_⟩
    rw [← ha, ← hb]
    cases a <;> cases b <;> simp_all

/-- Sample for the theorems on `getMethod`. -/
example : ∃ w a p, MemReachable w ∧ w.IsClass "A".toList a ∧ "n".toList ≠ "<init>".toList ∧
    w.getMethod 1 a "()I".toList "n".toList = .ok (w, p) ∧ p.native ≠ none := by
  obtain ⟨vm, a, q, m, s, m', s', n, S⟩ := sample_proxy
  exact ⟨vm.world, a, _, S.reach.1, S.isA, by decide, S.native, by simp⟩

/-- C47 fails: a native function is not found if there is a static one of the same name and signature,
and so it cannot be invoked on an object. -/
theorem getMethod_hides_native : ∃ vm a p i, VmReachable vm ∧ vm.world.IsClass "A".toList a ∧
    vm.world.getMethod 1 a "()I".toList "s".toList = .ok (vm.world, p) ∧
    Available vm.world a false true "s".toList "()I".toList ∧ p.native = none ∧ IsObject vm i ∧
    ∀ natives code args, vm.invokeProxy natives code 0 p (.obj i) args = .raises vm .noSuchMethod := by
  obtain ⟨vm, a, q, m, s, m', s', n, S⟩ := sample_proxy
  refine ⟨vm, a, _, 10, S.reach, S.isA, S.static, ⟨a, ⟨s', "s".toList, "()I".toList, false, some 8, none⟩, .refl a, ?_⟩,
    rfl, ⟨_, S.obj, by simp⟩, fun natives code args => rfl⟩
  exact ⟨by rw [S.methods]; simp, rfl, rfl, rfl, rfl⟩

/-- C47. Each id in the proxy is the id of a method of that kind, name and signature of the class or a
superclass. -/
theorem getMethod_denotes {w : World} (hr : MemReachable w) {n : Str} {c : Nat} (hc : w.IsClass n c)
    {depth : Nat} {sig name : Str} (hname : name ≠ "<init>".toList) {w' : World} {p : MethodProxy}
    (h : w.getMethod depth c sig name = .ok (w', p)) :
    (∀ id, p.member = some id → Identifies w c false false name sig id) ∧
    (∀ id, p.static = some id → Identifies w c true false name sig id) ∧
    (∀ id, p.native = some id → Identifies w c false true name sig id) := by
  obtain ⟨a, b, h1, h2, e, hp⟩ := getMethod_inv hr hc hname h
  have den : ∀ {st nat id}, w.getMethodID depth st true nat (some c) name sig = .ok (w, some id) →
      Identifies w c st nat name sig id := fun h =>
    lookup_denotes hr hc (fun h => absurd h hname) (fun _ => rfl) h
  rcases hp with ⟨rfl, rfl, d, h3, rfl⟩ | ⟨hn, rfl⟩
  · exact ⟨nofun, nofun, fun id h => den (by rw [h3, ← h])⟩
  · exact ⟨fun id h => den (by rw [h1, ← h]), fun id h => den (by rw [h2, ← h]), nofun⟩

/-- C47. `getMethod` answers on every acyclic hierarchy. -/
theorem getMethod_total {w : World} (hr : MemReachable w) {n : Str} {c : Nat} (hc : w.IsClass n c)
    (ha : Acyclic w.bases) (sig : Str) {name : Str} (hname : name ≠ "<init>".toList) :
    ∃ N, ∀ depth, N ≤ depth → ∃ p, w.getMethod depth c sig name = .ok (w, p) := by
  obtain ⟨l, hl⟩ := acyclic_searchOrder ha c
  refine ⟨l.length, fun depth hd => ?_⟩
  have key : ∀ st nat, ∃ r, w.getMethodID depth st true nat (some c) name sig = .ok (w, r) := by
    intro st nat
    rw [getMethodID_isClass hr.inv hc, effKey_plain (fun h => absurd h hname)]
    unfold World.methodOf
    rw [dfs_searchOrder hl hd]
    simp only [Res.bind_ok]
    cases l.findSome? (w.ownMethod ⟨st, nat, name, sig⟩) <;> exact ⟨_, rfl⟩
  obtain ⟨a, h1⟩ := key false false
  obtain ⟨b, h2⟩ := key true false
  obtain ⟨d, h3⟩ := key false true
  simp only [World.getMethod, h1, h2, h3, Res.bind_ok]
  cases a <;> cases b <;> exact ⟨_, rfl⟩

/-! ### The proxy -/

/-- C47. The conversion to `Method*` throws exactly if there are both a member and a static function,
otherwise it gives the one method there is, or null. -/
theorem proxy_conversion (p : MethodProxy) :
    (p.toMethod = .throws .ambiguous ↔ p.member ≠ none ∧ p.static ≠ none) ∧
    ∀ r, p.toMethod = .ok r → (r = none ↔ p.member = none ∧ p.static = none ∧ p.native = none) ∧
      ∀ id, r = some id → p.member = some id ∨ p.static = some id ∨ p.native = some id := by
  obtain ⟨a, b, d⟩ := p
  cases a <;> cases b <;> cases d <;> simp [MethodProxy.toMethod] <;> intro r h <;> simp_all

/-- C47. Invoking on a class picks the static function, else the native one, else throws; invoking on an
object picks the member function, else the native one, else throws. -/
theorem proxy_picks (p : MethodProxy) :
    (∀ id, p.onClass = .ok id ↔ p.static = some id ∨ p.static = none ∧ p.native = some id) ∧
    (∀ id, p.onObject = .ok id ↔ p.member = some id ∨ p.member = none ∧ p.native = some id) ∧
    (p.onClass = .throws .noSuchMethod ↔ p.static = none ∧ p.native = none) ∧
    (p.onObject = .throws .noSuchMethod ↔ p.member = none ∧ p.native = none) := by
  obtain ⟨a, b, d⟩ := p
  cases a <;> cases b <;> cases d <;> simp [MethodProxy.onClass, MethodProxy.onObject]

/-- C47. The conversion to `bool` of a proxy that `getMethod` made: true exactly if there is a method, but
not both a member and a static function. -/
theorem proxy_bool_partial {w : World} (hr : MemReachable w) {n : Str} {c : Nat} (hc : w.IsClass n c)
    {depth : Nat} {sig name : Str} (hname : name ≠ "<init>".toList) {w' : World} {p : MethodProxy}
    (h : w.getMethod depth c sig name = .ok (w', p)) :
    p.toBool = true ↔ (∃ st nat, Available w c st nat name sig ∧ ¬ (st = true ∧ nat = true)) ∧
      ¬ (Available w c false false name sig ∧ Available w c true false name sig) := by
  obtain ⟨_, h1, h2, h3⟩ := getMethod_exact hr hc hname h
  have e : (∃ st nat, Available w c st nat name sig ∧ ¬ (st = true ∧ nat = true)) ↔
      Available w c false false name sig ∨ Available w c true false name sig ∨
        Available w c false true name sig := by
    constructor
    · rintro ⟨st, nat, ha, hn⟩
      cases st <;> cases nat
      · exact .inl ha
      · exact .inr (.inr ha)
      · exact .inr (.inl ha)
      · exact absurd ⟨rfl, rfl⟩ hn
    · rintro (ha | ha | ha)
      · exact ⟨_, _, ha, by simp⟩
      · exact ⟨_, _, ha, by simp⟩
      · exact ⟨_, _, ha, by simp⟩
  rw [e, ← h1, ← h2]
  have h3' := h3
  rw [← h1, ← h2] at h3'
  unfold MethodProxy.toBool
  cases hm : p.member.isSome <;> cases hs : p.static.isSome <;> cases hn : p.native.isSome <;>
    simp_all

/-- C47 fails: with a member and a static function the proxy converts to false, although each can be
invoked through it. -/
theorem proxy_bool_both : ∃ w a p, MemReachable w ∧ w.IsClass "A".toList a ∧
    w.getMethod 1 a "()I".toList "m".toList = .ok (w, p) ∧ p.toBool = false ∧
    (∃ id, p.onClass = .ok id) ∧ ∃ id, p.onObject = .ok id := by
  obtain ⟨vm, a, q, m, s, m', s', n, S⟩ := sample_proxy
  exact ⟨vm.world, a, _, S.reach.1, S.isA, S.both, rfl, ⟨_, rfl⟩, ⟨_, rfl⟩⟩

/-! ### Invoking -/

theorem ClassIs_afterRef {vm vm1 : Vm} (hr : VmReachable vm) {i c : Nat} {k : Nat}
    (hc : ClassIs vm (some i) c) (hi : IsObject vm i) (hw : vm1.world = vm.world) (hk : k = i)
    (keep : ∀ j o, vm.heap.objs j = some o → j = k ∨ j ∈ vm.heap.pinned →
        ∃ o1, vm1.heap.objs j = some o1 ∧ o.kind.Same o1.kind ∧ ∀ c, o.cls = some c → o1.cls = some c) :
    ClassIs vm1 (some i) c := by
  subst hk
  obtain ⟨i', o, kc, hd, ho, hcl, k', ok, n, hd2, hok, hkind, hcls⟩ := hc
  obtain ⟨oi, hoi, hni⟩ := hi
  have : i' = k := by
    have := Heap.denotes_fun hd (.direct hoi hni)
    cases this; rfl
  subst this
  rw [ho] at hoi; cases hoi
  have hp := hr.2.inv.toPre
  obtain ⟨n', hn'⟩ := hp.cls _ o kc ho hcl
  obtain ⟨hpin, ok2, hok2, hk2⟩ := hp.classes n' kc hn'
  have : k' = kc := by
    have := Heap.denotes_fun hd2 (.direct hok2 (by simp [hk2]))
    cases this; rfl
  subst this
  rw [hok] at hok2; cases hok2
  obtain ⟨o1, h1, s1, c1⟩ := keep _ o ho (.inl rfl)
  obtain ⟨o2, h2, s2, _⟩ := keep _ ok hok (.inr hpin)
  have hn1 : ∀ x, o1.kind ≠ .weak x ∧ o1.kind ≠ .global x := by
    intro x
    refine ⟨fun h => ?_, fun h => ?_⟩
    · rw [h] at s1; exact (hni x).1 (Kind.Same.weak' s1)
    · rw [h] at s1; exact (hni x).2 (Kind.Same.global' s1)
  have hk3 : o2.kind = .cls n := by
    rw [hkind] at s2
    cases h3 : o2.kind <;> simp_all [Kind.Same]
  exact ⟨i', o1, k', .direct h1 hn1, h1, c1 _ hcl, k', o2, n, .direct h2 (by simp [hk3]), h2, hk3, hw ▸ hcls⟩

theorem invokeMethod_hooked {natives : NativeCode} {code : Nat → Hook} {t : Nat} {vm vm1 : Vm}
    (hr : VmReachable vm) {target : Recipient} (h : AfterRef t target vm vm1) {id : Nat} {m : MethodRec}
    (hn : Names vm.world id m) (hnat : m.native = none) {params : List Ty} {ret : Option Ty}
    (hs : m.signature = renderSig params ret) (hret : ')' ∉ renderRet ret) (args : List (BitVec 64)) :
    vm.invokeMethod natives code t target id args =
      (vm1.callA code t (retJType ret) target.form (some id) args).andThen fun vm v =>
        vm.rethrow t ((retJType ret).toJValue v) := by
  obtain ⟨hw, hx⟩ := afterRef_iff.1 h
  have e : ({ vm with heap := vm1.heap } : Vm) = vm1 := by rw [← hw]
  simp only [Vm.invokeMethod, method?_names hr.1 hn, hx, Outcome.lift, hnat, hs,
    jinvoke_kind_partial params ret hret, retJType_eq, e]

/-- C47. Invoking the proxy on an object of class `c`, with a member function in the proxy, runs `c`'s own
implementation of it, or the one that was found if `c` has none.  Before that the object got a local
reference and `GetObjectClass` ran.  The result is the function's result; its exception is thrown. -/
theorem invoke_on_object {natives : NativeCode} {code : Nat → Hook} (hb : WellBehaved code) {vm : Vm}
    (hr : VmReachable vm) {t : Nat} {env : Env} (he : vm.heap.envs t = some env) {i c : Nat}
    (hi : IsObject vm i) (hc : ClassIs vm (some i) c) {p : MethodProxy} {id : Nat} (hp : p.member = some id)
    {m : MethodRec} (hn : Names vm.world id m) (hnat : m.native = none) {f : Nat} (hf : m.handle = some f)
    {params : List Ty} {ret : Option Ty} (hs : m.signature = renderSig params ret) (hret : ')' ∉ renderRet ret)
    (args : List (BitVec 64)) :
    ∃ vm1 vm2, AfterRef t (.obj i) vm vm1 ∧ AfterGetClass t (some i) vm1 vm2 ∧ ∀ g,
      (Implements vm.world c m.name m.signature g ∨
        g = f ∧ ∀ g', ¬ Implements vm.world c m.name m.signature g') →
      (code g).type = retJType ret → (code g).kind ≠ .static →
      ∃ inner, Handled t ((code g).run vm2 (.obj (some i)) args) inner ∧
        Shown t (retJType ret) inner (vm.invokeProxy natives code t p (.obj i) args) := by
  obtain ⟨vm1, h1, hr1, ⟨e1, he1, _⟩, keep⟩ := asRef_run hr he (target := .obj i) hi
  have hc1 := ClassIs_afterRef hr hc hi h1.1 rfl keep
  have hn1 : Names vm1.world id m := by rw [h1.1]; exact hn
  obtain ⟨vm2, h2, hcall⟩ := callVirtual_eq (code := code) hr1 he1 hc1 hn1 hf (retJType ret) args
  refine ⟨vm1, vm2, h1, h2, fun g hg hty hk => ?_⟩
  have hover : (findVirtualOverload vm1.world (some c) m).handle = some g := by
    rw [h1.1]
    rcases hg with hg | ⟨rfl, hg⟩
    · exact virtual_own hr.1 hg
    · rw [virtual_none hg, hf]
  have hrun : (code g).invoke .inst (retJType ret) vm2 (.obj (some i)) args =
      (code g).run vm2 (.obj (some i)) args := by
    apply invoke_match hty
    cases hkk : (code g).kind with
    | static => exact absurd hkk hk
    | inst => exact .inl ⟨rfl, by simp⟩
    | member => exact .inr (.inl ⟨rfl, rfl⟩)
  have hr2 := AfterGetClass.reachable h2 hr1
  have hend := hb g vm2 (.obj (some i)) args hr2
  have hcall := hcall g hover
  rw [hrun] at hcall
  refine ⟨_, catchAll_handled hend, ?_⟩
  have hpick : p.onObject = .ok id := ((proxy_picks p).2.1 id).2 (.inl hp)
  simp only [Vm.invokeProxy, hpick, Outcome.lift, invokeMethod_hooked hr h1 hn hnat hs hret, Recipient.form, hcall]
  exact rethrow_shown (handled_endsIn hend rfl)

theorem sample_implements {vm : Vm} {a q m s m' s' n : Nat} (S : SampleProxy vm a q m s m' s' n) :
    Implements vm.world a "m".toList "()I".toList 1 :=
  ⟨⟨m, "m".toList, "()I".toList, false, none, some 1⟩, by rw [S.methods]; simp, rfl, rfl, rfl, rfl⟩

theorem SampleProxy.classIs {vm : Vm} {a q m s m' s' n : Nat} (S : SampleProxy vm a q m s m' s' n) :
    ClassIs vm (some 10) a := by
  obtain ⟨o, ho, hk⟩ := S.cls
  exact ⟨10, _, 9, .direct S.obj (by simp), S.obj, rfl, 9, o, _, .direct ho (by simp [hk]), ho, hk, S.isA⟩

/-- Sample for `invoke_on_object`. -/
example : ∃ vm a p id m, VmReachable vm ∧ (∃ e, vm.heap.envs 0 = some e) ∧ IsObject vm 10 ∧
    ClassIs vm (some 10) a ∧ vm.world.getMethod 1 a "()I".toList "m".toList = .ok (vm.world, p) ∧
    p.member = some id ∧ Names vm.world id m ∧ m.native = none ∧ m.handle = some 1 ∧
    m.signature = renderSig [] (some (.prim .int)) ∧ ')' ∉ renderRet (some (.prim .int)) ∧
    Implements vm.world a m.name m.signature 1 ∧ (sampleCode 1).type = retJType (some (.prim .int)) ∧
    (sampleCode 1).kind ≠ .static := by
  obtain ⟨vm, a, q, m, s, m', s', n, S⟩ := sample_proxy
  obtain ⟨e, he, _⟩ := S.env
  exact ⟨vm, a, _, m, ⟨m, "m".toList, "()I".toList, false, none, some 1⟩, S.reach, ⟨e, he⟩, ⟨_, S.obj, by simp⟩,
    S.classIs, S.both, rfl, ⟨_, a, S.isA, by rw [S.methods]; simp, rfl⟩, rfl, rfl, rfl, by decide,
    sample_implements S, rfl, by decide⟩

/-- C47. Invoking the proxy on a class, with a static function in the proxy, runs that function on the
class. -/
theorem invoke_on_class {natives : NativeCode} {code : Nat → Hook} (hb : WellBehaved code) {vm : Vm}
    (hr : VmReachable vm) {t : Nat} {env : Env} (he : vm.heap.envs t = some env) {k c : Nat} {o : Obj} {nm : Str}
    (hk : vm.heap.objs k = some o) (ho : o.kind = .cls nm) (hc : vm.world.IsClass nm c)
    {p : MethodProxy} {id : Nat} (hp : p.static = some id) {m : MethodRec} (hn : Names vm.world id m)
    (hnat : m.native = none) {f : Nat} (hf : m.handle = some f) {params : List Ty} {ret : Option Ty}
    (hs : m.signature = renderSig params ret) (hret : ')' ∉ renderRet ret)
    (hty : (code f).type = retJType ret) (hkind : (code f).kind = .static) (args : List (BitVec 64)) :
    ∃ vm1, AfterRef t (.cls k) vm vm1 ∧ ∃ inner,
      Handled t ((code f).run vm1 (.cls (some c)) args) inner ∧
      Shown t (retJType ret) inner (vm.invokeProxy natives code t p (.cls k) args) := by
  have hi : IsObject vm k := ⟨o, hk, by simp [ho]⟩
  obtain ⟨vm1, h1, hr1, ⟨e1, he1, _⟩, keep⟩ := asRef_run hr he (target := .cls k) hi
  obtain ⟨o1, ho1, s1, _⟩ := keep k o hk (.inl rfl)
  have hk1 : o1.kind = .cls nm := by
    rw [ho] at s1
    cases h3 : o1.kind <;> simp_all [Kind.Same]
  have hcast : vm1.castClass (some k) = .ok (vm1, some c) :=
    castClass_ref hr1 ⟨k, o1, nm, .direct ho1 (by simp [hk1]), ho1, hk1, by rw [h1.1]; exact hc⟩
  have hn1 : Names vm1.world id m := by rw [h1.1]; exact hn
  have hcall : vm1.callA code t (retJType ret) (.static (some k)) (some id) args =
      Vm.catchAll t ((code f).run vm1 (.cls (some c)) args) := by
    simp only [Vm.callA, hcast, Outcome.lift, withMethod_hooked hr1 hn1 hf]
    rw [invoke_run hf, invoke_match hty (.inr (.inr ⟨hkind, rfl⟩))]
  have hend := hb f vm1 (.cls (some c)) args hr1
  refine ⟨vm1, h1, _, catchAll_handled hend, ?_⟩
  have hpick : p.onClass = .ok id := ((proxy_picks p).1 id).2 (.inl hp)
  simp only [Vm.invokeProxy, hpick, Outcome.lift, invokeMethod_hooked hr h1 hn hnat hs hret, Recipient.form, hcall]
  exact rethrow_shown (handled_endsIn hend rfl)

/-- Sample for `invoke_on_class`. -/
example : ∃ vm a p id m o, VmReachable vm ∧ (∃ e, vm.heap.envs 0 = some e) ∧ vm.heap.objs 9 = some o ∧
    o.kind = .cls "A".toList ∧ vm.world.IsClass "A".toList a ∧
    vm.world.getMethod 1 a "()I".toList "m".toList = .ok (vm.world, p) ∧ p.static = some id ∧
    Names vm.world id m ∧ m.native = none ∧ m.handle = some 6 ∧
    m.signature = renderSig [] (some (.prim .int)) ∧ (sampleCode 6).type = retJType (some (.prim .int)) ∧
    (sampleCode 6).kind = .static := by
  obtain ⟨vm, a, q, m, s, m', s', n, S⟩ := sample_proxy
  obtain ⟨e, he, _⟩ := S.env
  obtain ⟨o, ho, hk⟩ := S.cls
  exact ⟨vm, a, _, m', ⟨m', "m".toList, "()I".toList, true, none, some 6⟩, o, S.reach, ⟨e, he⟩, ho, hk, S.isA,
    S.both, rfl, ⟨_, a, S.isA, by rw [S.methods]; simp, rfl⟩, rfl, rfl, rfl, rfl, rfl⟩

/-- The proxy has a native function and no function of the kind that fits the receiver. -/
def MethodProxy.NativeFor (p : MethodProxy) (id : Nat) : Recipient → Prop
  | .cls _ => p.static = none ∧ p.native = some id
  | .obj _ => p.member = none ∧ p.native = some id

/-- C47. With only a native function in the proxy, invoking on a class or on an object runs that function
on it, through a pointer with the result type of the signature. -/
theorem invoke_native {natives : NativeCode} (hb : NativesBehave natives) (code : Nat → Hook) {vm : Vm}
    (hr : VmReachable vm) {t : Nat} {env : Env} (he : vm.heap.envs t = some env) {target : Recipient}
    (hi : IsObject vm target.ref) {p : MethodProxy} {id : Nat} (hp : p.NativeFor id target)
    {m : MethodRec} (hn : Names vm.world id m) {f : Nat} (hf : m.native = some f) {params : List Ty}
    {ret : Option Ty} (hs : m.signature = renderSig params ret) (hret : ')' ∉ renderRet ret)
    (args : List (BitVec 64)) :
    ∃ vm1, AfterRef t target vm vm1 ∧
      Shown t (retJType ret) (natives f (retJType ret) vm1 target args)
        (vm.invokeProxy natives code t p target args) := by
  obtain ⟨vm1, h1, hr1, _, _⟩ := asRef_run hr he hi
  refine ⟨vm1, h1, ?_⟩
  have e : ({ vm with heap := vm1.heap } : Vm) = vm1 := by rw [← h1.1]
  have hkind : nativeKind (renderSig params ret) = .ok (retKind ret) := by
    unfold nativeKind
    rw [if_neg (by simp [renderSig])]
    exact jinvoke_kind_partial params ret hret
  have hmeth : vm.invokeMethod natives code t target id args =
      (natives f (retJType ret) vm1 target args).andThen fun vm v =>
        vm.rethrow t ((retJType ret).toJValue v) := by
    simp only [Vm.invokeMethod, method?_names hr.1 hn, (afterRef_iff.1 h1).2, Outcome.lift, hf, hs, hkind, retJType_eq, e]
  have : vm.invokeProxy natives code t p target args = vm.invokeMethod natives code t target id args := by
    cases target with
    | cls k =>
      have : p.onClass = .ok id := ((proxy_picks p).1 id).2 (.inr hp)
      simp only [Vm.invokeProxy, this, Outcome.lift]
    | obj k =>
      have : p.onObject = .ok id := ((proxy_picks p).2.1 id).2 (.inr hp)
      simp only [Vm.invokeProxy, this, Outcome.lift]
  rw [this, hmeth]
  exact rethrow_shown (hb f _ vm1 target args hr1)

/-- Sample for `invoke_native`. -/
example : ∃ vm a p id m, VmReachable vm ∧ (∃ e, vm.heap.envs 0 = some e) ∧ IsObject vm (Recipient.obj 10).ref ∧
    vm.world.getMethod 1 a "()I".toList "n".toList = .ok (vm.world, p) ∧ p.NativeFor id (.obj 10) ∧
    Names vm.world id m ∧ m.native = some 9 ∧ m.signature = renderSig [] (some (.prim .int)) ∧
    NativesBehave fun _ _ vm _ _ => .returns vm 3 := by
  obtain ⟨vm, a, q, m, s, m', s', n, S⟩ := sample_proxy
  obtain ⟨e, he, _⟩ := S.env
  exact ⟨vm, a, _, n, ⟨n, "n".toList, "()I".toList, false, some 9, none⟩, S.reach, ⟨e, he⟩, ⟨_, S.obj, by simp⟩,
    S.native, ⟨rfl, rfl⟩, ⟨_, a, S.isA, by rw [S.methods]; simp, rfl⟩, rfl, rfl, fun _ _ _ _ _ h => h⟩

/-- C47. Without a fitting and without a native function the invocation throws and nothing ran. -/
theorem invoke_nothing (natives : NativeCode) (code : Nat → Hook) (vm : Vm) (t : Nat) (p : MethodProxy)
    (args : List (BitVec 64)) (hn : p.native = none) :
    (p.static = none → ∀ k, vm.invokeProxy natives code t p (.cls k) args = .raises vm .noSuchMethod) ∧
    (p.member = none → ∀ i, vm.invokeProxy natives code t p (.obj i) args = .raises vm .noSuchMethod) := by
  refine ⟨fun h k => ?_, fun h i => ?_⟩
  · have := (proxy_picks p).2.2.1.2 ⟨h, hn⟩
    simp only [Vm.invokeProxy, this, Outcome.lift]
  · have := (proxy_picks p).2.2.2.2 ⟨h, hn⟩
    simp only [Vm.invokeProxy, this, Outcome.lift]

/-- C47. An exception thrown by the function that ran is thrown to the C++ code that invoked it; it is
pending, too. -/
theorem invoke_throws {t : Nat} {ty : JType} {vm : Vm} {e : Exn} {inner outer : Outcome Vm (BitVec 64)}
    {env : Env} (he : vm.heap.envs t = some env) (h1 : Handled t (.raises vm e) inner)
    (h2 : Shown t ty inner outer) :
    ∃ vm' env' x, outer = .raises vm' e ∧ vm'.world = vm.world ∧ vm'.heap.envs t = some env' ∧
      env'.pending = some x := by
  cases h1 with
  | detached hd => rw [he] at hd; cases hd
  | @raises vm vm' e x env1 o hw he1 he2 hx ho hk hu =>
    cases h2 with
    | returns h3 h4 => rw [he2] at h3; cases h3; cases h4
    | detached h3 => rw [he2] at h3; cases h3
    | empty h3 h4 h5 h6 =>
      rw [he2] at h3; cases h3; cases h4
      rw [ho] at h5; cases h5
      rw [hk] at h6; cases h6
    | @pending _ v env3 x3 o3 e3 h3 h4 h5 h6 =>
      rw [he2] at h3; cases h3; cases h4
      rw [ho] at h5; cases h5
      rw [hk] at h6; cases h6
      exact ⟨vm', _, x, rfl, hw, he2, rfl⟩

/-- Sample for `invoke_throws`. -/
example : ∃ (vm : Vm) (env : Env) (inner outer : Outcome Vm (BitVec 64)), vm.heap.envs 0 = some env ∧
    Handled 0 (.raises vm (.user 3)) inner ∧ Shown 0 .int inner outer := by
  obtain ⟨vm, a, q, m, s, m', s', n, S⟩ := sample_proxy
  obtain ⟨e, he, _⟩ := S.env
  have hr : EndsIn VmReachable (.raises vm (.user 3) : Outcome Vm (BitVec 64)) := S.reach
  exact ⟨vm, e, _, _, he, catchAll_handled hr, rethrow_shown (handled_endsIn hr rfl)⟩

/-- C47: an exception that was pending before the invocation is thrown as if the function had thrown it,
although the function returned normally; it is not cleared. -/
theorem invoke_stale : ∃ vm a p x, VmReachable vm ∧
    vm.world.getMethod 1 a "()I".toList "s".toList = .ok (vm.world, p) ∧
    (∃ e, vm.heap.envs 0 = some e ∧ e.pending = some x) ∧ WellBehaved sampleCode ∧
    (∀ vm self args, (sampleCode 6).run vm self args = .returns vm 6) ∧
    ∀ natives args, ∃ vm', vm.invokeProxy natives sampleCode 0 p (.cls 9) args = .raises vm' (.user 3) ∧
      ∃ e, vm'.heap.envs 0 = some e ∧ e.pending = some x := by
  obtain ⟨vm, a, q, m, s, m', s', n, S⟩ := sample_proxy
  obtain ⟨e, he, _⟩ := S.env
  obtain ⟨o, ho, hk⟩ := S.cls
  have hp := S.reach.2.inv.toPre
  obtain ⟨h1, ox, hx, he1, hox, hkx, _⟩ := raise_run S.reach.2 he (.user 3)
  have hr1 : VmReachable ⟨vm.world, h1⟩ := ⟨S.reach.1, S.reach.2.step hx⟩
  have ho1 : ∃ o1, h1.objs 9 = some o1 ∧ o1.kind = .cls "A".toList := by
    obtain ⟨n', hn'⟩ := hp.cls 10 _ 9 S.obj rfl
    obtain ⟨hpin, _⟩ := hp.classes n' 9 hn'
    obtain ⟨h2, hx2, rfl⟩ := Heap.run_ok hx
    have s := Heap.step_exec hp hx2
    obtain ⟨o1, ho1, hs, _⟩ := s.live 9 o ho
    refine ⟨o1, Heap.collect_keep s.pre.bound (.root (Heap.mem_roots.2 (.inr (.inl (s.pinned.subset hpin))))) ho1, ?_⟩
    rw [hk] at hs
    cases h3 : o1.kind <;> simp_all [Kind.Same]
  obtain ⟨o1, ho1, hk1⟩ := ho1
  refine ⟨⟨vm.world, h1⟩, a, ⟨none, some s, none⟩, vm.heap.next, hr1, S.static, ⟨_, he1, rfl⟩, sampleCode_behaved,
    fun _ _ _ => rfl, fun natives args => ?_⟩
  have hi : IsObject ⟨vm.world, h1⟩ 9 := ⟨o1, ho1, by simp [hk1]⟩
  obtain ⟨vm1, href, inner, hh, hs⟩ := invoke_on_class (natives := natives) sampleCode_behaved hr1 he1 ho1 hk1 S.isA
    (p := ⟨none, some s, none⟩) (id := s) rfl (m := ⟨s, "s".toList, "()I".toList, true, none, some 6⟩)
    ⟨_, a, S.isA, by rw [S.methods]; simp, rfl⟩ rfl rfl (params := []) (ret := some (.prim .int)) rfl (by decide) rfl rfl args
  obtain ⟨vm1', href', hr1', ⟨e2, he2, hp2⟩, _⟩ := asRef_run hr1 he1 (target := .cls 9) hi
  have : vm1' = vm1 := by
    obtain ⟨w1, hp1⟩ := vm1
    obtain ⟨w1', hp1'⟩ := vm1'
    obtain ⟨ha, hb⟩ := href
    obtain ⟨ha', hb'⟩ := href'
    simp only at ha hb ha' hb'
    rw [hb] at hb'; cases hb'
    rw [ha, ha']
  subst this
  have hrun : (sampleCode 6).run vm1' (.cls (some a)) args = .returns vm1' 6 := rfl
  rw [hrun] at hh
  cases hh
  have hpe : e2.pending = some vm.heap.next := by rw [hp2]
  have key : ∀ outer, Shown 0 (retJType (some (.prim .int))) (.returns vm1' 6) outer →
      ∃ vm', outer = .raises vm' (.user 3) ∧ ∃ e, vm'.heap.envs 0 = some e ∧ e.pending = some vm.heap.next := by
    intro outer hs
    cases hs with
    | returns h3 h4 => rw [he2] at h3; cases h3; rw [hpe] at h4; cases h4
    | detached h3 => rw [he2] at h3; cases h3
    | @empty _ v env3 x3 o3 h3 h4 h5 h6 =>
      rw [he2] at h3; cases h3
      rw [hpe] at h4; cases h4
      have hst := runStep hr1.2.inv.toPre href'.2
      obtain ⟨o4, ho4, hs4, _⟩ := hst.old vm.heap.next o3 (hr1.2.inv.toPre.live_lt ⟨ox, hox⟩) h5
      simp only at ho4
      rw [hox] at ho4; cases ho4
      rw [hkx, h6] at hs4
      simp [Kind.Same] at hs4
    | @pending _ v env3 x3 o3 e3 h3 h4 h5 h6 =>
      rw [he2] at h3; cases h3
      rw [hpe] at h4; cases h4
      have hst := runStep hr1.2.inv.toPre href'.2
      obtain ⟨o4, ho4, hs4, _⟩ := hst.old vm.heap.next o3 (hr1.2.inv.toPre.live_lt ⟨ox, hox⟩) h5
      simp only at ho4
      rw [hox] at ho4; cases ho4
      rw [hkx, h6] at hs4
      simp only [Kind.Same] at hs4
      have : e3 = .user 3 := by simpa using hs4.symm
      subst this
      exact ⟨vm1', rfl, e2, he2, hpe⟩
  exact key _ hs

/-! ### `Jvm::start` -/

/-- C47. The search for `main` stops at the first class that has such a method of any kind, and finds
none only if no class has one. -/
theorem start_search {w : World} (hr : MemReachable w) {depth : Nat} : ∀ {cs : List Nat},
    (∀ c ∈ cs, ∃ n, w.IsClass n c) → ∀ {r}, w.findMain depth cs = .ok r →
    let Has := fun c => Available w c false false "main".toList "([Ljava/lang/String;)V".toList ∨
      Available w c true false "main".toList "([Ljava/lang/String;)V".toList ∨
      Available w c false true "main".toList "([Ljava/lang/String;)V".toList
    match r with
    | none => ∀ c ∈ cs, ¬ Has c
    | some (c, p) => (∃ pre post, cs = pre ++ c :: post ∧ ∀ d ∈ pre, ¬ Has d) ∧ Has c ∧
        w.getMethod depth c "([Ljava/lang/String;)V".toList "main".toList = .ok (w, p) ∧ ¬ (p.member ≠ none ∧ p.static ≠ none) := by
  have hm : "main".toList ≠ "<init>".toList := by decide
  intro cs
  induction cs with
  | nil => intro _ r h; cases h; intro Has c hc; cases hc
  | cons c cs ih =>
    intro hcs r h Has
    obtain ⟨n, hc⟩ := hcs c (by simp)
    obtain ⟨⟨w1, p⟩, h1, h2⟩ := Res.bind_eq_ok.1 h
    have h1 : w.getMethod depth c "([Ljava/lang/String;)V".toList "main".toList = .ok (w1, p) := h1
    obtain ⟨e, ha, hb, hn⟩ := getMethod_exact hr hc hm h1
    subst e
    obtain ⟨q, h3, h4⟩ := Res.bind_eq_ok.1 h2
    have hconv := proxy_conversion p
    have hq := (hconv.2 q h3).1
    have hamb : ¬ (p.member ≠ none ∧ p.static ≠ none) := by
      intro hh; rw [hconv.1.2 hh] at h3; cases h3
    have hhas : q = none ↔ ¬ Has c := by
      rw [hq]
      simp only [Has, ← ha, ← hb]
      rw [← ha, ← hb] at hn
      constructor
      · rintro ⟨e1, e2, e3⟩ (hh | hh | hh)
        · rw [e1] at hh; cases hh
        · rw [e2] at hh; cases hh
        · rw [e1, e2, e3] at hn; simp at hn; exact hn hh
      · intro hh
        simp only [not_or] at hh
        obtain ⟨g1, g2, g3⟩ := hh
        simp only [Bool.not_eq_true, Option.isSome_eq_false_iff, Option.isNone_iff_eq_none] at g1 g2
        refine ⟨g1, g2, ?_⟩
        cases hpn : p.native with
        | none => rfl
        | some x => rw [hpn] at hn; exact absurd (hn.1 rfl).1 g3
    cases q with
    | none =>
      have := ih (fun c hc => hcs c (by simp [hc])) h4
      cases r with
      | none =>
        intro d hd
        rcases List.mem_cons.1 hd with rfl | hd
        · exact hhas.1 rfl
        · exact this d hd
      | some cp =>
        obtain ⟨d, p'⟩ := cp
        obtain ⟨⟨pre, post, e1, e2⟩, h5, h6, h7⟩ := this
        refine ⟨⟨c :: pre, post, by rw [e1]; rfl, ?_⟩, h5, h6, h7⟩
        intro x hx
        rcases List.mem_cons.1 hx with rfl | hx
        · exact hhas.1 rfl
        · exact e2 x hx
    | some id =>
      cases h4
      refine ⟨⟨[], cs, rfl, by simp⟩, ?_, h1, hamb⟩
      refine Classical.byContradiction fun hh => ?_
      have := hhas.2 hh
      cases this

/-- Sample for `start_search`: a class with a static `main`. -/
example : ∃ w a p, MemReachable w ∧ (∀ c ∈ [a], ∃ n, w.IsClass n c) ∧
    w.findMain 1 [a] = .ok (some (a, p)) ∧ p.static ≠ none := by
  obtain ⟨vm, a, q, m, s, m', s', n, S⟩ := sample_proxy
  have r1 : (MemOp.hookMethod a true mainName mainSig 6).run vm.world =
    .ok (vm.world.hookMethod a true mainName mainSig 6) := rfl
  have hf : (vm.world.mem a).methods.find? (hookHits true mainName mainSig) = none := by
    rw [S.methods]; rfl
  have c1 := isClass_step S.reach.1.inv r1 S.isA
  have b1 := (congrFun (hookMethod_bases vm.world a true mainName mainSig 6) a).trans S.bases
  have q1 := S.reach.1.step r1
  have m1 : ((vm.world.hookMethod a true mainName mainSig 6).mem a).methods =
      (vm.world.mem a).methods ++ [⟨vm.world.next, mainName, mainSig, true, none, some 6⟩] := by
    rw [hookMethod_new hf]; simp
  rw [S.methods] at m1
  generalize vm.world.hookMethod a true mainName mainSig 6 = w at r1 c1 m1 q1 b1
  refine ⟨w, a, ⟨none, some vm.world.next, none⟩, q1, fun c hc => ⟨_, List.mem_singleton.1 hc ▸ c1⟩, ?_, by simp⟩
  have h1 : w.ownMethod ⟨false, false, mainName, mainSig⟩ a = none := by
    unfold World.ownMethod; rw [m1]; rfl
  have h2 : w.ownMethod ⟨true, false, mainName, mainSig⟩ a = some vm.world.next := by
    unfold World.ownMethod; rw [m1]; rfl
  rw [World.findMain, getMethod_leaf q1 c1 b1 _ (by decide), h1, h2]
  rfl

end Jnivm
