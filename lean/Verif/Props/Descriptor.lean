import Verif.Lemmas.Descriptor
/-!
Properties of the class descriptors of fake-jni (C60).
-/
namespace Jnivm
open Spec

/-- C60, flags.  An entry is refused exactly if it is a member of the objects with the static flag;
otherwise it becomes a static member exactly if it says so, with the function it names. -/
theorem descriptor_flags (compat : Bool) (f : CppFn) (name : Str) (flags : Option (BitVec 32)) (fn : Nat → Nat) :
    (SaysStatic compat f flags ∧ f.kind.isInstance = true ∧
      (DescEntry.named f name flags fn).make compat = .throws .runtimeError) ∨
    ∃ b, (DescEntry.named f name flags fn).make compat = .ok ⟨f, name, b, fn⟩ ∧
      (b.inst = false ↔ SaysStatic compat f flags) ∧ (SaysStatic compat f flags → f.kind.isInstance = false) ∧
      (b.what = .method ↔ f.kind = .plain ∨ f.kind = .member) ∧
      (b.what = .property ↔ f.kind = .variable ∨ f.kind = .dataMember) := by
  have hs := saysStatic_iff compat f flags
  by_cases h : SaysStatic compat f flags
  · cases hi : f.kind.isInstance with
    | true =>
      refine .inl ⟨h, rfl, ?_⟩
      simp only [DescEntry.make]
      rw [if_pos (hs.2 h), hi]
      rfl
    | false =>
      refine .inr ⟨f.kind.bind, ?_, ⟨fun _ => h, fun _ => ?_⟩, fun _ => rfl, (what_iff _).1, (what_iff _).2⟩
      · simp only [DescEntry.make]
        rw [if_pos (hs.2 h), hi]
        rfl
      · revert hi
        cases f.kind <;> simp [FnKind.bind, FnKind.isInstance]
  · refine .inr ⟨f.kind.bindInstance, ?_, ⟨fun hb => ?_, fun h' => absurd h' h⟩, fun h' => absurd h' h,
      (what_iff _).1, (what_iff _).2⟩
    · simp only [DescEntry.make]
      rw [if_neg (fun hx => h (hs.1 hx))]
    · simp [FnKind.bindInstance] at hb

/-- Both outcomes occur: a static flag on a function and on a member function. -/
example : (DescEntry.named ⟨.plain, .void, []⟩ "f".toList (some 9) id).make false =
      .ok ⟨⟨.plain, .void, []⟩, "f".toList, ⟨false, .method⟩, id⟩ ∧
    (DescEntry.named ⟨.member, .void, [.data .pointer (.cls 5)]⟩ "f".toList (some 9) id).make true =
      .throws .runtimeError := ⟨rfl, rfl⟩

theorem bindType_ok {w : World} (hr : MemReachable w) (d : DescClass) :
    ∃ w1 c, w.bindType d.type d.name d.bases = (w1, some c) ∧ MemReachable w1 ∧ w1.IsClass d.name c ∧
      (∀ u, w1.types u = if u = d.type then some c else w.types u) ∧
      (∀ e, w1.mem e = if e = c then { w.mem c with bases := some d.bases } else w.mem e) ∧
      (∀ m e, w.IsClass m e → w1.IsClass m e) ∧ w1.next = w.next := by
  obtain ⟨r', c, e, hl, hcr⟩ := findClass_create hr.inv.reg d.name
  have h1 : w.bindType d.type d.name d.bases = (({ w.setMem c { w.mem c with bases := some d.bases } with
      reg := r', types := fun u => if u = d.type then some c else w.types u } : World), some c) := by
    simp only [World.bindType, e]
  have hrun : (MemOp.bindType d.type d.name d.bases).run w = .ok (w.bindType d.type d.name d.bases).1 := rfl
  rw [h1] at hrun
  have hr1 := hr.step hrun
  refine ⟨_, c, h1, hr1, (isClass_iff hr1.inv).2 hl, fun _ => rfl, fun _ => rfl, ?_, rfl⟩
  intro m x hx
  exact (isClass_iff hr1.inv).2 (hcr.keep m x ((isClass_iff hr.inv).1 hx))

/-- What `registerClass` does to a VM `w` whose class `c` of the descriptor is bound in `w1`. -/
theorem registerClass_ok {compat : Bool} {ci : CppInfo} {w w1 : World} {d : DescClass} {c : Nat}
    (hb : w.bindType d.type d.name d.bases = (w1, some c)) (hr1 : MemReachable w1)
    {ps : List Promise} (h : AllPromises compat ci w1 c d.entries ps) :
    ∃ w', w.registerClass compat ci d = .ok (w', c) ∧ MemReachable w' ∧ Keeps w1 w' ∧
      SameTables (ps.foldl (World.keep c) w1) w' := by
  obtain ⟨rs, m, w', e, hr', k, s⟩ := register_promises hr1 h
  refine ⟨w', ?_, hr', k, s⟩
  simp only [World.registerClass, m, Res.bind_ok, hb, e]

/-- C60, registration.  `registerClass` gives the class of the descriptor's name, bound to its C++ type.
For every use of every member that the entries promise, the last function promised is the one that
`GetMethodID` and `GetFieldID` find.  Members that existed before keep their ids.  Members that are not
promised, natives and all other classes stay as they were.  Not covered (and false, see
`hook_after_native_ineffective`): instance functions for which a native is registered. -/
theorem register_class_partial {compat : Bool} {ci : CppInfo} {w w1 : World} (hr : MemReachable w) {d : DescClass}
    {c : Nat} (hb : w.bindType d.type d.name d.bases = (w1, some c)) {ps : List Promise}
    (h : AllPromises compat ci w1 c d.entries ps)
    (hfree : ∀ p ∈ ps, p.use = .call → HookFree w c p.static p.name p.type) :
    ∃ w', w.registerClass compat ci d = .ok (w', c) ∧ MemReachable w' ∧ w'.IsClass d.name c ∧
      w'.types d.type = some c ∧ (w'.mem c).bases = some d.bases ∧
      (∀ st name type fn, lastPromise .call st name type ps = some fn → (name = "<init>".toList → st = true) →
        ∃ m, w'.Declares c st false name type m ∧ m.handle = some fn ∧
          (∀ depth rn, w'.getMethodID (depth + 1) st rn false (some c) name type = .ok (w', some m.id)) ∧
          ∀ m0, (w.mem c).methods.find? (MethodKey.hits ⟨st, false, name, type⟩) = some m0 → m.id = m0.id) ∧
      (∀ st name type, (lastPromise .get st name type ps).isSome ∨ (lastPromise .set st name type ps).isSome →
        ∃ f, w'.DeclaresField c st name type f ∧
          (∀ fn, lastPromise .get st name type ps = some fn → f.getter = some fn) ∧
          (∀ fn, lastPromise .set st name type ps = some fn → f.setter = some fn) ∧
          (∀ depth rn, w'.getFieldID (depth + 1) st rn (some c) name type = .ok (w', some f.id)) ∧
          ∀ f0, (w.mem c).fields.find? (FieldKey.hits ⟨st, name, type⟩) = some f0 → f.id = f0.id) ∧
      (∀ e m, (∀ p ∈ ps, p.use = .call →
          ¬ (e = c ∧ m.static = p.static ∧ m.name = p.name ∧ m.signature = p.type)) →
        (m ∈ (w'.mem e).methods ↔ m ∈ (w.mem e).methods)) ∧
      (∀ e f, (∀ p ∈ ps, p.use ≠ .call → ¬ (e = c ∧ f.static = p.static ∧ f.name = p.name ∧ f.type = p.type)) →
        (f ∈ (w'.mem e).fields ↔ f ∈ (w.mem e).fields)) ∧
      ∀ e, (w'.mem e).natives = (w.mem e).natives := by
  obtain ⟨w1', c', hb', hr1, hc1, t1, m1, k1, n1⟩ := bindType_ok hr d
  rw [hb] at hb'
  obtain ⟨rfl, rfl⟩ : w1 = w1' ∧ c = c' := by
    simp only [Prod.mk.injEq, Option.some.injEq] at hb'
    exact hb'
  obtain ⟨w', e, hr', k, s⟩ := registerClass_ok hb hr1 h
  have hmeth : ∀ x, (w1.mem x).methods = (w.mem x).methods := by
    intro x
    rw [m1]
    by_cases hx : x = c
    · subst hx; rw [if_pos rfl]
    · rw [if_neg hx]
  have hfld : ∀ x, (w1.mem x).fields = (w.mem x).fields := by
    intro x
    rw [m1]
    by_cases hx : x = c
    · subst hx; rw [if_pos rfl]
    · rw [if_neg hx]
  have hnat : ∀ x, (w1.mem x).natives = (w.mem x).natives := by
    intro x
    rw [m1]
    by_cases hx : x = c
    · subst hx; rw [if_pos rfl]
    · rw [if_neg hx]
  have hc' := k.keep _ _ hc1
  refine ⟨w', e, hr', hc', ?_, ?_, ?_, ?_, ?_, ?_, ?_⟩
  · rw [k.types, t1, if_pos rfl]
  · rw [s.mem, (keepAll_rest c w1 c ps).2.1, m1, if_pos rfl]
  · intro st name type fn hl hinit
    have hp : ∃ p ∈ ps, p.use = .call ∧ p.static = st ∧ p.name = name ∧ p.type = type := by
      obtain ⟨q, hq, a, b, e, f⟩ := (lastPromise_isSome (p := ⟨.call, st, name, type, fn⟩) (ps := ps)).1 (by
        dsimp only; rw [hl]; rfl)
      exact ⟨q, hq, a.symm, b.symm, e.symm, f.symm⟩
    obtain ⟨p, hp, hu, rfl, rfl, rfl⟩ := hp
    have hfr := hfree p hp hu
    have hcall := keepAll_call c w1 p.static p.name p.type ps
    rw [hl] at hcall
    obtain ⟨id, hcall⟩ := hcall
    have hold : ∀ m0, w1.callRec c p.static p.name p.type = some m0 → m0.native = none := by
      intro m0 h0
      unfold World.callRec at h0
      rw [hmeth] at h0
      exact hfr.native hr m0 h0
    have hnative : ((w1.callRec c p.static p.name p.type).getD
        ⟨id, p.name, p.type, p.static, none, none⟩).native = none := by
      cases h0 : w1.callRec c p.static p.name p.type with
      | none => rfl
      | some m0 => exact hold m0 h0
    have hown := target_own hcall hnative
    rw [← s.mem] at hown
    refine ⟨_, declares_of_own hown, rfl, fun depth rn => lookup_of_own hr'.inv hc' hinit hown depth rn, ?_⟩
    intro m0 h0
    have h1 : w1.callRec c p.static p.name p.type = some m0 := by
      cases hx : w1.callRec c p.static p.name p.type with
      | none =>
        exfalso
        unfold World.callRec at hx
        rw [hmeth, List.find?_eq_none] at hx
        obtain ⟨a1, a2, a3, a4⟩ := hits_iff.1 (List.find?_some h0)
        exact hx m0 (List.mem_of_find?_eq_some h0) (hookHits_iff.2 ⟨a1, a3, a4⟩)
      | some m1 =>
        have h2 := target_own hx (hold m1 hx)
        rw [hmeth] at h2
        exact h2.symm.trans h0
    rw [h1]
    rfl
  · intro st name type hl
    have hfield := keepAll_field c w1 st name type ps
    have main : ∃ id, let old := (w1.fieldRec c st name type).getD ⟨id, name, type, st, none, none⟩
        (w'.mem c).fields.find? (FieldKey.hits ⟨st, name, type⟩) =
          some { old with getter := (lastPromise .get st name type ps).or old.getter, setter := (lastPromise .set st name type ps).or old.setter } := by
      rw [s.mem]
      cases hg : lastPromise .get st name type ps <;> cases hs : lastPromise .set st name type ps <;>
        rw [hg, hs] at hfield
      · rw [hg, hs] at hl
        rcases hl with hl | hl <;> cases hl
      all_goals exact hfield
    obtain ⟨id, main⟩ := main
    dsimp only at main
    obtain ⟨f, hf, hg, hs, hid⟩ : ∃ f, (w'.mem c).fields.find? (FieldKey.hits ⟨st, name, type⟩) = some f ∧
        (∀ fn, lastPromise .get st name type ps = some fn → f.getter = some fn) ∧
        (∀ fn, lastPromise .set st name type ps = some fn → f.setter = some fn) ∧
        ∀ f0, w1.fieldRec c st name type = some f0 → f.id = f0.id :=
      ⟨_, main, fun fn h => by simp only [h, Option.some_or], fun fn h => by simp only [h, Option.some_or],
        fun f0 h => by simp only [h, Option.getD_some]⟩
    obtain ⟨a1, a2, a3⟩ := fhits_iff.1 (List.find?_some hf)
    refine ⟨f, ⟨List.mem_of_find?_eq_some hf, a1, a2, a3⟩, hg, hs, fun depth rn => ?_, fun f0 h0 => hid f0 ?_⟩
    · rw [getFieldID_isClass hr'.inv hc']
      have : w'.ownField ⟨st, name, type⟩ c = some f.id := by
        unfold World.ownField
        rw [hf]
        rfl
      rw [dfs_own this]
      rfl
    · unfold World.fieldRec
      rw [hfld]
      exact h0
  · intro x m hm
    rw [s.mem, (keepAll_rest c w1 x ps).2.2.1 m hm, hmeth]
  · intro x f hf
    rw [s.mem, (keepAll_rest c w1 x ps).2.2.2 f hf, hfld]
  · intro x
    rw [s.mem, (keepAll_rest c w1 x ps).1, hnat]

/-- The descriptor of a class "c/D": `jint f(ENV*, B*)` without flags, the static `void g(Class*, jint)`, a
member variable `jlong x`, another `f` with the same signature and a constructor with a `jint`. -/
def sampleClass : DescClass where
  type := 7
  name := "c/D".toList
  bases := [some 0]
  constructible := true
  entries := [
    .named ⟨.plain, .data .value (.prim .int), [.env 100, .data .pointer (.cls 5)]⟩ "f".toList none (fun n => 10 + n),
    .named ⟨.plain, .void, [.data .pointer (.cls 1), .data .value (.prim .int)]⟩ "g".toList (some 9) (fun n => 20 + n),
    .named ⟨.dataMember, .data .value (.prim .long), []⟩ "x".toList none (fun n => 30 + n),
    .named ⟨.member, .data .value (.prim .int), [.data .ref (.cls 5)]⟩ "f".toList (some 1) (fun n => 40 + n),
    .ctor 7 [.data .value (.prim .int)] (fun n => 50 + n)]

/-- `Class` is known under its own name. -/
def sampleClassInfo : CppInfo :=
  { sampleInfo with declared := fun c => if c = .cls 1 then some "java/lang/Class".toList else none }

def samplePromises : List Promise :=
  [⟨.call, false, "f".toList, "(La/B;)I".toList, 11⟩,
   ⟨.call, true, "g".toList, "(Ljava/lang/Class;I)V".toList, 20⟩, ⟨.call, true, "g".toList, "(I)V".toList, 21⟩,
   ⟨.get, false, "x".toList, "J".toList, 30⟩, ⟨.set, false, "x".toList, "J".toList, 30⟩,
   ⟨.call, false, "f".toList, "(La/B;)I".toList, 40⟩,
   ⟨.call, true, "<init>".toList, "(I)Lc/D;".toList, 50⟩]

theorem sample_descriptor : ∃ w w1 c, MemReachable w ∧
    w.bindType sampleClass.type sampleClass.name sampleClass.bases = (w1, some c) ∧
    AllPromises false sampleClassInfo w1 c sampleClass.entries samplePromises ∧
    (∀ p ∈ samplePromises, p.use = .call → HookFree w c p.static p.name p.type) ∧
    ∀ d, (w.mem d).methods = [] ∧ (w.mem d).fields = [] := by
  obtain ⟨w, o, b, hr, _, _, hb, h5, hu, hm, _⟩ := sample_types
  obtain ⟨w1, c, e, hr1, hc, ht, _, hk, _⟩ := bindType_ok hr sampleClass
  have n5 : JavaName sampleClassInfo w1 (.cls 5) "a/B".toList := .inl ⟨b, by rw [ht]; exact h5, hk _ _ hb⟩
  have n7 : JavaName sampleClassInfo w1 (.cls 7) "c/D".toList := .inl ⟨c, by rw [ht]; rfl, hc⟩
  have n1 : JavaName sampleClassInfo w1 (.cls 1) "java/lang/Class".toList :=
    .inr ⟨by rw [ht]; exact hu 1 (by decide) (by decide), rfl, rfl⟩
  have hbc : b ≠ c := isClass_ne hr1.inv (hk _ _ hb) hc (by decide)
  refine ⟨w, w1, c, hr, e, ?_, fun p _ _ => .inr ?_, hm⟩
  · refine .cons (ps := [_]) (.inst (fun h => nomatch h.1) (.fn (tys := [.cls "a/B".toList]) (ret := some (.prim .int))
      (.inl rfl) (.cons (.object n5) .nil) (.some (.value .prim)) ?_)) ?_
    · intro _ p hp hs
      cases hp
      cases hs with
      | own _ _ h =>
        rw [ht] at h
        have : w.types 5 = some c := h
        rw [h5] at this
        cases this
        exact hbc rfl
    refine .cons (ps := [_, _]) (.static rfl rfl (.self (tys := [.prim .int]) (t := .cls "java/lang/Class".toList) (ret := none) rfl
      (.cons (.object n1) (.cons (.value .prim) .nil)) .void rfl .clazz)) ?_
    refine .cons (ps := [_, _]) (.inst (fun h => nomatch h.1) (.var (t := .prim .long) (.inr rfl) rfl (.value .prim))) ?_
    refine .cons (ps := [_]) (.inst (fun h => nomatch h) (.fn (tys := [.cls "a/B".toList]) (ret := some (.prim .int))
      (.inr rfl) (.cons (.object n5) .nil) (.some (.value .prim)) (fun h => nomatch h))) ?_
    refine .cons (ps := [_]) (qs := []) (.ctor (.fn (tys := [.prim .int]) (ret := some (.cls "c/D".toList))
      (.inl rfl) (.cons (.value .prim) .nil) (.some (.object n7)) ?_)) .nil
    intro _ p hp hs
    cases hp
    cases hs
  · rw [(hm c).1]
    intro m h
    cases h

/-- The hypotheses are met by a class with overloads and overrides; the last `f`, both forms of `g` and the
variable are the ones found. -/
example : ∃ w w1 c, MemReachable w ∧
    w.bindType sampleClass.type sampleClass.name sampleClass.bases = (w1, some c) ∧
    AllPromises false sampleClassInfo w1 c sampleClass.entries samplePromises ∧
    (∀ p ∈ samplePromises, p.use = .call → HookFree w c p.static p.name p.type) ∧
    lastPromise .call false "f".toList "(La/B;)I".toList samplePromises = some 40 ∧
    lastPromise .call true "g".toList "(I)V".toList samplePromises = some 21 ∧
    lastPromise .set false "x".toList "J".toList samplePromises = some 30 := by
  obtain ⟨w, w1, c, h1, h2, h3, h4, _⟩ := sample_descriptor
  exact ⟨w, w1, c, h1, h2, h3, h4, by decide, by decide, by decide⟩

/-- C60, idempotence.  Registering a class again succeeds and changes no member, id or type. -/
theorem register_again {compat : Bool} {ci : CppInfo} {w w1 w' : World} (hr : MemReachable w) {d : DescClass}
    {c : Nat} (hb : w.bindType d.type d.name d.bases = (w1, some c)) {ps : List Promise}
    (h : AllPromises compat ci w1 c d.entries ps) (h1 : w.registerClass compat ci d = .ok (w', c)) :
    ∃ w2, w'.registerClass compat ci d = .ok (w2, c) ∧ MemReachable w2 ∧
      w2.mem = w'.mem ∧ w2.next = w'.next ∧ w2.types = w'.types ∧ ∀ n e, w'.IsClass n e → w2.IsClass n e := by
  obtain ⟨_, _, hb', hr1, hc1, t1, m1, k1, n1⟩ := bindType_ok hr d
  rw [hb] at hb'
  cases hb'
  obtain ⟨w', e, hr', k, s⟩ := registerClass_ok hb hr1 h
  rw [e] at h1
  cases h1
  obtain ⟨w3, c3, hb3, hr3, hc3, t3, m3, k3, n3⟩ := bindType_ok hr' d
  have hc : c3 = c := by
    have := k3 _ _ (k.keep _ _ hc1)
    rw [isClass_iff hr3.inv] at this hc3
    rw [hc3] at this
    cases this
    rfl
  subst hc
  have types3 : w3.types = w'.types := by
    funext u
    rw [t3]
    by_cases hu : u = d.type
    · rw [if_pos hu, k.types, t1, if_pos hu]
    · rw [if_neg hu]
  have mem3 : w3.mem = w'.mem := by
    funext x
    rw [m3]
    by_cases hx : x = c3
    · subst hx
      rw [if_pos rfl]
      have : (w'.mem x).bases = some d.bases := by
        rw [s.mem, (keepAll_rest x w1 x ps).2.1, m1, if_pos rfl]
      rw [← this]
    · rw [if_neg hx]
  have kk : Keeps w1 w3 := ⟨types3.trans k.types, fun n x hx => k3 _ _ (k.keep n x hx)⟩
  obtain ⟨w4, e4, hr4, k4, s4⟩ := registerClass_ok hb3 hr3 (AllPromises.mono kk h)
  have hid : ps.foldl (World.keep c3) w3 = w3 := by
    refine keepAll_id fun p hp hl => ?_
    rw [mem3, s.mem]
    exact keepAll_kept c3 ps w1 p hp hl
  rw [hid] at s4
  exact ⟨w4, e4, hr4, s4.mem.trans mem3, s4.next.trans n3, k4.types.trans types3,
    fun n x hx => k4.keep _ _ (k3 n x hx)⟩

example : ∃ w w1 w' c, MemReachable w ∧
    w.bindType sampleClass.type sampleClass.name sampleClass.bases = (w1, some c) ∧
    AllPromises false sampleClassInfo w1 c sampleClass.entries samplePromises ∧
    w.registerClass false sampleClassInfo sampleClass = .ok (w', c) := by
  obtain ⟨w, w1, c, h1, h2, h3, h4, _⟩ := sample_descriptor
  obtain ⟨w', e, _⟩ := register_class_partial h1 h2 h3 h4
  exact ⟨w, w1, w', c, h1, h2, h3, e⟩

/-- C60, constructors.  If the last entry `Constructor<U, T...>` with the parameter types `tys` belongs to the
class that is registered, then `GetMethodID` finds it as `<init>` with the signature `(tys)V` of Java. -/
theorem register_constructor {compat : Bool} {ci : CppInfo} {w w1 : World} (hr : MemReachable w) {d : DescClass}
    {c : Nat} (hb : w.bindType d.type d.name d.bases = (w1, some c)) {ps : List Promise}
    (h : AllPromises compat ci w1 c d.entries ps)
    (hfree : ∀ p ∈ ps, p.use = .call → HookFree w c p.static p.name p.type) {tys : List Ty} {fn : Nat}
    (hl : lastPromise .call true "<init>".toList (renderSig tys (some (.cls d.name))) ps = some fn)
    (ht : ')' ∉ tys.flatMap Ty.render) :
    ∃ w' m, w.registerClass compat ci d = .ok (w', c) ∧ m ∈ (w'.mem c).methods ∧ m.static = true ∧
      m.handle = some fn ∧ ∀ depth rn, w'.getMethodID (depth + 1) false rn false (some c) "<init>".toList
        (renderSig tys none) = .ok (w', some m.id) := by
  obtain ⟨w', e, hr', hc', _, _, hcall, _⟩ := register_class_partial hr hb h hfree
  obtain ⟨m, hm, hh, hlook, _⟩ := hcall _ _ _ _ hl (fun _ => rfl)
  refine ⟨w', m, e, hm.1, hm.2.1, hh, fun depth rn => ?_⟩
  have := constructor_is_static_factory hr' hc' (depth + 1) rn false (tys.flatMap Ty.render) "V".toList ht
  have e1 : renderSig tys none = "(".toList ++ tys.flatMap Ty.render ++ ")".toList ++ "V".toList := by
    simp [renderSig, renderRet]
  have e2 : renderSig tys (some (.cls d.name)) = "(".toList ++ tys.flatMap Ty.render ++ ")L".toList ++ d.name ++ ";".toList := by
    simp [renderSig, renderRet, Ty.render]
  rw [e1, this, ← e2]
  exact hlook depth rn

example : lastPromise .call true "<init>".toList (renderSig [.prim .int] (some (.cls sampleClass.name)))
    samplePromises = some 50 ∧ ')' ∉ [Ty.prim .int].flatMap Ty.render := by decide

/-- C60, refusal.  If an entry is a member of the objects with the static flag, the registration throws before
the VM is touched, whatever the other entries are. -/
theorem register_refuses {compat : Bool} {ci : CppInfo} (w : World) {d : DescClass} {f : CppFn} {name : Str}
    {flags : Option (BitVec 32)} {fn : Nat → Nat} (he : .named f name flags fn ∈ d.entries)
    (hs : SaysStatic compat f flags) (hi : f.kind.isInstance = true) :
    w.registerClass compat ci d = .throws .runtimeError := by
  have key : ∀ es : List DescEntry, .named f name flags fn ∈ es → makeAll compat es = .throws .runtimeError := by
    intro es
    induction es with
    | nil => intro h; cases h
    | cons e es ih =>
      intro h
      have bad : (DescEntry.named f name flags fn).make compat = .throws .runtimeError := by
        rcases descriptor_flags compat f name flags fn with ⟨_, _, h⟩ | ⟨b, _, _, h, _⟩
        · exact h
        · rw [h hs] at hi; cases hi
      rcases List.mem_cons.1 h with rfl | h
      · unfold makeAll
        rw [bad]
        rfl
      · unfold makeAll
        rw [ih h]
        cases e with
        | ctor t ps g => rfl
        | named f' n' fl' g' =>
          rcases descriptor_flags compat f' n' fl' g' with ⟨_, _, h⟩ | ⟨b, h, _⟩ <;> rw [h] <;> rfl
  simp only [World.registerClass, key d.entries he]
  rfl

example : ∃ d : DescClass, d.entries.length = 2 ∧
    .named ⟨.member, .void, []⟩ "f".toList (some 8) id ∈ d.entries ∧
    SaysStatic false ⟨.member, .void, []⟩ (some 8) ∧ FnKind.isInstance .member = true :=
  ⟨⟨7, "c/D".toList, [], true, [.ctor 7 [] id, .named ⟨.member, .void, []⟩ "f".toList (some 8) id]⟩,
    rfl, by simp, rfl, rfl⟩

/-- C60, functions without flags.  Unless the compatibility mode is on, a function or variable that belongs to no
object and is given without flags becomes an instance member. -/
theorem descriptor_promotes {ci : CppInfo} {w : World} {c : Nat} {f : CppFn} {name : Str} {fn : Nat → Nat}
    {ps : List Promise} (h : EntryPromises false ci w c (.named f name none fn) ps) : ∀ p ∈ ps, p.static = false := by
  cases h with
  | static h _ _ => exact absurd h.1 (by decide)
  | inst _ h => cases h <;> simp

example : ∃ w w1 c, MemReachable w ∧
    w.bindType sampleClass.type sampleClass.name sampleClass.bases = (w1, some c) ∧
    ∃ f name fn ps, .named f name none fn ∈ sampleClass.entries ∧ f.kind.isInstance = false ∧ ps ≠ [] ∧
      EntryPromises false sampleClassInfo w1 c (.named f name none fn) ps := by
  obtain ⟨w, w1, c, h1, h2, h3, h4, _⟩ := sample_descriptor
  have head : ∀ {e : DescEntry} {es : List DescEntry} {l : List Promise},
      AllPromises false sampleClassInfo w1 c (e :: es) l → ∃ ps, EntryPromises false sampleClassInfo w1 c e ps := by
    intro e es l h
    cases h with
    | cons h _ => exact ⟨_, h⟩
  obtain ⟨ps, h⟩ := head h3
  refine ⟨w, w1, c, h1, h2, _, _, _, ps, List.mem_cons_self, rfl, ?_, h⟩
  cases h with
  | static _ _ h => cases h <;> simp
  | inst _ h => cases h <;> simp

/-- C60 is false for `getDescriptor`, which should register a class that was not registered: it asks
`GetClass` first, which sets `baseclasses`, and registers only if that is not set.  So it never registers: the
class it gives has the members it had before. -/
theorem descriptor_never_registers {compat : Bool} {ci : CppInfo} {w : World} (hr : MemReachable w) (d : DescClass) :
    ∃ w' c, w.getDescriptor compat ci d = .ok (w', c) ∧ w'.IsClass d.name c ∧ w'.types d.type = some c ∧
      ∀ e, (w'.mem e).methods = (w.mem e).methods ∧ (w'.mem e).fields = (w.mem e).fields := by
  obtain ⟨w1, c, hb, hr1, hc1, t1, m1, k1, n1⟩ := bindType_ok hr d
  refine ⟨w1, c, ?_, hc1, by rw [t1, if_pos rfl], fun x => ?_⟩
  · have : (w1.mem c).bases = some d.bases := by rw [m1, if_pos rfl]
    simp only [World.getDescriptor, hb]
    rw [if_neg (fun h => by rw [this] at h; cases h.2.2.2)]
  · rw [m1]
    by_cases hx : x = c
    · subst hx; rw [if_pos rfl]; exact ⟨rfl, rfl⟩
    · rw [if_neg hx]; exact ⟨rfl, rfl⟩

/-- On a fresh VM the class has no members, although its descriptor has entries. -/
theorem descriptor_class_empty : ∃ (w w' : World) (c : Nat), MemReachable w ∧
    w.getDescriptor false sampleClassInfo sampleClass = .ok (w', c) ∧ sampleClass.entries.length = 5 ∧
    (w'.mem c).methods = [] ∧ (w'.mem c).fields = [] := by
  obtain ⟨w, w1, c, h1, _, _, _, hm⟩ := sample_descriptor
  obtain ⟨w', c', e, _, _, hx⟩ := descriptor_never_registers (compat := false) (ci := sampleClassInfo) h1 sampleClass
  exact ⟨w, w', c', h1, e, rfl, (hx c').1.trans (hm c').1, (hx c').2.trans (hm c').2⟩

end Jnivm
