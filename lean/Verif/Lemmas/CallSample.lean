import Verif.Lemmas.Calls
import Verif.Lemmas.MemberSample
import Verif.Props.Members
/-! A VM with a chain of three classes, hooks and objects, used by the examples and witnesses. -/
namespace Jnivm
open Spec

def sampleHeapOps : List (Nat × HeapOp) :=
  [(0, .findClass "A".toList), (0, .newObject (some "A".toList)), (0, .findClass "B".toList),
   (0, .newObject (some "B".toList)), (0, .findClass "C".toList), (0, .newObject (some "C".toList)),
   (0, .newObject none)]

/-- Class "C" extends "B", that extends "A".  "A" has an unhooked method `q`, a hooked method `m`
(function 1) and a hooked static method `s` (function 6); "B" hooks `m` (function 2) and `q`
(function 3).  "A" has a field `f` with getter 4 and setter 5 and a static field `g` with getter 7.
References 9, 11, 13 are the classes and 10, 12, 14 objects of them, 15 is an object without class. -/
structure SampleVm (vm : Vm) (a b c q m m' s q' f g : Nat) : Prop where
  reach : VmReachable vm
  isA : vm.world.IsClass "A".toList a
  isB : vm.world.IsClass "B".toList b
  isC : vm.world.IsClass "C".toList c
  ab : a ≠ b
  ac : a ≠ c
  bc : b ≠ c
  basesA : vm.world.bases a = some [none]
  basesB : vm.world.bases b = some [some a]
  basesC : vm.world.bases c = some [some b]
  methodsA : (vm.world.mem a).methods = [⟨q, "q".toList, "()V".toList, false, none, none⟩,
    ⟨m, "m".toList, "()I".toList, false, none, some 1⟩, ⟨s, "s".toList, "()I".toList, true, none, some 6⟩]
  methodsB : (vm.world.mem b).methods = [⟨m', "m".toList, "()I".toList, false, none, some 2⟩,
    ⟨q', "q".toList, "()V".toList, false, none, some 3⟩]
  methods : ∀ d, d ≠ a → d ≠ b → (vm.world.mem d).methods = []
  fieldsA : (vm.world.mem a).fields = [⟨f, "f".toList, "I".toList, false, some 4, some 5⟩,
    ⟨g, "g".toList, "I".toList, true, some 7, none⟩]
  env : ∃ e, vm.heap.envs 0 = some e ∧ e.pending = none
  detached : vm.heap.envs 1 = none
  objA : ClassIs vm (some 10) a
  objB : ClassIs vm (some 12) b
  objC : ClassIs vm (some 14) c
  clsA : IsClassRef vm (some 9) a
  clsB : IsClassRef vm (some 11) b
  clsC : IsClassRef vm (some 13) c
  objN : vm.heap.objs 15 = some ⟨.plain, none⟩
  objA' : vm.heap.objs 10 = some ⟨.plain, some 9⟩
  cls9 : ∃ o, vm.heap.objs 9 = some o ∧ o.kind = .cls "A".toList

theorem sample_world : ∃ w a b c q m m' s q' f g, MemReachable w ∧ w.IsClass "A".toList a ∧
    w.IsClass "B".toList b ∧ w.IsClass "C".toList c ∧ a ≠ b ∧ a ≠ c ∧ b ≠ c ∧
    w.bases a = some [none] ∧ w.bases b = some [some a] ∧ w.bases c = some [some b] ∧
    (w.mem a).methods = [⟨q, "q".toList, "()V".toList, false, none, none⟩,
      ⟨m, "m".toList, "()I".toList, false, none, some 1⟩, ⟨s, "s".toList, "()I".toList, true, none, some 6⟩] ∧
    (w.mem b).methods = [⟨m', "m".toList, "()I".toList, false, none, some 2⟩,
      ⟨q', "q".toList, "()V".toList, false, none, some 3⟩] ∧
    (∀ d, d ≠ a → d ≠ b → (w.mem d).methods = []) ∧
    (w.mem a).fields = [⟨f, "f".toList, "I".toList, false, some 4, some 5⟩,
      ⟨g, "g".toList, "I".toList, true, some 7, none⟩] := by
  obtain ⟨w, a, b, c, hr, ha, hb, hc, hab, hac, hbc, ba, bb, bc, hm⟩ := sample_chain
  have hcore : ∀ c, w.cores c = [] := fun c => by simp [World.cores, hm c]
  have hA : w.getMethodID 1 false false false (some a) "q".toList "()V".toList =
      .ok (w.addMethod a ⟨w.next, "q".toList, "()V".toList, false, none, none⟩ w.reg, some w.next) := by
    rw [getMethodID_isClass hr.inv ha, effKey_plain (by decide)]
    unfold World.methodOf
    have : dfs w.bases (w.ownMethod ⟨false, false, "q".toList, "()V".toList⟩) 1 a = .ok none := by
      simp only [dfs, ownMethod_cores, hcore, ba]; rfl
    rw [this]
    simp only [Res.bind_ok, Bool.false_eq_true, if_false, World.createMethod, declare_unit]
    rfl
  have r1 := run_getMethodID (nat := false) (rn := false) (by simp) hA
  generalize hw1 : w.addMethod a ⟨w.next, "q".toList, "()V".toList, false, none, none⟩ w.reg = w1 at r1
  have m1 : ∀ d, (w1.mem d).methods =
      if d = a then [⟨w.next, "q".toList, "()V".toList, false, none, none⟩] else [] := by
    intro d; rw [← hw1]; by_cases h : d = a <;> simp [World.addMethod, h, hm]
  have f1 : ∀ d, (w1.mem d).fields = [] := by
    intro d; rw [← hw1]; by_cases h : d = a <;> simp [World.addMethod, h, hm]
  have b1 : w1.bases = w.bases := by rw [← hw1]; simp
  have step : ∀ (w w' : World) (d : Nat) (st : Bool) (n s : Str) (fn : Nat),
      w.hookMethod d st n s fn = w' → (w.mem d).methods.find? (hookHits st n s) = none →
      (∀ e, (w'.mem e).methods = if e = d then (w.mem d).methods ++ [⟨w.next, n, s, st, none, some fn⟩]
        else (w.mem e).methods) ∧ (∀ e, (w'.mem e).fields = (w.mem e).fields) ∧ w'.bases = w.bases ∧
      (MemOp.hookMethod d st n s fn).run w = .ok w' := by
    intro w w' d st n s fn he hf
    refine ⟨fun e => ?_, fun e => ?_, ?_, by rw [← he]; rfl⟩
    · rw [← he, hookMethod_new hf]
      by_cases h : e = d <;> simp [h]
    · rw [← he, hookMethod_new hf]
      by_cases h : e = d <;> simp [h]
    · rw [← he, hookMethod_bases]
  obtain ⟨m2, f2, b2, r2⟩ := step w1 _ a false "m".toList "()I".toList 1 rfl (by rw [m1, if_pos rfl]; rfl)
  generalize w1.hookMethod a false "m".toList "()I".toList 1 = w2 at m2 f2 b2 r2
  obtain ⟨m3, f3, b3, r3⟩ := step w2 _ a true "s".toList "()I".toList 6 rfl (by rw [m2, if_pos rfl, m1, if_pos rfl]; rfl)
  generalize w2.hookMethod a true "s".toList "()I".toList 6 = w3 at m3 f3 b3 r3
  obtain ⟨m4, f4, b4, r4⟩ := step w3 _ b false "m".toList "()I".toList 2 rfl
    (by rw [m3, if_neg (Ne.symm hab), m2, if_neg (Ne.symm hab), m1, if_neg (Ne.symm hab)]; rfl)
  generalize w3.hookMethod b false "m".toList "()I".toList 2 = w4 at m4 f4 b4 r4
  obtain ⟨m5, f5, b5, r5⟩ := step w4 _ b false "q".toList "()V".toList 3 rfl
    (by rw [m4, if_pos rfl, m3, if_neg (Ne.symm hab), m2, if_neg (Ne.symm hab), m1, if_neg (Ne.symm hab)]; rfl)
  generalize w4.hookMethod b false "q".toList "()V".toList 3 = w5 at m5 f5 b5 r5
  have fa5 : (w5.mem a).fields = [] := by rw [f5, f4, f3, f2, f1]
  have hff : ∀ (w w' : World) (d : Nat) (gg st : Bool) (n s : Str) (fn : Nat),
      w.hookField d gg st n s fn = w' →
      (∀ e, (w'.mem e).methods = (w.mem e).methods) ∧ w'.bases = w.bases ∧
      (MemOp.hookField d gg st n s fn).run w = .ok w' := by
    intro w w' d gg st n s fn he
    refine ⟨fun e => ?_, by rw [← he, hookField_bases], by rw [← he]; rfl⟩
    rw [← he]
    cases hf : (w.mem d).fields.find? (FieldKey.hits ⟨st, n, s⟩) with
    | none => rw [hookField_new hf]; by_cases h : e = d <;> simp [h]
    | some x => rw [hookField_found hf]; by_cases h : e = d <;> simp [h]
  have fa6 : ((w5.hookField a true false "f".toList "I".toList 4).mem a).fields =
      [⟨w5.next, "f".toList, "I".toList, false, some 4, none⟩] := by
    rw [hookField_new (by rw [fa5]; rfl), fa5]; simp [FieldRec.setHandle]
  obtain ⟨m6, b6, r6⟩ := hff w5 _ a true false "f".toList "I".toList 4 rfl
  generalize w5.hookField a true false "f".toList "I".toList 4 = w6 at fa6 m6 b6 r6
  have fa7 : ((w6.hookField a false false "f".toList "I".toList 5).mem a).fields =
      [⟨w5.next, "f".toList, "I".toList, false, some 4, some 5⟩] := by
    rw [hookField_found (f := ⟨w5.next, "f".toList, "I".toList, false, some 4, none⟩) (by rw [fa6]; rfl), fa6]
    simp; rfl
  obtain ⟨m7, b7, r7⟩ := hff w6 _ a false false "f".toList "I".toList 5 rfl
  generalize w6.hookField a false false "f".toList "I".toList 5 = w7 at fa7 m7 b7 r7
  have fa8 : ((w7.hookField a true true "g".toList "I".toList 7).mem a).fields =
      [⟨w5.next, "f".toList, "I".toList, false, some 4, some 5⟩,
       ⟨w7.next, "g".toList, "I".toList, true, some 7, none⟩] := by
    rw [hookField_new (by rw [fa7]; rfl), fa7]; simp [FieldRec.setHandle]
  obtain ⟨m8, b8, r8⟩ := hff w7 _ a true true "g".toList "I".toList 7 rfl
  generalize w7.hookField a true true "g".toList "I".toList 7 = w8 at fa8 m8 b8 r8
  have q1 := hr.step r1
  have q2 := q1.step r2
  have q3 := q2.step r3
  have q4 := q3.step r4
  have q5 := q4.step r5
  have q6 := q5.step r6
  have q7 := q6.step r7
  have q8 := q7.step r8
  have kc : ∀ n d, w.IsClass n d → w8.IsClass n d := fun n d h =>
    isClass_step q7.inv r8 (isClass_step q6.inv r7 (isClass_step q5.inv r6 (isClass_step q4.inv r5
      (isClass_step q3.inv r4 (isClass_step q2.inv r3 (isClass_step q1.inv r2 (isClass_step hr.inv r1 h)))))))
  have bs : w8.bases = w.bases := by rw [b8, b7, b6, b5, b4, b3, b2, b1]
  have hba := Ne.symm hab
  refine ⟨w8, a, b, c, w.next, w1.next, w3.next, w2.next, w4.next, w5.next, w7.next, q8, kc _ _ ha, kc _ _ hb,
    kc _ _ hc, hab, hac, hbc, by rw [bs, ba], by rw [bs, bb], by rw [bs, bc], ?_, ?_, ?_, fa8⟩
  · rw [m8, m7, m6, m5, if_neg hab, m4, if_neg hab, m3, if_pos rfl, m2, if_pos rfl, m1, if_pos rfl]; rfl
  · rw [m8, m7, m6, m5, if_pos rfl, m4, if_pos rfl, m3, if_neg hba, m2, if_neg hba, m1, if_neg hba]; rfl
  · intro d h1 h2
    rw [m8, m7, m6, m5, if_neg h2, m4, if_neg h2, m3, if_neg h1, m2, if_neg h1, m1, if_neg h1]

theorem sample_heap : ∃ h e, HeapReachable h ∧ h.envs 0 = some e ∧ e.pending = none ∧ h.envs 1 = none ∧
    h.objs 9 = some ⟨.cls "A".toList, some 1⟩ ∧ h.objs 10 = some ⟨.plain, some 9⟩ ∧
    h.objs 11 = some ⟨.cls "B".toList, some 1⟩ ∧ h.objs 12 = some ⟨.plain, some 11⟩ ∧
    h.objs 13 = some ⟨.cls "C".toList, some 1⟩ ∧ h.objs 14 = some ⟨.plain, some 13⟩ ∧
    h.objs 15 = some ⟨.plain, none⟩ := by
  obtain ⟨h, _, hr, hp⟩ := reachable_of (ops := sampleHeapOps)
    (p := fun h => (h.envs 0).any (fun e => e.pending == none) && h.envs 1 == none &&
      h.objs 9 == some ⟨.cls "A".toList, some 1⟩ && h.objs 10 == some ⟨.plain, some 9⟩ &&
      h.objs 11 == some ⟨.cls "B".toList, some 1⟩ && h.objs 12 == some ⟨.plain, some 11⟩ &&
      h.objs 13 == some ⟨.cls "C".toList, some 1⟩ && h.objs 14 == some ⟨.plain, some 13⟩ &&
      h.objs 15 == some ⟨.plain, none⟩) (by decide +kernel)
  simp only [Bool.and_eq_true, beq_iff_eq] at hp
  obtain ⟨⟨⟨⟨⟨⟨⟨⟨p0, p1⟩, p2⟩, p3⟩, p4⟩, p5⟩, p6⟩, p7⟩, p8⟩ := hp
  obtain ⟨e, he, hpe⟩ := Option.any_eq_true _ _ |>.1 p0
  exact ⟨h, e, hr, he, by simpa using hpe, p1, p2, p3, p4, p5, p6, p7, p8⟩

theorem sample_vm : ∃ vm a b c q m m' s q' f g, SampleVm vm a b c q m m' s q' f g := by
  obtain ⟨w, a, b, c, q, m, m', s, q', f, g, hr, ha, hb, hc, hab, hac, hbc, ba, bb, bc, ma, mb, mo, fa⟩ :=
    sample_world
  obtain ⟨h, e, hh, h0, hp, h1, h9, h10, h11, h12, h13, h14, h15⟩ := sample_heap
  have den : ∀ i o, h.objs i = some o → (∀ x, o.kind ≠ .weak x ∧ o.kind ≠ .global x) → Denotes h (some i) (some i) :=
    fun i o ho hk => .direct ho hk
  have rA : IsClassRef ⟨w, h⟩ (some 9) a := ⟨9, _, _, den 9 _ h9 (by simp), h9, rfl, ha⟩
  have rB : IsClassRef ⟨w, h⟩ (some 11) b := ⟨11, _, _, den 11 _ h11 (by simp), h11, rfl, hb⟩
  have rC : IsClassRef ⟨w, h⟩ (some 13) c := ⟨13, _, _, den 13 _ h13 (by simp), h13, rfl, hc⟩
  exact ⟨⟨w, h⟩, a, b, c, q, m, m', s, q', f, g, ⟨hr, hh⟩, ha, hb, hc, hab, hac, hbc, ba, bb, bc, ma, mb, mo,
    fa, ⟨e, h0, hp⟩, h1, ⟨10, _, 9, den 10 _ h10 (by simp), h10, rfl, rA⟩,
    ⟨12, _, 11, den 12 _ h12 (by simp), h12, rfl, rB⟩, ⟨14, _, 13, den 14 _ h14 (by simp), h14, rfl, rC⟩,
    rA, rB, rC, h15, h10, ⟨_, h9, rfl⟩⟩

/-- Functions that return their own number; kinds and types fit `SampleVm`. -/
def sampleCode (f : Nat) : Hook :=
  ⟨if f = 6 ∨ f = 7 then .static else .inst, if f = 3 then .void else .int,
    fun vm _ _ => .returns vm (BitVec.ofNat 64 f)⟩

theorem sampleCode_behaved : WellBehaved sampleCode := fun _ _ _ _ h => h

end Jnivm
