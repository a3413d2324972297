import Verif.Props.Members
import Verif.Lemmas.Refs
/-! Concrete VMs that meet the hypotheses of the theorems of C16 to C19. -/
namespace Jnivm
open Spec

/-- "a/D" (11) extends "A" (9) and "B" (10).  "B" has a hooked method "q", "A" a native "n" and a static field
"x", "a/D" a hooked static method "s", a hooked constructor and a field "y" with a getter. -/
def memberOps : List MemOp :=
  [.bindType 0 "A".toList [none], .bindType 1 "B".toList [none], .bindType 2 "a/D".toList [some 0, some 1],
    .hookMethod 10 false "q".toList "()V".toList 5, .hookMethod 11 true "s".toList "()V".toList 6,
    .registerNatives (some 9) [⟨"n".toList, "()V".toList, some 7⟩],
    .getFieldID 3 true false (some 9) "x".toList "I".toList,
    .hookMethod 11 true "<init>".toList "(I)La/D;".toList 8,
    .hookField 11 true false "y".toList "La/P;".toList 9]

theorem memReachable_of {ops : List MemOp} {p : World → Bool} (h : (runMem .initial ops).holds p = true) :
    ∃ w, runMem .initial ops = .ok w ∧ MemReachable w ∧ p w = true := by
  obtain ⟨w, h1, h2⟩ := Res.holds_iff.1 h
  exact ⟨w, h1, ⟨ops, h1⟩, h2⟩

/-- What the VM above contains. -/
structure SampleMembers (w : World) : Prop where
  reach : MemReachable w
  cls : w.IsClass "a/D".toList 11
  bases : w.bases 9 = some [none] ∧ w.bases 10 = some [none] ∧ w.bases 11 = some [some 9, some 10]
  a : (w.mem 9).methods = [⟨2, "n".toList, "()V".toList, false, some 7, none⟩] ∧
    (w.mem 9).fields = [⟨3, "x".toList, "I".toList, true, none, none⟩]
  b : (w.mem 10).methods = [⟨0, "q".toList, "()V".toList, false, none, some 5⟩] ∧ (w.mem 10).fields = []
  d : (w.mem 11).methods = [⟨1, "s".toList, "()V".toList, true, none, some 6⟩,
      ⟨4, "<init>".toList, "(I)La/D;".toList, true, none, some 8⟩] ∧
    (w.mem 11).fields = [⟨5, "y".toList, "La/P;".toList, false, some 9, none⟩]

theorem sample_members : ∃ w, runMem .initial memberOps = .ok w ∧ SampleMembers w := by
  obtain ⟨w, hx, hr, hp⟩ := memReachable_of (ops := memberOps) (p := fun w =>
    (findClass true w.reg "a/D".toList).2 == some 11 &&
    (decide (w.bases 9 = some [none]) && decide (w.bases 10 = some [none]) &&
      decide (w.bases 11 = some [some 9, some 10])) &&
    (decide ((w.mem 9).methods = [⟨2, "n".toList, "()V".toList, false, some 7, none⟩]) &&
      decide ((w.mem 9).fields = [⟨3, "x".toList, "I".toList, true, none, none⟩])) &&
    (decide ((w.mem 10).methods = [⟨0, "q".toList, "()V".toList, false, none, some 5⟩]) &&
      decide ((w.mem 10).fields = [])) &&
    (decide ((w.mem 11).methods = [⟨1, "s".toList, "()V".toList, true, none, some 6⟩,
        ⟨4, "<init>".toList, "(I)La/D;".toList, true, none, some 8⟩]) &&
      decide ((w.mem 11).fields = [⟨5, "y".toList, "La/P;".toList, false, some 9, none⟩]))) (by decide +kernel)
  simp only [Bool.and_eq_true, beq_iff_eq, decide_eq_true_eq] at hp
  obtain ⟨⟨⟨⟨h1, ⟨h2, h3⟩, h4⟩, h5⟩, h6⟩, h7⟩ := hp
  exact ⟨w, hx, hr, h1, ⟨h2, h3, h4⟩, h5, h6, h7⟩

theorem SampleMembers.order {w : World} (S : SampleMembers w) : SearchOrder w.bases [some 11] [11, 9, 10] := by
  refine .visit (up := [9, 10]) (l := []) ?_ .nil
  rw [S.bases.2.2]
  refine .visit (up := []) (l := [10]) ?_ (.visit (up := []) (l := []) ?_ .nil)
  · rw [S.bases.1]; exact .skip .nil
  · rw [S.bases.2.1]; exact .skip .nil

/-- A lookup in "a/D" of a method that it has or inherits. -/
theorem SampleMembers.finds {w : World} (S : SampleMembers w) (st rn nat : Bool) {name sig : Str} {id : Nat}
    (hname : name = "<init>".toList → st = true)
    (h : [11, 9, 10].findSome? (w.ownMethod ⟨st, nat, name, sig⟩) = some id) :
    w.getMethodID 3 st rn nat (some 11) name sig = .ok (w, some id) := by
  rw [getMethodID_isClass S.reach.inv S.cls, effKey_plain hname]
  unfold World.methodOf
  rw [dfs_searchOrder S.order (by decide), h]; rfl

theorem SampleMembers.q {w : World} (S : SampleMembers w) :
    w.getMethodID 3 false false false (some 11) "q".toList "()V".toList = .ok (w, some 0) := by
  apply S.finds _ _ _ (by decide)
  simp only [List.findSome?_cons, World.ownMethod, S.a.1, S.b.1, S.d.1]
  rfl

/-! ### C17 -/

/-- Sample for `lookup_denotes`, `lookup_order`, `lookup_null` and `searchOrder_unique`: an inherited method, an
inherited native, and a method that no class has. -/
example : ∃ w, MemReachable w ∧ w.IsClass "a/D".toList 11 ∧ SearchOrder w.bases [some 11] [11, 9, 10] ∧
    w.getMethodID 3 false false false (some 11) "q".toList "()V".toList = .ok (w, some 0) ∧
    w.getMethodID 3 false true true (some 11) "n".toList "()V".toList = .ok (w, some 2) ∧
    w.getMethodID 3 false true false (some 11) "n".toList "()V".toList = .ok (w, none) := by
  obtain ⟨w, _, S⟩ := sample_members
  refine ⟨w, S.reach, S.cls, S.order, S.q, S.finds _ _ _ (by decide) ?_, ?_⟩
  · simp only [List.findSome?_cons, World.ownMethod, S.a.1, S.b.1, S.d.1]
    rfl
  · rw [lookup_order S.reach S.cls S.order (by decide) _ _ _ _ (by decide)]
    simp only [List.findSome?_cons, S.a.1, S.b.1, S.d.1]
    congr

/-- Sample for `lookup_own_wins`. -/
example : ∃ w m, MemReachable w ∧ w.IsClass "a/D".toList 11 ∧ w.Declares 11 true false "s".toList "()V".toList m := by
  obtain ⟨w, _, S⟩ := sample_members
  exact ⟨w, _, S.reach, S.cls, by rw [S.d.1]; exact List.mem_cons_self, rfl, rfl, rfl, rfl⟩

/-- Sample for `lookup_order_exists`. -/
example : ∃ w a d, MemReachable w ∧ Acyclic w.bases ∧ Direct w.bases d a := by
  obtain ⟨w, a, d, hr, ha, hd, had, ba, bd, bo, hm⟩ := sample_single
  refine ⟨w, a, d, hr, ⟨fun c => if c = d then 1 else 0, fun c e h => ?_⟩, ⟨_, bd, List.mem_cons_self⟩⟩
  obtain ⟨bs, hb, he⟩ := h
  by_cases h1 : c = a
  · rw [h1, ba] at hb; cases hb; simp at he
  · by_cases h2 : c = d
    · rw [h2, bd] at hb; cases hb
      obtain rfl : e = a := by simpa using he
      simp [h2, had]
    · rw [bo c h1 h2] at hb; cases hb

/-- Sample for `lookup_cyclic_diverges`: a type that is its own base. -/
example : ∃ w, MemReachable w ∧ w.IsClass "A".toList 9 ∧ w.bases 9 = some [some 9] ∧
    ∀ m, ¬ w.Declares 9 false false "q".toList "()V".toList m := by
  obtain ⟨w, _, hr, hp⟩ := memReachable_of (ops := [.bindType 0 "A".toList [some 0]]) (p := fun w =>
    (findClass true w.reg "A".toList).2 == some 9 && decide (w.bases 9 = some [some 9]) &&
      decide ((w.mem 9).methods = [])) (by decide +kernel)
  simp only [Bool.and_eq_true, beq_iff_eq, decide_eq_true_eq] at hp
  refine ⟨w, hr, hp.1.1, hp.1.2, fun m h => ?_⟩
  have := h.1
  rw [hp.2] at this
  cases this

/-! ### C16 -/

/-- Sample for `method_id_stable_own_partial`: the method is made by the lookup, and then hooked; its class gets
another base, and natives come and go. -/
example : ∃ w w1 w2 id, MemReachable w ∧ w.IsClass "a/D".toList 11 ∧
    w.getMethodID 3 false false false (some 11) "new".toList "(La/P;)V".toList = .ok (w1, some id) ∧
    (∃ m ∈ (w1.mem 11).methods, m.id = id) ∧
    runMem w1 [.hookMethod 11 false "new".toList "(La/P;)V".toList 3, .bindType 2 "a/D".toList [some 1],
      .registerNatives (some 11) [⟨"new".toList, "()V".toList, some 4⟩], .unregisterNatives (some 11)] = .ok w2 := by
  obtain ⟨w, hx, hr, hp⟩ := memReachable_of (ops := memberOps) (p := fun w =>
    (findClass true w.reg "a/D".toList).2 == some 11 &&
    (w.getMethodID 3 false false false (some 11) "new".toList "(La/P;)V".toList).holds fun (x : World × Option Nat) =>
      decide (x.2 = some 6) && (x.1.mem 11).methods.any (fun (m : MethodRec) => m.id == 6) &&
      (runMem x.1 [.hookMethod 11 false "new".toList "(La/P;)V".toList 3, .bindType 2 "a/D".toList [some 1],
        .registerNatives (some 11) [⟨"new".toList, "()V".toList, some 4⟩], .unregisterNatives (some 11)]).holds
          fun _ => true) (by decide +kernel)
  simp only [Bool.and_eq_true, beq_iff_eq, decide_eq_true_eq, Res.holds_iff, List.any_eq_true] at hp
  obtain ⟨h1, ⟨w1, i⟩, h2, ⟨rfl, h3⟩, w2, h4, _⟩ := hp
  exact ⟨w, w1, w2, 6, hr, h1, h2, h3, h4⟩

/-- Sample for `method_id_unstable_hook`: "q" is inherited from "B". -/
example : ∃ w, MemReachable w ∧ w.IsClass "a/D".toList 11 ∧
    w.getMethodID 3 false false false (some 11) "q".toList "()V".toList = .ok (w, some 0) ∧
    ∀ m ∈ (w.mem 11).methods, ¬ (m.static = false ∧ m.name = "q".toList ∧ m.signature = "()V".toList) := by
  obtain ⟨w, _, S⟩ := sample_members
  refine ⟨w, S.reach, S.cls, S.q, ?_⟩
  rw [S.d.1]
  decide

/-! ### C19 -/

/-- Sample for `field_denotes`, `field_order`, `field_null` and `field_id_stable_own_partial`: an inherited static
field, a field of the class, and one that is made; then a function is set as its setter. -/
example : ∃ w w1 w2 id, MemReachable w ∧ w.IsClass "a/D".toList 11 ∧ SearchOrder w.bases [some 11] [11, 9, 10] ∧
    (∃ w', w.getFieldID 3 true true (some 11) "x".toList "I".toList = .ok (w', some 3)) ∧
    w.getFieldID 3 false false (some 11) "z".toList "I".toList = .ok (w1, some id) ∧
    (∃ f ∈ (w1.mem 11).fields, f.id = id) ∧
    runMem w1 [.hookField 11 false false "z".toList "I".toList 3, .bindType 2 "a/D".toList [some 1]] = .ok w2 := by
  obtain ⟨w', hx', S⟩ := sample_members
  obtain ⟨w, hx, hr, hp⟩ := memReachable_of (ops := memberOps) (p := fun w =>
    (w.getFieldID 3 true true (some 11) "x".toList "I".toList).holds (fun (x : World × Option Nat) => decide (x.2 = some 3)) &&
    (w.getFieldID 3 false false (some 11) "z".toList "I".toList).holds fun (x : World × Option Nat) =>
      decide (x.2 = some 6) && (x.1.mem 11).fields.any (fun (m : FieldRec) => m.id == 6) &&
      (runMem x.1 [.hookField 11 false false "z".toList "I".toList 3, .bindType 2 "a/D".toList [some 1]]).holds
          fun _ => true) (by decide +kernel)
  obtain rfl : w' = w := by rw [hx] at hx'; cases hx'; rfl
  simp only [Bool.and_eq_true, beq_iff_eq, decide_eq_true_eq, Res.holds_iff, List.any_eq_true] at hp
  obtain ⟨⟨⟨u, i⟩, h1, rfl⟩, ⟨w1, j⟩, h2, ⟨rfl, h3⟩, w2, h4, _⟩ := hp
  exact ⟨w', w1, w2, 6, hr, S.cls, S.order, ⟨u, h1⟩, h2, h3, h4⟩

/-- Sample for `field_own_wins`. -/
example : ∃ w f, MemReachable w ∧ w.IsClass "a/D".toList 11 ∧
    w.DeclaresField 11 false "y".toList "La/P;".toList f := by
  obtain ⟨w, _, S⟩ := sample_members
  exact ⟨w, _, S.reach, S.cls, by rw [S.d.2]; exact List.mem_cons_self, rfl, rfl, rfl⟩

/-! ### C10 -/

/-- Sample for `lookup_declares` and `field_lookup_declares`: no class has the method. -/
example : ∃ w, MemReachable w ∧ w.IsClass "a/D".toList 11 ∧
    (∀ t ∈ [Ty.cls "a/P".toList, .arr (.cls "a/Q".toList)], t.Valid) ∧
    w.getMethodID 3 false true false (some 11) "new".toList
      (renderSig [.cls "a/P".toList, .arr (.cls "a/Q".toList)] none) = .ok (w, none) := by
  obtain ⟨w, _, S⟩ := sample_members
  refine ⟨w, S.reach, S.cls, by decide, ?_⟩
  rw [lookup_order S.reach S.cls S.order (by decide) _ _ _ _ (by decide)]
  simp only [List.findSome?_cons, S.a.1, S.b.1, S.d.1]
  congr

end Jnivm
