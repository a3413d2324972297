import Verif.Lemmas.CodegenTree
/-! Lemmas about the bindings that the code generator writes. -/
namespace Jnivm
open Spec

/-- The blocks of a class and its inner classes: `true` opens a block and `false` closes it. -/
def clsEvents (r : Registry) : Nat → Str → Nat → List (Bool × Str × Nat)
  | 0, _, _ => []
  | depth + 1, scope, c =>
    match r.cls[c]? with
    | none => []
    | some cd =>
      if cd.nativeprefix ∈ blacklisted then []
      else (true, addScope scope cd.name, c) :: (cd.classes.flatMap (clsEvents r depth (addScope scope cd.name)) ++
        [(false, addScope scope cd.name, c)])

def nsEvents (r : Registry) : Nat → Str → Nat → List (Bool × Str × Nat)
  | 0, _, _ => []
  | depth + 1, scope, n =>
    match r.ns[n]? with
    | none => []
    | some nd =>
      nd.classes.flatMap (clsEvents r depth (nsScope scope nd.name)) ++
        nd.namespaces.flatMap (nsEvents r depth (nsScope scope nd.name))

/-- The entries that open (or close) a block. -/
def side {α : Type} (b : Bool) (l : List (Bool × α)) : List α := (l.filter (·.1 == b)).map (·.2)

theorem side_append {α : Type} (b : Bool) (l m : List (Bool × α)) : side b (l ++ m) = side b l ++ side b m := by
  simp [side]

theorem side_flatMap {α β : Type} (b : Bool) (f : β → List (Bool × α)) (l : List β) :
    side b (l.flatMap f) = l.flatMap fun x => side b (f x) := by
  induction l with
  | nil => rfl
  | cons x l ih => rw [List.flatMap_cons, side_append, ih, List.flatMap_cons]

theorem flatMap_eq {α β : Type} {f g : α → List β} {l : List α} (h : ∀ x ∈ l, f x = g x) :
    l.flatMap f = l.flatMap g := by
  induction l with
  | nil => rfl
  | cons x l ih => rw [List.flatMap_cons, List.flatMap_cons, h x (by simp), ih fun y hy => h y (by simp [hy])]

theorem clsEvents_side (r : Registry) (d : Nat) : ∀ scope c,
    side true (clsEvents r d scope c) = clsList r d scope c ∧
    side false (clsEvents r d scope c) = clsListPost r d scope c := by
  induction d with
  | zero => intro _ _; exact ⟨rfl, rfl⟩
  | succ d ih =>
    intro scope c
    unfold clsEvents clsList clsListPost
    cases r.cls[c]? with
    | none => exact ⟨rfl, rfl⟩
    | some cd =>
      simp only
      by_cases hb : cd.nativeprefix ∈ blacklisted
      · simp only [if_pos hb]; exact ⟨rfl, rfl⟩
      · simp only [if_neg hb]
        rw [← List.singleton_append, side_append, side_append, side_append, side_append, side_flatMap, side_flatMap,
          flatMap_eq fun x _ => (ih _ x).1, flatMap_eq fun x _ => (ih _ x).2]
        constructor
        · simp [side]
        · simp [side]

theorem nsEvents_side (r : Registry) (d : Nat) : ∀ scope c,
    side true (nsEvents r d scope c) = nsList r d scope c ∧
    side false (nsEvents r d scope c) = nsListPost r d scope c := by
  induction d with
  | zero => intro _ _; exact ⟨rfl, rfl⟩
  | succ d ih =>
    intro scope c
    unfold nsEvents nsList nsListPost
    cases r.ns[c]? with
    | none => exact ⟨rfl, rfl⟩
    | some cd =>
      simp only
      rw [side_append, side_append, side_flatMap, side_flatMap, side_flatMap, side_flatMap,
        flatMap_eq fun x _ => (ih _ x).1, flatMap_eq fun x _ => (ih _ x).2,
        flatMap_eq fun x _ => (clsEvents_side r d _ x).1, flatMap_eq fun x _ => (clsEvents_side r d _ x).2]
      exact ⟨rfl, rfl⟩

/-- Every block that is opened is closed. -/
def Neutral {α : Type} (l : List (Bool × α)) : Prop :=
  ∀ (st : List α) (m : List (Bool × α)), Balanced st m → Balanced st (l ++ m)

theorem Neutral.nil {α : Type} : Neutral ([] : List (Bool × α)) := fun _ _ h => h

theorem Neutral.append {α : Type} {a b : List (Bool × α)} (ha : Neutral a) (hb : Neutral b) : Neutral (a ++ b) := by
  intro st m h
  rw [List.append_assoc]
  exact ha _ _ (hb _ _ h)

theorem Neutral.flatMap {α β : Type} {f : β → List (Bool × α)} {l : List β} (h : ∀ x ∈ l, Neutral (f x)) :
    Neutral (l.flatMap f) := by
  induction l with
  | nil => exact Neutral.nil
  | cons x l ih =>
    rw [List.flatMap_cons]
    exact (h x (by simp)).append (ih fun y hy => h y (by simp [hy]))

theorem Neutral.block {α : Type} {a : List (Bool × α)} (ha : Neutral a) (x : α) :
    Neutral ((true, x) :: (a ++ [(false, x)])) := by
  intro st m h
  rw [List.cons_append, List.append_assoc]
  have hb : Balanced (x :: st) (a ++ ([(false, x)] ++ m)) := ha _ _ ⟨rfl, h⟩
  cases st <;> exact hb

theorem clsEvents_neutral (r : Registry) (d : Nat) : ∀ scope c, Neutral (clsEvents r d scope c) := by
  induction d with
  | zero => intro _ _; exact Neutral.nil
  | succ d ih =>
    intro scope c
    unfold clsEvents
    cases r.cls[c]? with
    | none => exact Neutral.nil
    | some cd =>
      simp only
      by_cases hb : cd.nativeprefix ∈ blacklisted
      · simp only [if_pos hb]; exact Neutral.nil
      · simp only [if_neg hb]
        exact Neutral.block (Neutral.flatMap fun x _ => ih _ x) _

theorem nsEvents_neutral (r : Registry) (d : Nat) : ∀ scope c, Neutral (nsEvents r d scope c) := by
  induction d with
  | zero => intro _ _; exact Neutral.nil
  | succ d ih =>
    intro scope c
    unfold nsEvents
    cases r.ns[c]? with
    | none => exact Neutral.nil
    | some cd =>
      exact (Neutral.flatMap fun x _ => clsEvents_neutral r d _ x).append (Neutral.flatMap fun x _ => ih _ x)

theorem nsEvents_balanced (r : Registry) (d : Nat) (scope : Str) (c : Nat) : Balanced [] (nsEvents r d scope c) := by
  have := nsEvents_neutral r d scope c [] [] trivial
  rwa [List.append_nil] at this

variable {r : Registry} {π : Nat → List Str} {σ : Nat → List Str × List Str} {w : World}

/-- What opens and closes the block of a class. -/
def eventText (w : World) (x : Bool × Str × Nat) : Res Str :=
  match w.reg.cls[x.2.2]? with
  | none => .ub .dangling
  | some cd =>
    if x.1 then .ok ("{\nauto c = env->GetClass(\"".toList ++ cd.nativeprefix ++ "\");\n".toList)
    else (catMap (fun m => methodBinding false m x.2.1 cd.name) (w.mem x.2.2).methods).bind fun ms =>
      .ok (((w.mem x.2.2).fields.map fun f => fieldBinding false f x.2.1 cd.name).flatten ++ ms ++ "}\n".toList)

/-- The descriptor of a class in the fake-jni syntax. -/
def descriptorOf (w : World) (x : Str × Nat) : Res Str :=
  match w.reg.cls[x.2]? with
  | none => .ub .dangling
  | some cd =>
    (catMap (fun m => methodBinding true m x.1 cd.name) (w.mem x.2).methods).bind fun ms =>
      .ok ("BEGIN_NATIVE_DESCRIPTOR(".toList ++ x.1 ++ ")\n".toList ++
        ((w.mem x.2).fields.map fun f => fieldBinding true f x.1 cd.name).flatten ++ ms ++
        "END_NATIVE_DESCRIPTOR\n".toList)

theorem classBinding_events (inv : TreeInv w.reg π σ) {B : Nat} (hB : Bound w.reg π σ B) (d : Nat) :
    ∀ scope c cd, w.reg.cls[c]? = some cd → B < d + (σ c).2.length →
      classBinding false w d scope c = catMap (eventText w) (clsEvents w.reg d scope c) := by
  induction d with
  | zero =>
    intro scope c cd hc hf
    obtain ⟨d', e, _⟩ := fuel_cls inv hB hc hf
    omega
  | succ d ih =>
    intro scope c cd hc hf
    obtain ⟨d', e, hk⟩ := fuel_cls inv hB hc hf
    cases e
    rw [classBinding, withClass_some hc, clsEvents]
    simp only [hc]
    by_cases hb : cd.nativeprefix ∈ blacklisted
    · rw [if_pos hb, if_pos hb]; rfl
    · rw [if_neg hb, if_neg hb]
      rw [catMap, catMap_append, catMap_flatMap, catMap_single]
      have e1 : eventText w (true, addScope scope cd.name, c) =
          .ok ("{\nauto c = env->GetClass(\"".toList ++ cd.nativeprefix ++ "\");\n".toList) := by
        unfold eventText; simp only [hc, if_true]
      have e2 : eventText w (false, addScope scope cd.name, c) =
          (catMap (fun m => methodBinding false m (addScope scope cd.name) cd.name) (w.mem c).methods).bind fun ms =>
            .ok (((w.mem c).fields.map fun f => fieldBinding false f (addScope scope cd.name) cd.name).flatten ++ ms ++
              "}\n".toList) := by
        unfold eventText; simp only [hc, Bool.false_eq_true, if_false]
      rw [e1, e2, Res.bind_ok]
      rw [catMap_congr (l := cd.classes)
        (g := fun x => catMap (eventText w) (clsEvents w.reg d (addScope scope cd.name) x))]
      · simp only [Bool.not_false, if_true]
        cases catMap (fun x => catMap (eventText w) (clsEvents w.reg d (addScope scope cd.name) x)) cd.classes with
        | ok a =>
          simp only [Res.bind_ok]
          cases catMap (fun m => methodBinding false m (addScope scope cd.name) cd.name) (w.mem c).methods with
          | ok b => simp only [Res.bind_ok, List.append_assoc]
          | throws e => rfl
          | ub u => rfl
          | diverges => rfl
        | throws e => rfl
        | ub u => rfl
        | diverges => rfl
      · intro k hkm
        obtain ⟨kd, h1, h2⟩ := hk k hkm
        exact ih _ k kd h1 h2

theorem classBinding_list (inv : TreeInv w.reg π σ) {B : Nat} (hB : Bound w.reg π σ B) (d : Nat) :
    ∀ scope c cd, w.reg.cls[c]? = some cd → B < d + (σ c).2.length →
      classBinding true w d scope c = catMap (descriptorOf w) (clsList w.reg d scope c) := by
  induction d with
  | zero =>
    intro scope c cd hc hf
    obtain ⟨d', e, _⟩ := fuel_cls inv hB hc hf
    omega
  | succ d ih =>
    intro scope c cd hc hf
    obtain ⟨d', e, hk⟩ := fuel_cls inv hB hc hf
    cases e
    rw [classBinding, withClass_some hc, clsList]
    simp only [hc]
    by_cases hb : cd.nativeprefix ∈ blacklisted
    · rw [if_pos hb, if_pos hb]; rfl
    · rw [if_neg hb, if_neg hb]
      rw [catMap, catMap_flatMap]
      have e1 : descriptorOf w (addScope scope cd.name, c) =
          (catMap (fun m => methodBinding true m (addScope scope cd.name) cd.name) (w.mem c).methods).bind fun ms =>
            .ok ("BEGIN_NATIVE_DESCRIPTOR(".toList ++ addScope scope cd.name ++ ")\n".toList ++
              ((w.mem c).fields.map fun f => fieldBinding true f (addScope scope cd.name) cd.name).flatten ++ ms ++
              "END_NATIVE_DESCRIPTOR\n".toList) := by
        unfold descriptorOf; simp only [hc]
      rw [e1]
      rw [catMap_congr (l := cd.classes)
        (g := fun x => catMap (descriptorOf w) (clsList w.reg d (addScope scope cd.name) x))]
      · simp only [Bool.not_true, Bool.false_eq_true, if_false]
        cases catMap (fun m => methodBinding true m (addScope scope cd.name) cd.name) (w.mem c).methods with
        | ok b => simp only [Res.bind_ok]
        | throws e => rfl
        | ub u => rfl
        | diverges => rfl
      · intro k hkm
        obtain ⟨kd, h1, h2⟩ := hk k hkm
        exact ih _ k kd h1 h2

theorem nsBinding_events (inv : TreeInv w.reg π σ) {B : Nat} (hB : Bound w.reg π σ B) (d : Nat) :
    ∀ scope n nd, w.reg.ns[n]? = some nd → 2 * B < d + (π n).length →
      nsBinding false w d scope n = catMap (eventText w) (nsEvents w.reg d scope n) := by
  induction d with
  | zero =>
    intro scope n nd hn hf
    obtain ⟨d', e, _⟩ := fuel_ns inv hB hn hf
    omega
  | succ d ih =>
    intro scope n nd hn hf
    obtain ⟨d', e, hc, hk⟩ := fuel_ns inv hB hn hf
    cases e
    rw [nsBinding, withNs_some hn, nsEvents]
    simp only [hn]
    rw [catMap_append, catMap_flatMap, catMap_flatMap]
    rw [catMap_congr (l := nd.classes) (g := fun x => catMap (eventText w) (clsEvents w.reg d (nsScope scope nd.name) x)),
      catMap_congr (l := nd.namespaces) (g := fun x => catMap (eventText w) (nsEvents w.reg d (nsScope scope nd.name) x))]
    · intro k hkm
      obtain ⟨kd, h1, h2⟩ := hk k hkm
      exact ih _ k kd h1 h2
    · intro c hcm
      obtain ⟨cd, h1, h2⟩ := hc c hcm
      exact classBinding_events inv hB d _ c cd h1 h2

theorem nsBinding_list (inv : TreeInv w.reg π σ) {B : Nat} (hB : Bound w.reg π σ B) (d : Nat) :
    ∀ scope n nd, w.reg.ns[n]? = some nd → 2 * B < d + (π n).length →
      nsBinding true w d scope n = catMap (descriptorOf w) (nsList w.reg d scope n) := by
  induction d with
  | zero =>
    intro scope n nd hn hf
    obtain ⟨d', e, _⟩ := fuel_ns inv hB hn hf
    omega
  | succ d ih =>
    intro scope n nd hn hf
    obtain ⟨d', e, hc, hk⟩ := fuel_ns inv hB hn hf
    cases e
    rw [nsBinding, withNs_some hn, nsList]
    simp only [hn]
    rw [catMap_append, catMap_flatMap, catMap_flatMap]
    rw [catMap_congr (l := nd.classes) (g := fun x => catMap (descriptorOf w) (clsList w.reg d (nsScope scope nd.name) x)),
      catMap_congr (l := nd.namespaces) (g := fun x => catMap (descriptorOf w) (nsList w.reg d (nsScope scope nd.name) x))]
    · intro k hkm
      obtain ⟨kd, h1, h2⟩ := hk k hkm
      exact ih _ k kd h1 h2
    · intro c hcm
      obtain ⟨cd, h1, h2⟩ := hc c hcm
      exact classBinding_list inv hB d _ c cd h1 h2

theorem nsBinding_root (inv : RegInv w.reg) : ∃ d0, ∀ d, d0 ≤ d →
    nsBinding false w d [] 0 = catMap (eventText w) (nsEvents w.reg d [] 0) ∧
    nsBinding true w d [] 0 = catMap (descriptorOf w) (nsList w.reg d [] 0) := by
  obtain ⟨π, σ, hT⟩ := inv.tree
  obtain ⟨B, hB⟩ := exists_bound w.reg π σ
  have hroot : w.reg.ns[0]? = some (w.reg.ns[0]'hT.root) := List.getElem?_eq_getElem hT.root
  refine ⟨2 * B + 1, fun d hd => ?_⟩
  have hf : 2 * B < d + (π 0).length := by omega
  exact ⟨nsBinding_events hT hB d [] 0 _ hroot hf, nsBinding_list hT hB d [] 0 _ hroot hf⟩

/-! ### Texts -/

theorem catMap_ok {α : Type} {f : α → Res Str} {g : α → Str} {l : List α} (h : ∀ x ∈ l, f x = .ok (g x)) :
    catMap f l = .ok (l.flatMap g) := by
  induction l with
  | nil => rfl
  | cons x l ih =>
    rw [catMap, h x (by simp), ih fun y hy => h y (by simp [hy])]
    rfl

theorem indent_plain {s : Str} (h : '\n' ∉ s) : indent false s = s := by
  induction s with
  | nil => rfl
  | cons c t ih =>
    rw [List.mem_cons, not_or] at h
    rw [indent, if_neg (fun e => h.1 e.symm), ih h.2]
    rfl

theorem indentLine_plain {s : Str} (h : '\n' ∉ s) (hne : s ≠ []) : indentLine s = "    ".toList ++ s ++ "\n".toList := by
  unfold indentLine
  rw [if_neg hne]
  cases s with
  | nil => exact absurd rfl hne
  | cons c t =>
    rw [List.mem_cons, not_or] at h
    rw [indent, if_neg (fun e => h.1 e.symm), indent_plain h.2]
    rfl

theorem cppName_plain {n : Str} (h : '\n' ∉ n) : '\n' ∉ cppName n := by
  induction n with
  | nil => simp [cppName]
  | cons c t ih =>
    rw [List.mem_cons, not_or] at h
    unfold cppName
    rw [List.mem_append, not_or]
    refine ⟨?_, ih h.2⟩
    split
    · decide
    · simp [h.1]

theorem cppClass_plain (fake : Bool) {n : Str} (h : '\n' ∉ n) : '\n' ∉ cppClass fake n := by
  have h0 : '\n' ∉ "jnivm::".toList ++ cppName n := by
    rw [List.mem_append, not_or]
    exact ⟨by decide, cppName_plain h⟩
  unfold cppClass
  split
  · split
    · decide
    · split
      · decide
      · split
        · decide
        · split
          · decide
          · split
            · decide
            · exact h0
  · exact h0

theorem cppPrim_plain (fake : Bool) (p : Prim) : '\n' ∉ cppPrim fake p := by
  cases fake <;> cases p <;> decide

theorem cppBare_plain (fake : Bool) (t : Ty) (h : '\n' ∉ t.render) : '\n' ∉ cppBare fake t := by
  induction t with
  | prim p => exact cppPrim_plain fake p
  | cls n =>
    apply cppClass_plain
    intro hn
    exact h (by simp [Ty.render, hn])
  | arr t ih =>
    have ih := ih (fun hn => h (by simp [Ty.render, hn]))
    cases t with
    | prim p =>
      unfold cppBare
      have := cppPrim_plain fake p
      cases fake
      · simp only [Bool.false_eq_true, if_false, List.mem_append, not_or]
        exact ⟨⟨by decide, this⟩, by decide⟩
      · simp only [if_true, List.mem_append, not_or]
        exact ⟨this, by decide⟩
    | cls n =>
      rw [cppBare]
      · simp only [List.mem_append, not_or]
        exact ⟨⟨by cases fake <;> decide, ih⟩, by decide⟩
      · intro p hp; cases hp
    | arr u =>
      rw [cppBare]
      · simp only [List.mem_append, not_or]
        exact ⟨⟨by cases fake <;> decide, ih⟩, by decide⟩
      · intro p hp; cases hp

theorem cppType_plain (fake : Bool) (t : Ty) (h : '\n' ∉ t.render) : '\n' ∉ cppType fake t := by
  have := cppBare_plain fake t h
  cases t with
  | prim p => exact cppPrim_plain fake p
  | cls n =>
    simp only [cppType, List.mem_append, not_or]
    exact ⟨⟨by decide, this⟩, by decide⟩
  | arr u =>
    simp only [cppType, List.mem_append, not_or]
    exact ⟨⟨by decide, this⟩, by decide⟩

theorem commas_plain {l : List Str} (h : ∀ x ∈ l, '\n' ∉ x) : '\n' ∉ commas l := by
  cases l with
  | nil => simp [commas]
  | cons x l =>
    rw [commas_cons, List.mem_append, not_or, List.mem_flatten]
    refine ⟨h x (by simp), ?_⟩
    rintro ⟨y, hy, hn⟩
    obtain ⟨z, hz, rfl⟩ := List.mem_map.1 hy
    rcases List.mem_append.1 hn with hn | hn
    · revert hn; decide
    · exact h z (by simp [hz]) hn

/-! ### Inner classes -/

theorem parts_inner (n s : Str) (h1 : '/' ∉ s) (h2 : '$' ∉ s) :
    parts (n ++ '$' :: s) = ((parts n).1, (parts n).2 ++ [s]) := by
  have hg := parts_good n
  have hg' : GoodParts ((parts n).1, (parts n).2 ++ [s]) := by
    refine ⟨hg.1, fun x hx => ?_, by simp⟩
    rcases List.mem_append.1 hx with hx | hx
    · exact hg.2.1 x hx
    · rw [List.mem_singleton] at hx; subst hx; exact ⟨h1, h2⟩
  rw [← parts_join hg']
  congr 1
  unfold joinName
  rw [joinCls_snoc _ hg.2.2, ← List.append_assoc]
  exact congrArg (· ++ '$' :: s) (joinName_parts n).symm

theorem inner_head {n s : Str} (h : n.head? ≠ some '[') : (n ++ '$' :: s).head? ≠ some '[' := by
  cases n with
  | nil => simp
  | cons c t => simpa using h

/-- The inner classes of a class. -/
theorem inner_classes (inv : RegInv r) {n : Str} {c : Nat} {cd : ClassNode} (h : r.byName.lookup n = some c)
    (hn : n.head? ≠ some '[') (hc : r.cls[c]? = some cd) (s : Str) (k : Nat) :
    (∃ kd, r.cls[k]? = some kd ∧ k ∈ cd.classes ∧ kd.name = s) ↔
      '/' ∉ s ∧ '$' ∉ s ∧ r.byName.lookup (n ++ '$' :: s) = some k := by
  obtain ⟨π, σ, hT⟩ := inv.tree
  have hat : r.clsAt (parts n).1 (parts n).2 = some c := by rw [← inv.map n hn]; exact h
  constructor
  · rintro ⟨kd, hkd, hk, rfl⟩
    obtain ⟨h1, h2, h3, _⟩ := (inv.sib.clsKids c cd hc).2 k hk kd hkd
    refine ⟨h2, h3, ?_⟩
    rw [inv.map _ (inner_head hn), parts_inner n _ h2 h3, clsAt_snoc _ _ _ (parts_good n).2.2, hat]
    exact h1
  · rintro ⟨h1, h2, h3⟩
    rw [inv.map _ (inner_head hn), parts_inner n _ h1 h2, clsAt_snoc _ _ _ (parts_good n).2.2, hat] at h3
    have h3 : r.clsClass c s = some k := h3
    unfold Registry.clsClass at h3
    rw [hc] at h3
    obtain ⟨hk, x, hx, hs⟩ := find_spec h3
    exact ⟨x, hx, hk, hs⟩

end Jnivm
