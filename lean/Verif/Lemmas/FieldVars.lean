import Verif.Spec.FieldVars
import Verif.Lemmas.ObjArgs
import Verif.Lemmas.RefTypes
/-!
What an access to a variable changes, and what stays through a history of accesses.
-/
namespace Jnivm
open Spec

variable {w : CppTypes}

theorem assign_same {α : Type} (m : Nat → Nat → α) (x i : Nat) (a : α) : assign m x i a x i = a := by
  simp [assign]

theorem assign_other {α : Type} (m : Nat → Nat → α) {x i y j : Nat} (a : α) (h : ¬ (y = x ∧ j = i)) :
    assign m x i a y j = m y j := by
  simp only [assign, if_neg h]

namespace VarHeap

theorem owner_iff {h : Heap} (hp : h.Pre) {f : FieldVar} {obj : Option Nat} {x : Nat} :
    owner w h f obj = .ok x ↔ OwnerIs w h f obj x := by
  unfold owner OwnerIs
  cases f.owner with
  | static b =>
    simp only
    constructor
    · intro hx
      split at hx
      · rename_i vars cls ho
        cases hx
        exact ⟨rfl, _, vars, ho, rfl⟩
      · cases hx
    · rintro ⟨rfl, ⟨k, c⟩, vars, ho, hk⟩
      cases hk
      rw [ho]
  | inst c =>
    simp only
    constructor
    · intro hx
      obtain ⟨y, hy, hx⟩ := Res.bind_eq_ok.1 hx
      cases y with
      | none => cases hx
      | some y =>
        cases hx
        obtain ⟨hd, hi⟩ := Heap.unpack_denotes hp hy
        exact ⟨hd, hi x rfl⟩
    · rintro ⟨hd, hi⟩
      rw [Heap.unpack, (Heap.denote_iff hp).2 hd, Res.bind_ok]
      simp only [hi, if_true, Res.bind_ok]

theorem owner_plain {h : Heap} (hp : h.Pre) {f : FieldVar} {obj : Option Nat} {x : Nat}
    (ho : OwnerIs w h f obj x) : ∃ o, h.objs x = some o ∧ o.kind.isWrapper = false := by
  unfold OwnerIs at ho
  cases hf : f.owner with
  | static b =>
    rw [hf] at ho
    obtain ⟨rfl, o, vars, ho, hk⟩ := ho
    exact ⟨o, ho, by rw [hk]; rfl⟩
  | inst c =>
    rw [hf] at ho
    obtain ⟨o, ho, hw⟩ := Heap.denotes_ok hp ho.1
    exact ⟨o, ho, isWrapper_iff.2 hw⟩

theorem owner_self {h : Heap} (hp : h.Pre) {f : FieldVar} {obj : Option Nat} {x : Nat}
    (ho : OwnerIs w h f obj x) : Denotes h (some x) (some x) := by
  obtain ⟨o, ho, hw⟩ := owner_plain hp ho
  exact .direct ho (isWrapper_iff.1 hw)

theorem param_ok {h : Heap} (hp : h.Pre) {f : FieldVar} {obj : Option Nat} (ha : ClassArg h f obj) :
    param h f obj = .ok () := by
  unfold ClassArg at ha
  unfold param
  cases hf : f.owner with
  | inst c => rfl
  | static b =>
    rw [hf] at ha
    obtain ⟨x, hd, hc⟩ := ha
    simp only [Heap.cast, (Heap.denote_iff hp).2 hd, Res.bind_ok]
    cases x with
    | none => rfl
    | some i =>
      obtain ⟨o, n, ho, hk⟩ := hc i rfl
      simp only [ho, hk, if_true, Res.bind_ok]

theorem member_eq (ty : JType) (b : BitVec 64) :
    ty.member b = BitVec.ofNat 64 (b.toNat % 2 ^ primSize ty) := by
  apply BitVec.eq_of_toNat_eq
  have := b.isLt
  cases ty <;> simp [JType.member, primSize] <;> omega

/-- A reference that denotes an instance is converted to it. -/
theorem unpack_of {h : Heap} (hp : h.Pre) {c : CppClass} {r y : Option Nat} (hd : DenotesA w h c r y) :
    h.unpack w c r = .ok y := by
  rw [Heap.unpack, (Heap.denote_iff hp).2 hd.1, Res.bind_ok]
  cases y with
  | none => rfl
  | some i => simp only [hd.2 i rfl, if_true]

/-- What an assignment does. -/
theorem store_cases {s s' : VarHeap} (hp : s.heap.Pre) {t : Nat} {f : FieldVar} {obj : Option Nat} {v : VarVal}
    (hx : s.store w t f obj v = .ok s') : ∃ x, OwnerIs w s.heap f obj x ∧
      ((∃ ty k b, f.type = .prim ty ∧ v = .bits k b ∧
          s' = { s with bits := assign s.bits x f.index (ty.member b) }) ∨
       (∃ k b, f.type = .bool ∧ v = .bits k b ∧ s' = { s with
          bits := assign s.bits x f.index (if JType.boolean.member b = 0 then 0 else 1) }) ∨
       (∃ r, f.type = .jobject ∧ v = .ref r ∧ s' = { s with refs := assign s.refs x f.index r }) ∨
       (∃ c r y h' out, f.type = .shared c ∧ v = .ref r ∧ DenotesA w s.heap c r y ∧
          (HeapOp.setVar (some x) f.index y).run s.heap t = .ok (h', out) ∧ s' = { s with heap := h' }) ∨
       (∃ c r y o, f.type = .value c ∧ v = .ref r ∧ DenotesA w s.heap c r (some y) ∧
          s.heap.objs y = some o ∧ s' = { s with copies := assign s.copies x f.index o.cls })) := by
  unfold store at hx
  split at hx
  · rename_i ty ty' b hty
    obtain ⟨x, ho, hx⟩ := Res.bind_eq_ok.1 hx
    cases hx
    exact ⟨x, (owner_iff hp).1 ho, .inl ⟨ty, ty', b, hty, rfl, rfl⟩⟩
  · rename_i ty' b hty
    obtain ⟨x, ho, hx⟩ := Res.bind_eq_ok.1 hx
    cases hx
    exact ⟨x, (owner_iff hp).1 ho, .inr (.inl ⟨ty', b, hty, rfl, rfl⟩)⟩
  · rename_i r hty
    obtain ⟨x, ho, hx⟩ := Res.bind_eq_ok.1 hx
    cases hx
    exact ⟨x, (owner_iff hp).1 ho, .inr (.inr (.inl ⟨r, hty, rfl, rfl⟩))⟩
  · rename_i c r hty
    obtain ⟨y, hy, hx⟩ := Res.bind_eq_ok.1 hx
    obtain ⟨x, ho, hx⟩ := Res.bind_eq_ok.1 hx
    obtain ⟨⟨h', out⟩, hr, hx⟩ := Res.bind_eq_ok.1 hx
    cases hx
    exact ⟨x, (owner_iff hp).1 ho, .inr (.inr (.inr (.inl
      ⟨c, r, y, h', out, hty, rfl, Heap.unpack_denotes hp hy, hr, rfl⟩)))⟩
  · rename_i c r hty
    obtain ⟨y, hy, hx⟩ := Res.bind_eq_ok.1 hx
    cases y with
    | none => cases hx
    | some y =>
      obtain ⟨x, ho, hx⟩ := Res.bind_eq_ok.1 hx
      cases hobj : s.heap.objs y with
      | none => simp [hobj] at hx
      | some o =>
        simp only [hobj] at hx
        cases hx
        exact ⟨x, (owner_iff hp).1 ho, .inr (.inr (.inr (.inr
          ⟨c, r, y, o, hty, rfl, Heap.unpack_denotes hp hy, hobj, rfl⟩)))⟩
  · cases hx

/-- What setting a field does. -/
theorem set_cases {s s' : VarHeap} {t : Nat} {f : FieldVar} {obj : Option Nat} {v : VarVal}
    (hx : s.set w t f obj v = .ok s') :
    (obj = none ∧ s' = s) ∨ (obj ≠ none ∧ f.type.jni = v.jni ∧ s.store w t f obj v = .ok s') := by
  obtain ⟨e, _, hx⟩ := Res.bind_eq_ok.1 hx
  cases obj with
  | none => cases hx; exact .inl ⟨rfl, rfl⟩
  | some o =>
    obtain ⟨_, _, hx⟩ := Res.bind_eq_ok.1 hx
    by_cases hj : f.type.jni = v.jni
    · rw [if_neg (by simp [hj])] at hx
      exact .inr ⟨by simp, hj, hx⟩
    · rw [if_pos hj] at hx; cases hx

/-- What reading a field does. -/
theorem get_cases {s s' : VarHeap} (hp : s.heap.Pre) {t : Nat} {f : FieldVar} {ty : JType} {obj : Option Nat}
    {v : VarVal} (hx : s.get w t f ty obj = .ok (s', v)) : f.type.jni = ty ∧ ∃ x, OwnerIs w s.heap f obj x ∧
      (((∃ k, f.type = .prim k) ∨ f.type = .bool) ∧ s' = s ∧ v = .bits ty (s.bits x f.index) ∨
       f.type = .jobject ∧ s' = s ∧ v = .ref (s.refs x f.index) ∨
       (∃ c h' r, f.type = .shared c ∧ v = .ref r ∧ s' = { s with heap := h' } ∧
          (HeapOp.getVar (some x) f.index (w.name c)).run s.heap t = .ok (h', .ref r)) ∨
       (∃ c h' r, f.type = .value c ∧ v = .ref r ∧ s' = { s with heap := h' } ∧
          (HeapOp.newCopy (s.copies x f.index) (w.name c)).run s.heap t = .ok (h', .ref r))) := by
  obtain ⟨e, _, hx⟩ := Res.bind_eq_ok.1 hx
  obtain ⟨_, _, hx⟩ := Res.bind_eq_ok.1 hx
  by_cases hj : f.type.jni = ty
  · rw [if_neg (by simp [hj])] at hx
    refine ⟨hj, ?_⟩
    obtain ⟨x, ho, hx⟩ := Res.bind_eq_ok.1 hx
    refine ⟨x, (owner_iff hp).1 ho, ?_⟩
    cases hty : f.type with
    | prim k => rw [hty] at hx; cases hx; exact .inl ⟨.inl ⟨k, rfl⟩, rfl, rfl⟩
    | bool => rw [hty] at hx; cases hx; exact .inl ⟨.inr rfl, rfl, rfl⟩
    | jobject => rw [hty] at hx; cases hx; exact .inr (.inl ⟨rfl, rfl, rfl⟩)
    | shared c =>
      rw [hty] at hx
      obtain ⟨⟨h', out⟩, hr, hx⟩ := Res.bind_eq_ok.1 hx
      cases out <;> try (cases hx; done)
      cases hx
      exact .inr (.inr (.inl ⟨c, h', _, rfl, rfl, rfl, hr⟩))
    | value c =>
      rw [hty] at hx
      obtain ⟨⟨h', out⟩, hr, hx⟩ := Res.bind_eq_ok.1 hx
      cases out <;> try (cases hx; done)
      cases hx
      exact .inr (.inr (.inr ⟨c, h', _, rfl, rfl, rfl, hr⟩))
  · rw [if_pos hj] at hx; cases hx

/-- Setting a variable of a primitive type. -/
theorem set_bits {s s' : VarHeap} (hp : s.heap.Pre) {t : Nat} {f : FieldVar} {obj : Option Nat} {k : JType}
    {b : BitVec 64} {x : Nat} (hobj : obj ≠ none) (ho : OwnerIs w s.heap f obj x)
    (hx : s.set w t f obj (.bits k b) = .ok s') :
    f.type.jni = k ∧ s'.bits x f.index = stored f.type b := by
  rcases set_cases hx with ⟨h, _⟩ | ⟨_, hj, hx⟩
  · exact absurd h hobj
  · refine ⟨hj, ?_⟩
    obtain ⟨y, ho', hc⟩ := store_cases hp hx
    have hyx : y = x := by
      have h1 := (owner_iff hp).2 ho'
      rw [(owner_iff hp).2 ho] at h1
      cases h1; rfl
    subst hyx
    rcases hc with ⟨ty, k, b, hty, hv, rfl⟩ | ⟨k, b, hty, hv, rfl⟩ | ⟨r, _, hv, _⟩ |
        ⟨c, r, y, h', out, _, hv, _⟩ | ⟨c, r, y, o, _, hv, _⟩
    · cases hv
      rw [hty]
      simp only [assign_same, stored, member_eq]
    · cases hv
      rw [hty]
      simp only [assign_same, stored, member_eq, primSize]
      have : (BitVec.ofNat 64 (b.toNat % 2 ^ 8) = 0) ↔ b.toNat % 256 = 0 := by
        constructor
        · intro h
          have := congrArg BitVec.toNat h
          simp at this
          omega
        · intro h
          rw [show (2:Nat) ^ 8 = 256 from rfl, h]; rfl
      by_cases h0 : b.toNat % 256 = 0
      · rw [if_pos h0, if_pos (this.2 h0)]
      · rw [if_neg h0, if_neg (fun h => h0 (this.1 h))]
    · cases hv
    · cases hv
    · cases hv

end VarHeap

/-- The objects change by at most one call. -/
theorem varOp_heap {s s' : VarHeap} (hp : s.heap.Pre) {t : Nat} {op : VarOp} (hx : op.run w s t = .ok s') :
    s'.heap = s.heap ∨ ∃ hop out, hop.run s.heap t = .ok (s'.heap, out) ∧
      (op = .jni hop ∨ (∃ a i c, hop = .getVar a i c) ∨ (∃ k c, hop = .newCopy k c) ∨
       ∃ f obj r c x y, op = .set f obj (.ref r) ∧ f.type = .shared c ∧ OwnerIs w s.heap f obj x ∧
         DenotesA w s.heap c r y ∧ hop = .setVar (some x) f.index y) := by
  cases op with
  | jni hop =>
    obtain ⟨⟨h', out⟩, hr, hx⟩ := Res.bind_eq_ok.1 hx
    cases hx
    exact .inr ⟨hop, out, hr, .inl rfl⟩
  | get f ty obj =>
    obtain ⟨⟨s1, v⟩, hg, hx⟩ := Res.bind_eq_ok.1 hx
    cases hx
    obtain ⟨_, x, _, ⟨_, h1, _⟩ | ⟨_, h1, _⟩ | ⟨c, h', r, _, _, rfl, hr⟩ | ⟨c, h', r, _, _, rfl, hr⟩⟩ :=
      VarHeap.get_cases hp hg
    · exact .inl (by rw [h1])
    · exact .inl (by rw [h1])
    · exact .inr ⟨_, _, hr, .inr (.inl ⟨_, _, _, rfl⟩)⟩
    · exact .inr ⟨_, _, hr, .inr (.inr (.inl ⟨_, _, rfl⟩))⟩
  | set f obj v =>
    rcases VarHeap.set_cases hx with ⟨_, rfl⟩ | ⟨_, _, hx⟩
    · exact .inl rfl
    · obtain ⟨x, ho, ⟨ty, k, b, _, _, rfl⟩ | ⟨k, b, _, _, rfl⟩ | ⟨r, _, _, rfl⟩ |
        ⟨c, r, y, h', out, hty, rfl, hd, hr, rfl⟩ | ⟨c, r, y, o, _, _, _, _, rfl⟩⟩ := VarHeap.store_cases hp hx
      · exact .inl rfl
      · exact .inl rfl
      · exact .inl rfl
      · exact .inr ⟨_, _, hr, .inr (.inr (.inr ⟨f, obj, r, c, x, y, rfl, hty, ho, hd, rfl⟩))⟩
      · exact .inl rfl

theorem varOp_reachable {s s' : VarHeap} (hr : HeapReachable s.heap) {t : Nat} {op : VarOp}
    (hx : op.run w s t = .ok s') : HeapReachable s'.heap := by
  rcases varOp_heap hr.inv.toPre hx with h | ⟨hop, out, h, _⟩
  · rw [h]; exact hr
  · exact hr.step h

/-- Induction along a history. -/
theorem AlongVars.induct {P : VarHeap → VarOp → Prop} {Q : VarHeap → Prop}
    (step : ∀ s t op s', HeapReachable s.heap → Q s → P s op → op.run w s t = .ok s' → Q s') :
    ∀ {ops s s'}, HeapReachable s.heap → Q s → AlongVars P w s ops → runVars w s ops = .ok s' →
      HeapReachable s'.heap ∧ Q s' := by
  intro ops
  induction ops with
  | nil => intro s s' hr hq _ hx; cases hx; exact ⟨hr, hq⟩
  | cons x ops ih =>
    obtain ⟨t, op⟩ := x
    intro s s' hr hq ha hx
    cases h : op.run w s t with
    | ok s1 =>
      simp only [runVars, h] at hx
      exact ih (varOp_reachable hr h) (step s t op s1 hr hq ha.1 h) (ha.2.1 s1 h) hx
    | throws e =>
      simp only [runVars, h] at hx
      cases op with
      | jni _ => cases hx
      | _ => exact ih hr hq (ha.2.2 e h) hx
    | ub u => simp only [runVars, h] at hx; cases hx
    | diverges => simp only [runVars, h] at hx; cases hx

theorem AlongVars.trivial {ops : List (Nat × VarOp)} {s : VarHeap} :
    AlongVars (fun _ _ => True) w s ops := by
  induction ops generalizing s with
  | nil => exact True.intro
  | cons x ops ih => exact ⟨True.intro, fun _ _ => ih, fun _ _ => ih⟩

theorem _root_.Spec.VarsReachable.heap {s : VarHeap} (hr : VarsReachable w s) : HeapReachable s.heap := by
  obtain ⟨ops, hx⟩ := hr
  exact (AlongVars.induct (Q := fun _ => True) (fun _ _ _ _ _ _ _ _ => True.intro) HeapReachable.initial
    True.intro AlongVars.trivial hx).1

/-- Variables that are not pointers to objects keep their values while they are not set. -/
theorem varOp_kept {s s' : VarHeap} (hp : s.heap.Pre) {t x i : Nat} {op : VarOp} (hk : KeepsField w x i s op)
    (hx : op.run w s t = .ok s') :
    s'.bits x i = s.bits x i ∧ s'.refs x i = s.refs x i ∧ s'.copies x i = s.copies x i := by
  cases op with
  | jni hop =>
    obtain ⟨⟨h', out⟩, hr, hx⟩ := Res.bind_eq_ok.1 hx
    cases hx
    exact ⟨rfl, rfl, rfl⟩
  | get f ty obj =>
    obtain ⟨⟨s1, v⟩, hg, hx⟩ := Res.bind_eq_ok.1 hx
    cases hx
    obtain ⟨_, x, _, ⟨_, h1, _⟩ | ⟨_, h1, _⟩ | ⟨c, h', r, _, _, rfl, hr⟩ | ⟨c, h', r, _, _, rfl, hr⟩⟩ :=
      VarHeap.get_cases hp hg
    · rw [h1]; exact ⟨rfl, rfl, rfl⟩
    · rw [h1]; exact ⟨rfl, rfl, rfl⟩
    · exact ⟨rfl, rfl, rfl⟩
    · exact ⟨rfl, rfl, rfl⟩
  | set f obj v =>
    rcases VarHeap.set_cases hx with ⟨_, rfl⟩ | ⟨_, _, hx⟩
    · exact ⟨rfl, rfl, rfl⟩
    · obtain ⟨y, ho, hc⟩ := VarHeap.store_cases hp hx
      have hne : ¬ (x = y ∧ i = f.index) := by
        rintro ⟨rfl, rfl⟩
        exact hk rfl ho
      rcases hc with ⟨ty, k, b, _, _, rfl⟩ | ⟨k, b, _, _, rfl⟩ | ⟨r, _, _, rfl⟩ |
        ⟨c, r, y, h', out, hty, rfl, hd, hr, rfl⟩ | ⟨c, r, y, o, _, _, _, _, rfl⟩
      · exact ⟨assign_other _ _ hne, rfl, rfl⟩
      · exact ⟨assign_other _ _ hne, rfl, rfl⟩
      · exact ⟨rfl, assign_other _ _ hne, rfl⟩
      · exact ⟨rfl, rfl, rfl⟩
      · exact ⟨rfl, rfl, assign_other _ _ hne⟩

/-- The object behind a variable is reached by no other name. -/
theorem keepsField_var {s s' : VarHeap} (hp : s.heap.Pre) {t x i : Nat} {op : VarOp}
    (hk : KeepsField w x i s op) (hx : op.run w s t = .ok s') : s'.heap = s.heap ∨
      ∃ hop out, hop.run s.heap t = .ok (s'.heap, out) ∧ KeepsVar x i s.heap hop := by
  rcases varOp_heap hp hx with h | ⟨hop, out, hr, hc⟩
  · exact .inl h
  · refine .inr ⟨hop, out, hr, ?_⟩
    rcases hc with rfl | ⟨a, j, c, rfl⟩ | ⟨k, c, rfl⟩ | ⟨f, obj, r, c, y, v, rfl, _, ho, _, rfl⟩
    · intro a j v hop' hd hj
      subst hop'
      exact hk hj hd
    · exact fun _ _ _ h => nomatch h
    · exact fun _ _ _ h => nomatch h
    · intro a j v' hop' hd hj
      injection hop' with h1 h2 _
      subst h1 h2
      have := Heap.denotes_fun hd (VarHeap.owner_self hp ho)
      cases this
      exact hk hj ho

/-- One call keeps a variable of an object, unless it sets it. -/
theorem var_run {h h' : Heap} (hi : h.Inv) {t x n : Nat} {op : HeapOp} {out : Out}
    (hx : op.run h t = .ok (h', out)) (hk : KeepsVar x n h op) (hlt : x < h.next) {v : Option Nat}
    (hv : Live h x → VarIs h x n v) (hl : Live h' x) : VarIs h' x n v := by
  obtain ⟨o', ho'⟩ := hl
  rcases Heap.kinds_run hi.toPre hx ho' with ⟨o, ho, hko⟩ | ⟨hge, _⟩ |
      ⟨_, _, _, _, _, hge, _⟩ | ⟨_, _, _, o, _, _, _, _, ho, hko, _⟩ |
      ⟨_, _, _, hge, _⟩ | ⟨a, m, z, o, vars, y, rfl, ha, ho, hko, _, hm, hka⟩
  · obtain ⟨o2, vars, ho2, hk2, hv⟩ := hv ⟨o, ho⟩
    rw [ho] at ho2; cases ho2
    exact ⟨o', vars, ho', hko.trans hk2, hv⟩
  · omega
  · omega
  · obtain ⟨o2, vars, ho2, hk2, hv⟩ := hv ⟨o, ho⟩
    rw [ho] at ho2; cases ho2
    rw [hko] at hk2; cases hk2
  · omega
  · obtain ⟨o2, vars', ho2, hk2, hv⟩ := hv ⟨o, ho⟩
    rw [ho] at ho2; cases ho2
    rw [hko] at hk2; cases hk2
    refine ⟨o', _, ho', hka, ?_⟩
    rw [List.getElem?_set_ne (hk a m z rfl ha)]
    exact hv

/-- What is behind a reference denotes itself. -/
theorem denotes_self {h : Heap} (hp : h.Pre) {r y z : Option Nat} (hd : Denotes h r y) (hz : Denotes h y z) :
    z = y := by
  cases y with
  | none => cases hz; rfl
  | some i =>
    obtain ⟨o, ho, hw⟩ := Heap.denotes_ok hp hd
    exact Heap.denotes_fun hz (.direct ho hw)

/-- Setting a variable that points to an object. -/
theorem VarHeap.set_object {s s' : VarHeap} (hp : s.heap.Pre) {t : Nat} {f : FieldVar} {obj r y : Option Nat}
    {c : CppClass} {x : Nat} (hobj : obj ≠ none) (ho : OwnerIs w s.heap f obj x) (hty : f.type = .shared c)
    (hd : Denotes s.heap r y) (hx : s.set w t f obj (.ref r) = .ok s') (hl : Live s'.heap x) :
    VarIs s'.heap x f.index y := by
  rcases set_cases hx with ⟨h, _⟩ | ⟨_, _, hx⟩
  · exact absurd h hobj
  · obtain ⟨x', ho', hc⟩ := store_cases hp hx
    have hxx : x' = x := by
      have h1 := (owner_iff hp).2 ho'
      rw [(owner_iff hp).2 ho] at h1
      cases h1; rfl
    subst hxx
    rcases hc with ⟨ty, k, b, h1, _⟩ | ⟨k, b, h1, _⟩ | ⟨r, h1, _⟩ |
        ⟨c', r', y', h', out, h1, hv, hd', hr, rfl⟩ | ⟨c, r, y, o, h1, _⟩ <;>
      try (rw [hty] at h1; cases h1; done)
    cases hv
    cases Heap.denotes_fun hd hd'.1
    obtain ⟨h1, hx1, rfl⟩ := Heap.run_ok hr
    obtain ⟨o', ho1⟩ := hl
    replace ho1' := Heap.collect_sub ho1
    have hb := (Heap.exec_ok hx1).1
    obtain ⟨hb, _⟩ := Heap.outUnit_ok hb
    rcases Heap.setVar_ok hb with ⟨h, _⟩ | ⟨z, oz, vars, v, hz, hoz, hk, hv, hlt, rfl⟩
    · cases h
    · cases Heap.denotes_fun ((Heap.denote_iff hp).1 hz) (owner_self hp ho)
      cases denotes_self hp hd ((Heap.denote_iff hp).1 hv)
      simp only [Heap.setObj, if_true] at ho1'
      cases ho1'
      exact ⟨_, _, ho1, rfl, by simp [hlt]⟩

/-- Reading a variable that points to an object. -/
theorem VarHeap.get_object {s : VarHeap} (hp : s.heap.Pre) {t : Nat} {e : Env} {f : FieldVar} {obj y : Option Nat}
    {c : CppClass} {x : Nat} (he : s.heap.envs t = some e) (ha : ClassArg s.heap f obj)
    (ho : OwnerIs w s.heap f obj x) (hty : f.type = .shared c) (hv : VarIs s.heap x f.index y) :
    ∃ h', (HeapOp.getVar (some x) f.index (w.name c)).run s.heap t = .ok (h', .ref y) ∧
      s.get w t f .object obj = .ok ({ s with heap := h' }, .ref y) := by
  obtain ⟨o, vars, hox, hk, hy⟩ := hv
  have hlt : f.index < vars.length := by
    rcases Nat.lt_or_ge f.index vars.length with h1 | h1
    · exact h1
    · rw [List.getElem?_eq_none h1] at hy; cases hy
  have hrec : s.heap.recordOf (some x) f.index = .ok (x, o, vars) := by
    rw [Heap.recordOf, (Heap.denote_iff hp).2 (owner_self hp ho), Res.bind_ok]
    simp only [hox, hk, if_pos hlt]
  obtain ⟨h', hx⟩ := Heap.toJNI?_exists hp (s := (w.name c).bind s.heap.typeClass) (i := y) he
    (fun j hj => hp.edges x j ⟨o, hox, by
      rw [hk]; simp only [Kind.edges, List.mem_filterMap, id]
      exact ⟨some j, hj ▸ List.mem_of_getElem? hy, rfl⟩⟩)
    (fun c hc => by
      obtain ⟨n, _, hc⟩ := Option.bind_eq_some_iff.1 hc
      exact hp.typeClass hc)
  have hrun : (HeapOp.getVar (some x) f.index (w.name c)).run s.heap t = .ok (h'.collect, .ref y) := by
    rw [HeapOp.run, Heap.exec_of_body he, HeapOp.body, Heap.getVar, hrec, Res.bind_ok]
    simp only [List.getD_eq_getElem?_getD, hy, Option.getD_some, hx]
    rfl
  refine ⟨h'.collect, hrun, ?_⟩
  have henv : s.heap.env t = .ok e := by simp [Heap.env, he]
  simp only [VarHeap.get, henv, Res.bind_ok, param_ok hp ha, (owner_iff hp).2 ho, hty, VarTy.jni, hrun]
  rfl

/-- Variables of class type have registered classes. -/
def VarHeap.CopiesOk (s : VarHeap) : Prop :=
  ∀ x i c, s.copies x i = some c → ∃ n, (n, c) ∈ s.heap.classes

theorem copiesOk_run {s s' : VarHeap} (hr : HeapReachable s.heap) {t : Nat} {op : VarOp}
    (hx : op.run w s t = .ok s') (hq : s.CopiesOk) : s'.CopiesOk := by
  have hp := hr.inv.toPre
  have hmono : ∀ y ∈ s.heap.classes, y ∈ s'.heap.classes := by
    rcases varOp_heap hp hx with h | ⟨hop, out, h, _⟩
    · rw [h]; exact fun _ h => h
    · obtain ⟨_, _, _, h2⟩ := Heap.pins_run hp h
      exact h2
  have hkeep : s'.copies = s.copies → s'.CopiesOk := by
    intro he x i c hc
    rw [he] at hc
    obtain ⟨n, hn⟩ := hq x i c hc
    exact ⟨n, hmono _ hn⟩
  cases op with
  | jni hop =>
    obtain ⟨⟨h', out⟩, hr, hx⟩ := Res.bind_eq_ok.1 hx
    cases hx
    exact hkeep rfl
  | get f ty obj =>
    obtain ⟨⟨s1, v⟩, hg, hx⟩ := Res.bind_eq_ok.1 hx
    cases hx
    obtain ⟨_, x, _, ⟨_, h1, _⟩ | ⟨_, h1, _⟩ | ⟨c, h', r, _, _, rfl, hr⟩ | ⟨c, h', r, _, _, rfl, hr⟩⟩ :=
      VarHeap.get_cases hp hg
    · exact hkeep (by rw [h1])
    · exact hkeep (by rw [h1])
    · exact hkeep rfl
    · exact hkeep rfl
  | set f obj v =>
    rcases VarHeap.set_cases hx with ⟨_, rfl⟩ | ⟨_, _, hx⟩
    · exact hq
    · obtain ⟨y, ho, hc⟩ := VarHeap.store_cases hp hx
      rcases hc with ⟨ty, k, b, _, _, rfl⟩ | ⟨k, b, _, _, rfl⟩ | ⟨r, _, _, rfl⟩ |
        ⟨c, r, y, h', out, hty, rfl, hd, hr, rfl⟩ | ⟨c, r, z, o, _, _, _, hoz, rfl⟩
      · exact hkeep rfl
      · exact hkeep rfl
      · exact hkeep rfl
      · exact hkeep rfl
      · intro a i k hk
        simp only at hk
        by_cases hai : a = y ∧ i = f.index
        · rw [hai.1, hai.2, assign_same] at hk
          exact hp.cls z o k hoz hk
        · rw [assign_other _ _ hai] at hk
          exact hq a i k hk

theorem _root_.Spec.VarsReachable.copiesOk {s : VarHeap} (hr : VarsReachable w s) : s.CopiesOk := by
  obtain ⟨ops, hx⟩ := hr
  exact (AlongVars.induct (Q := VarHeap.CopiesOk) (fun _ _ _ _ hr hq _ hx => copiesOk_run hr hx hq)
    HeapReachable.initial (fun _ _ _ h => by cases h) AlongVars.trivial hx).2

theorem runVars_append {s s1 s2 : VarHeap} {ops ops' : List (Nat × VarOp)} (hx : runVars w s ops = .ok s1)
    (hx2 : runVars w s1 ops' = .ok s2) : runVars w s (ops ++ ops') = .ok s2 := by
  induction ops generalizing s with
  | nil => cases hx; exact hx2
  | cons x ops ih =>
    obtain ⟨t, op⟩ := x
    cases h : op.run w s t with
    | ok s1 =>
      simp only [runVars, h, List.cons_append] at hx ⊢
      exact ih hx
    | throws e =>
      cases op with
      | jni _ => simp only [runVars, h] at hx; cases hx
      | _ => simp only [runVars, h, List.cons_append] at hx ⊢; exact ih hx
    | ub u => simp only [runVars, h] at hx; cases hx
    | diverges => simp only [runVars, h] at hx; cases hx

theorem _root_.Spec.VarsReachable.steps {s s' : VarHeap} (hr : VarsReachable w s) {ops : List (Nat × VarOp)}
    (hx : runVars w s ops = .ok s') : VarsReachable w s' := by
  obtain ⟨pre, hp⟩ := hr
  exact ⟨pre ++ ops, runVars_append hp hx⟩

theorem _root_.Spec.VarsReachable.step {s s' : VarHeap} (hr : VarsReachable w s) {t : Nat} {op : VarOp}
    (hx : op.run w s t = .ok s') : VarsReachable w s' :=
  hr.steps (ops := [(t, op)]) (by simp only [runVars, hx])

/-- Reading a variable of class type. -/
theorem VarHeap.get_copy {s : VarHeap} (hr : VarsReachable w s) {t : Nat} {e : Env} {f : FieldVar}
    {obj : Option Nat} {c : CppClass} {x : Nat} (he : s.heap.envs t = some e) (ha : ClassArg s.heap f obj)
    (ho : OwnerIs w s.heap f obj x) (hty : f.type = .value c) :
    ∃ h', (HeapOp.newCopy (s.copies x f.index) (w.name c)).run s.heap t = .ok (h', .ref (some s.heap.next)) ∧
      s.get w t f .object obj = .ok ({ s with heap := h' }, .ref (some s.heap.next)) ∧
      ∃ o, h'.objs s.heap.next = some o ∧ (∀ k, s.copies x f.index = some k → o.cls = some k) ∧
        (s.copies x f.index = none → o.cls = (w.name c).bind s.heap.typeClass) := by
  have hp := hr.heap.inv.toPre
  have hcl := hr.copiesOk x f.index
  have hb : (s.copies x f.index).all (fun c => s.heap.classes.any fun x => x.2 == c) = true := by
    cases hc : s.copies x f.index with
    | none => rfl
    | some k =>
      obtain ⟨n, hn⟩ := hcl k hc
      simp only [Option.all_some, List.any_eq_true, beq_iff_eq]
      exact ⟨(n, k), hn, rfl⟩
  have s1 : Heap.Step t s.heap (s.heap.alloc ⟨.plain, s.copies x f.index⟩).1 :=
    hp.alloc t (by simp [Kind.edges]) (by simp) hcl
  obtain ⟨h1, hx⟩ := Heap.toJNI_exists s1.pre (t := t) (i := s.heap.next)
    (s := (w.name c).bind (s.heap.alloc ⟨.plain, s.copies x f.index⟩).1.typeClass) (e := e) he
    (Heap.alloc_live _ _) (fun c hc => by
      obtain ⟨n, _, hc⟩ := Option.bind_eq_some_iff.1 hc
      exact s1.pre.typeClass hc)
  have hexec : (HeapOp.newCopy (s.copies x f.index) (w.name c)).exec s.heap t =
      .ok (h1, .ref (some s.heap.next)) := by
    rw [Heap.exec_of_body he, HeapOp.body, Heap.newCopy, if_pos hb]
    show outRef (((s.heap.alloc ⟨.plain, s.copies x f.index⟩).1.toJNI t
      ((w.name c).bind (s.heap.alloc ⟨.plain, s.copies x f.index⟩).1.typeClass) s.heap.next).bind _) = _
    rw [hx]; rfl
  have hrun : (HeapOp.newCopy (s.copies x f.index) (w.name c)).run s.heap t =
      .ok (h1.collect, .ref (some s.heap.next)) := by
    rw [HeapOp.run, hexec]; rfl
  refine ⟨h1.collect, hrun, ?_, ?_⟩
  · have henv : s.heap.env t = .ok e := by simp [Heap.env, he]
    simp only [VarHeap.get, henv, Res.bind_ok, param_ok hp ha, (owner_iff hp).2 ho, hty, VarTy.jni, hrun]
    rfl
  · have st := Heap.step_exec hp hexec
    obtain ⟨e', he', hf⟩ := Heap.local_pushed hp (op := .newCopy _ _) (by trivial) hexec (by simp)
    obtain ⟨o, ho, _, _, h2⟩ := Heap.toJNI_ok hx
    have ho' : o = ⟨.plain, s.copies x f.index⟩ := by
      simp [Heap.alloc] at ho; exact ho.symm
    subst ho'
    refine ⟨_, Heap.collect_keep st.pre.bound (.root (Heap.mem_roots.2 (.inr (.inr
      ⟨t, e', st.pre.thread t e' he', he', .inl hf⟩)))) h2, fun k hk => ?_, fun hn => ?_⟩
    · simp [hk]
    · simp [hn]; rfl

/-- One call keeps the types of variables. -/
theorem typedVars_run {lay : VarLayout} {s s' : VarHeap} (hr : HeapReachable s.heap) {t : Nat} {op : VarOp}
    (hx : op.run w s t = .ok s') (hreg : Regular lay w op) (hq : TypedVars lay w s) : TypedVars lay w s' := by
  have hp := hr.inv.toPre
  rcases varOp_heap hp hx with h | ⟨hop, out, h, hc⟩
  · intro x i c y hl hv
    rw [h] at hv
    exact hq x i c y hl hv
  · intro x i c y hl ⟨o', vars', ho', hk', hy⟩
    rcases Heap.kinds_run hp h ho' with ⟨o, ho, hko⟩ | ⟨_, hs, _⟩ |
      ⟨_, _, _, _, _, _, hk⟩ | ⟨_, _, _, _, _, _, _, _, _, _, _, _, _, hk⟩ |
      ⟨n, _, _, _, hk⟩ | ⟨a, m, z, o, vars, y', hop', ha, ho, hko, hz, hm, hka⟩
    · exact hq x i c y hl ⟨o, vars', ho, hko.symm.trans hk', hy⟩
    · exact absurd hk' (hs.2 _)
    · rw [hk] at hk'; cases hk'
    · rw [hk] at hk'; cases hk'
    · rw [hk] at hk'; cases hk'
      rw [List.getElem?_replicate] at hy
      split at hy <;> cases hy
    · rw [hka] at hk'; cases hk'
      rcases hc with rfl | ⟨a, j, c, rfl⟩ | ⟨k, c, rfl⟩ | ⟨f, obj, r, c', x', v, rfl, hty, ho', hd, hop2⟩
      · subst hop'; exact hreg.elim
      · cases hop'
      · cases hop'
      · rw [hop2] at hop'
        injection hop' with e1 e2 e3
        subst e1 e2 e3
        cases Heap.denotes_fun ha (VarHeap.owner_self hp ho')
        by_cases hi : f.index = i
        · subst hi
          rw [List.getElem?_set_self hm] at hy
          cases hy
          have hz' := denotes_self hp hd.1 hz
          have hlay : lay x f.index = some f.type := by
            unfold OwnerIs at ho'
            have hh : Hooked lay w f := hreg
            unfold Hooked at hh
            cases hf : f.owner with
            | inst k => rw [hf] at hh ho'; exact hh x ho'.2
            | static b => rw [hf] at hh ho'; rw [ho'.1]; exact hh
          rw [hlay, hty] at hl
          cases hl
          exact hd.2 y hz'.symm
        · rw [List.getElem?_set_ne hi] at hy
          exact hq x i c y hl ⟨o, vars, ho, hko, hy⟩

/-! ### Checking examples -/

/-- `KeepsField`, computed. -/
def keepsFieldB (w : CppTypes) (x i : Nat) (s : VarHeap) : VarOp → Bool
  | .set f obj _ => f.index != i || VarHeap.owner w s.heap f obj != .ok x
  | .jni (.setVar a j _) => j != i || s.heap.denote a != .ok (some x)
  | _ => true

/-- `AlongVars`, computed. -/
def alongVarsB (p : VarHeap → VarOp → Bool) (w : CppTypes) : VarHeap → List (Nat × VarOp) → Bool
  | _, [] => true
  | s, (t, op) :: ops => p s op && match op.run w s t with
    | .ok s => alongVarsB p w s ops
    | .throws _ => alongVarsB p w s ops
    | _ => true

theorem keepsFieldB_sound {x i : Nat} {s : VarHeap} (hp : s.heap.Pre) {op : VarOp}
    (h : keepsFieldB w x i s op = true) : KeepsField w x i s op := by
  unfold KeepsField
  split
  · intro hi ho
    simp only [keepsFieldB, (VarHeap.owner_iff hp).2 ho, hi] at h
    simp at h
  · intro hi hd
    simp only [keepsFieldB, (Heap.denote_iff hp).2 hd, hi] at h
    simp at h
  · trivial

theorem alongVarsB_sound {x i : Nat} {ops : List (Nat × VarOp)} : ∀ {s : VarHeap}, HeapReachable s.heap →
    alongVarsB (keepsFieldB w x i) w s ops = true → AlongVars (KeepsField w x i) w s ops := by
  induction ops with
  | nil => exact fun _ _ => True.intro
  | cons y ops ih =>
    obtain ⟨t, op⟩ := y
    intro s hr h
    simp only [alongVarsB, Bool.and_eq_true] at h
    refine ⟨keepsFieldB_sound hr.inv.toPre h.1, fun s' hx => ?_, fun e hx => ?_⟩
    · rw [hx] at h; exact ih (varOp_reachable hr hx) h.2
    · rw [hx] at h; exact ih hr h.2

theorem varsReachable_of {ops : List (Nat × VarOp)} {p : VarHeap → Bool}
    (hx : (runVars w VarHeap.initial ops).holds p = true) :
    ∃ s, runVars w VarHeap.initial ops = .ok s ∧ VarsReachable w s ∧ p s = true := by
  obtain ⟨s, h1, h2⟩ := Res.holds_iff.1 hx
  exact ⟨s, h1, ⟨ops, h1⟩, h2⟩

end Jnivm
