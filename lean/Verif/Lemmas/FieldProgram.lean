import Verif.Lemmas.Descriptor
/-! The accessors of a field last over histories. -/
namespace Jnivm
open Spec

/-- The operation installs a getter (or setter) of this field. -/
def HooksField (c : Nat) (isGetter st : Bool) (name type : Str) (op : MemOp) : Prop :=
  ∃ fn, op = .hookField c isGetter st name type fn

/-- What stays of a field. -/
def FieldKept (c : Nat) (st : Bool) (name type : Str) (P : MemOp → Prop) (w w' : World) : Prop :=
  ∀ f, w.fieldRec c st name type = some f → ∃ f', w'.fieldRec c st name type = some f' ∧ f'.id = f.id ∧
    ((∀ op, P op → ¬ HooksField c true st name type op) → f'.getter = f.getter) ∧
    ((∀ op, P op → ¬ HooksField c false st name type op) → f'.setter = f.setter)

theorem FieldKept.same {c : Nat} {st : Bool} {name type : Str} {P : MemOp → Prop} {w w' : World}
    (h : (w'.mem c).fields = (w.mem c).fields) : FieldKept c st name type P w w' := fun f hf =>
  ⟨f, by unfold World.fieldRec; rw [h]; exact hf, rfl, fun _ => rfl, fun _ => rfl⟩

theorem FieldKept.trans {c : Nat} {st : Bool} {name type : Str} {P Q R : MemOp → Prop} {w1 w2 w3 : World}
    (h1 : FieldKept c st name type P w1 w2) (h2 : FieldKept c st name type Q w2 w3) (hP : ∀ o, P o → R o)
    (hQ : ∀ o, Q o → R o) : FieldKept c st name type R w1 w3 := by
  intro f hf
  obtain ⟨f1, a1, a2, a3, a4⟩ := h1 f hf
  obtain ⟨f2, b1, b2, b3, b4⟩ := h2 f1 a1
  exact ⟨f2, b1, b2.trans a2, fun h => (b3 fun o ho => h o (hQ o ho)).trans (a3 fun o ho => h o (hP o ho)),
    fun h => (b4 fun o ho => h o (hQ o ho)).trans (a4 fun o ho => h o (hP o ho))⟩

theorem step_fieldKept {w w' : World} {op : MemOp} (hrun : op.run w = .ok w') (c : Nat) (st : Bool) (name type : Str) :
    FieldKept c st name type (· = op) w w' := by
  cases op with
  | findClass z n => cases hrun; exact .same rfl
  | getMethodID depth s rn nat cl n sg =>
    simp only [MemOp.run] at hrun
    obtain ⟨⟨w1, r⟩, h1, h2⟩ := Res.bind_eq_ok.1 hrun
    cases h2
    rcases getMethodID_ok h1 with ⟨_, _, e, _⟩ | ⟨_, _, _, reg, _, e⟩ | ⟨d, cd, _, _, h3⟩
    · subst e; exact .same rfl
    · subst e; exact .same rfl
    rcases methodOf_ok h3 with ⟨e, _⟩ | ⟨_, _, _, reg, _, e⟩
    · subst e; exact .same rfl
    · subst e
      refine .same ?_
      by_cases hc : c = d
      · subst hc; simp [World.addMethod]
      · simp [World.addMethod, hc]
  | getFieldID depth s rn cl n ty =>
    simp only [MemOp.run] at hrun
    obtain ⟨⟨w1, r⟩, h1, h2⟩ := Res.bind_eq_ok.1 hrun
    cases h2
    obtain ⟨d, cd, _, _, ⟨e, _⟩ | ⟨_, _, _, reg, _, e⟩⟩ := getFieldID_ok h1
    · subst e; exact .same rfl
    · subst e
      intro f hf
      refine ⟨f, ?_, rfl, fun _ => rfl, fun _ => rfl⟩
      unfold World.fieldRec at hf ⊢
      by_cases hc : c = d
      · subst hc; simp [World.addField, hf]
      · simp [World.addField, hc, hf]
  | hookMethod d s n sg fn =>
    cases hrun
    refine .same ?_
    cases hf : (w.mem d).methods.find? (hookHits s n sg) with
    | none =>
      rw [hookMethod_new hf]
      by_cases hc : c = d
      · subst hc; simp
      · simp [hc]
    | some x =>
      rw [hookMethod_found hf]
      by_cases hc : c = d
      · subst hc; simp
      · simp [hc]
  | hookField d g s n ty fn =>
    cases hrun
    by_cases hc : c = d
    · subst hc
      intro f hf
      rw [hookField_fieldRec]
      by_cases hk : s = st ∧ n = name ∧ ty = type
      · obtain ⟨rfl, rfl, rfl⟩ := hk
        rw [if_pos ⟨rfl, rfl, rfl⟩, hf]
        refine ⟨_, rfl, ?_, fun h => ?_, fun h => ?_⟩
        · cases g <;> rfl
        · cases g with
          | true => exact absurd ⟨fn, rfl⟩ (h _ rfl)
          | false => rfl
        · cases g with
          | true => rfl
          | false => exact absurd ⟨fn, rfl⟩ (h _ rfl)
      · rw [if_neg hk]
        exact ⟨f, hf, rfl, fun _ => rfl, fun _ => rfl⟩
    · refine .same ?_
      cases hf : (w.mem d).fields.find? (FieldKey.hits ⟨s, n, ty⟩) with
      | none => rw [hookField_new hf]; simp [hc]
      | some x => rw [hookField_found hf]; simp [hc]
  | registerNatives cl l =>
    cases hrun
    refine .same ?_
    cases cl with
    | none => rfl
    | some d =>
      simp only [World.registerNatives]
      induction l generalizing w with
      | nil => rfl
      | cons n l ih =>
        simp only [List.foldl_cons]
        rw [ih]
        unfold World.registerOne
        by_cases hc : c = d
        · subst hc; simp
        · simp [hc]
  | unregisterNatives cl =>
    cases hrun
    refine .same ?_
    cases cl with
    | none => rfl
    | some d =>
      unfold World.unregisterNatives
      by_cases hc : c = d
      · subst hc; simp
      · simp [hc]
  | bindType t n bs =>
    cases hrun
    refine .same ?_
    unfold World.bindType
    split
    · rename_i reg d h
      by_cases hc : c = d
      · subst hc; simp
      · simp [hc]
    · rfl

theorem run_fieldKept {ops : List MemOp} : ∀ {w w' : World}, runMem w ops = .ok w' →
    ∀ (c : Nat) (st : Bool) (name type : Str), FieldKept c st name type (· ∈ ops) w w' := by
  induction ops with
  | nil => intro w w' h c st name type; cases h; exact .same rfl
  | cons op ops ih =>
    intro w w' h c st name type
    unfold runMem at h
    obtain ⟨w1, h1, h2⟩ := Res.bind_eq_ok.1 h
    exact (step_fieldKept h1 c st name type).trans (ih h2 c st name type)
      (fun o ho => ho ▸ List.mem_cons_self ..) fun o ho => List.mem_cons_of_mem _ ho

end Jnivm
