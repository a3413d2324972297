import Verif.Lemmas.Hooks
import Verif.Lemmas.Descriptor
/-! Registered natives last over histories. -/
namespace Jnivm
open Spec

/-- The native method of this name and signature that lookups in the class itself find. -/
def World.nativeRec (w : World) (c : Nat) (name sig : Str) : Option MethodRec :=
  (w.mem c).methods.find? (MethodKey.hits ⟨false, true, name, sig⟩)

/-- What stays of a native method. -/
def NativeKept (c : Nat) (name sig : Str) (w w' : World) : Prop :=
  ∀ m, w.nativeRec c name sig = some m → ∃ m', w'.nativeRec c name sig = some m' ∧ m'.id = m.id ∧ m'.native = m.native

theorem NativeKept.same {c : Nat} {name sig : Str} {w w' : World} (h : (w'.mem c).methods = (w.mem c).methods) :
    NativeKept c name sig w w' := fun m hm => ⟨m, by unfold World.nativeRec; rw [h]; exact hm, rfl, rfl⟩

theorem NativeKept.more {c : Nat} {name sig : Str} {w w' : World} {l : List MethodRec}
    (h : (w'.mem c).methods = (w.mem c).methods ++ l) : NativeKept c name sig w w' := fun m hm => by
  refine ⟨m, ?_, rfl, rfl⟩
  unfold World.nativeRec at hm ⊢
  rw [h, List.find?_append, hm]
  rfl

theorem NativeKept.trans {c : Nat} {name sig : Str} {a b d : World} (h : NativeKept c name sig a b)
    (h' : NativeKept c name sig b d) : NativeKept c name sig a d := fun m hm => by
  obtain ⟨m1, k1, k2, k3⟩ := h m hm
  obtain ⟨m2, l1, l2, l3⟩ := h' m1 k1
  exact ⟨m2, l1, l2.trans k2, l3.trans k3⟩

theorem updateFirst_handle {k : MethodKey} {p : MethodRec → Bool} {fn : Nat} {m : MethodRec} :
    ∀ {l : List MethodRec}, l.find? k.hits = some m →
      ∃ m', (updateFirst p (fun m => { m with handle := some fn }) l).find? k.hits = some m' ∧ m'.id = m.id ∧
        m'.native = m.native := by
  intro l
  induction l with
  | nil => intro h; cases h
  | cons a l ih =>
    intro h
    have e : k.hits { a with handle := some fn } = k.hits a := rfl
    cases hk : k.hits a with
    | true =>
      rw [List.find?_cons_of_pos hk] at h
      cases h
      cases hp : p m with
      | true =>
        refine ⟨{ m with handle := some fn }, ?_, rfl, rfl⟩
        simp only [updateFirst, hp, if_true]
        rw [List.find?_cons_of_pos (e.trans hk)]
      | false =>
        exact ⟨m, by simp only [updateFirst, hp, Bool.false_eq_true, if_false]; rw [List.find?_cons_of_pos hk], rfl, rfl⟩
    | false =>
      rw [List.find?_cons_of_neg (by simp [hk])] at h
      cases hp : p a with
      | true =>
        refine ⟨m, ?_, rfl, rfl⟩
        simp only [updateFirst, hp, if_true]
        rw [List.find?_cons_of_neg (by rw [e, hk]; decide)]
        exact h
      | false =>
        obtain ⟨m', k1, k2⟩ := ih h
        refine ⟨m', ?_, k2⟩
        simp only [updateFirst, hp, Bool.false_eq_true, if_false]
        rw [List.find?_cons_of_neg (by simp [hk])]
        exact k1

theorem step_nativeKept {w w' : World} {op : MemOp} (hrun : op.run w = .ok w') (c : Nat) (name sig : Str)
    (hno : op ≠ .unregisterNatives (some c)) : NativeKept c name sig w w' := by
  cases op with
  | findClass z n => cases hrun; exact .same rfl
  | getMethodID depth s rn nat cl n sg =>
    simp only [MemOp.run] at hrun
    obtain ⟨⟨w1, r⟩, h1, h2⟩ := Res.bind_eq_ok.1 hrun
    cases h2
    rcases getMethodID_ok h1 with ⟨_, _, e, _⟩ | ⟨_, _, _, reg, _, e⟩ | ⟨d, cd, _, _, h3⟩
    · subst e; exact .same rfl
    · subst e; exact .same rfl
    rcases methodOf_ok h3 with ⟨e, _⟩ | ⟨_, _, _, reg, _, e⟩
    · subst e; exact .same rfl
    · subst e
      by_cases hc : c = d
      · subst hc; exact .more (by simp only [World.addMethod, setMem_mem, if_true]; rfl)
      · exact .same (by simp [World.addMethod, hc])
  | getFieldID depth s rn cl n ty =>
    simp only [MemOp.run] at hrun
    obtain ⟨⟨w1, r⟩, h1, h2⟩ := Res.bind_eq_ok.1 hrun
    cases h2
    obtain ⟨d, cd, _, _, ⟨e, _⟩ | ⟨_, _, _, reg, _, e⟩⟩ := getFieldID_ok h1
    · subst e; exact .same rfl
    · subst e
      refine .same ?_
      by_cases hc : c = d
      · subst hc; simp [World.addField]
      · simp [World.addField, hc]
  | hookMethod d s n sg fn =>
    cases hrun
    cases hf : (w.mem d).methods.find? (hookHits s n sg) with
    | none =>
      rw [hookMethod_new hf]
      by_cases hc : c = d
      · subst hc; exact .more (by simp only [setMem_mem, if_true]; rfl)
      · exact .same (by simp [hc])
    | some x =>
      rw [hookMethod_found hf]
      by_cases hc : c = d
      · subst hc
        intro m hm
        obtain ⟨m', k1, k2⟩ := updateFirst_handle (p := hookHits s n sg) (fn := fn) hm
        refine ⟨m', ?_, k2⟩
        unfold World.nativeRec
        simp only [setMem_mem, if_true]
        exact k1
      · exact .same (by simp [hc])
  | hookField d g s n ty fn =>
    cases hrun
    refine .same ?_
    cases hf : (w.mem d).fields.find? (FieldKey.hits ⟨s, n, ty⟩) with
    | none =>
      rw [hookField_new hf]
      by_cases hc : c = d
      · subst hc; simp
      · simp [hc]
    | some x =>
      rw [hookField_found hf]
      by_cases hc : c = d
      · subst hc; simp
      · simp [hc]
  | registerNatives cl l =>
    cases hrun
    cases cl with
    | none => exact .same rfl
    | some d =>
      simp only [World.registerNatives]
      clear hno
      induction l generalizing w with
      | nil => exact .same rfl
      | cons n l ih =>
        simp only [List.foldl_cons]
        refine NativeKept.trans ?_ ih
        unfold World.registerOne
        by_cases hc : c = d
        · subst hc; exact .more (by simp only [setMem_mem, if_true]; rfl)
        · exact .same (by simp [hc])
  | unregisterNatives cl =>
    cases hrun
    refine .same ?_
    cases cl with
    | none => rfl
    | some d =>
      unfold World.unregisterNatives
      by_cases hc : c = d
      · subst hc; exact absurd rfl hno
      · simp [hc]
  | bindType t n bs =>
    cases hrun
    refine .same ?_
    unfold World.bindType
    split
    · rename_i reg d h
      by_cases hc : c = d
      · subst hc; simp
      · simp [hc]
    · rfl

theorem run_nativeKept {ops : List MemOp} : ∀ {w w' : World}, runMem w ops = .ok w' → ∀ (c : Nat) (name sig : Str),
    .unregisterNatives (some c) ∉ ops → NativeKept c name sig w w' := by
  induction ops with
  | nil => intro w w' h c name sig _; cases h; exact .same rfl
  | cons op ops ih =>
    intro w w' h c name sig hno
    unfold runMem at h
    obtain ⟨w1, h1, h2⟩ := Res.bind_eq_ok.1 h
    exact (step_nativeKept h1 c name sig fun e => hno (e ▸ List.mem_cons_self ..)).trans
      (ih h2 c name sig fun hm => hno (List.mem_cons_of_mem _ hm))

end Jnivm
