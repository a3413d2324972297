import Verif.Model.MainMethod
import Verif.Lemmas.Start
import Verif.Lemmas.Defaults
import Verif.Props.Baron
import Verif.Props.CppArrays
/-!
C66: where `createMainMethod` works.
-/
namespace Jnivm
open Spec

/-- Wherever `findClass` gives a class `createMainMethod` gives that class the static function `main`, and all
other members of all classes are as before. -/
theorem main_method_partial {w : World} (hr : MemReachable w) {f : Finder} (ha : Allows f w "fakejni/impl/createMainMethod".toList)
    (fn : Nat) :
    ∃ w' c, w.createMainMethod f true fn = .ok w' ∧ MemReachable w' ∧
      w'.IsClass "fakejni/impl/createMainMethod".toList c ∧ (∀ n d, w.IsClass n d → w'.IsClass n d) ∧
      (∃ m ∈ (w'.mem c).methods, m.name = "main".toList ∧ m.signature = "([Ljava/lang/String;)V".toList ∧
        m.static = true ∧ m.handle = some fn) ∧
      (∀ m ∈ (w.mem c).methods, m ∈ (w'.mem c).methods ∨ (m.name = "main".toList ∧
        m.signature = "([Ljava/lang/String;)V".toList ∧ m.static = true)) ∧
      (w'.mem c).fields = (w.mem c).fields ∧ (∀ d, d ≠ c → w'.mem d = w.mem d) := by
  obtain ⟨r, c, e, hr1, hc, hk⟩ := find_allowed hr ha
  have hrun : (MemOp.hookMethod c true mainName mainSig fn).run { w with reg := r } =
      .ok (World.createMain { w with reg := r } c fn) := rfl
  refine ⟨World.createMain { w with reg := r } c fn, c, ?_, hr1.step hrun, isClass_step hr1.inv hrun hc,
    fun n d h => isClass_step hr1.inv hrun (hk n d h), ?_, ?_, ?_, ?_⟩
  · unfold World.createMainMethod
    rw [if_pos rfl, show f.find w.reg mainClass = (r, some c) from e]
  · have h := hookMethod_callRec { w with reg := r } c true mainName mainSig fn true mainName mainSig
    rw [if_pos ⟨rfl, rfl, rfl⟩] at h
    have hm := List.mem_of_find?_eq_some h
    obtain ⟨h1, h2, h3⟩ := hookHits_iff.1 (List.find?_some h)
    exact ⟨_, hm, h2, h3, h1, rfl⟩
  · intro m hm
    cases hf : (World.mem { w with reg := r } c).methods.find? (hookHits true mainName mainSig) with
    | none =>
      unfold World.createMain
      rw [hookMethod_new hf]
      exact .inl (by simp only [setMem_mem, if_pos]; exact List.mem_append_left _ hm)
    | some x =>
      unfold World.createMain
      rw [hookMethod_found hf]
      rcases mem_updateFirst_of (f := fun m => { m with handle := some fn }) hf hm with rfl | hm
      · obtain ⟨h1, h2, h3⟩ := hookHits_iff.1 (List.find?_some hf)
        exact .inr ⟨h2, h3, h1⟩
      · exact .inl (by simp only [setMem_mem, if_pos]; exact hm)
  · exact (hookMethod_rest { w with reg := r } c true mainName mainSig fn c).1
  · intro d hd
    unfold World.createMain
    cases hf : (World.mem { w with reg := r } c).methods.find? (hookHits true mainName mainSig) with
    | none => rw [hookMethod_new hf]; simp [hd, World.setMem]
    | some x => rw [hookMethod_found hf]; simp [hd, World.setMem]

/-- Otherwise it uses a null pointer: in a thread that is not attached, and if there is no such class. -/
theorem main_method_undefined {w : World} (hr : MemReachable w) {f : Finder} {attached : Bool}
    (h : attached = true → ¬ Allows f w "fakejni/impl/createMainMethod".toList) (fn : Nat) :
    w.createMainMethod f attached fn = .ub .nullDeref := by
  unfold World.createMainMethod
  by_cases ha : attached = true
  · rw [if_pos ha, show f.find w.reg mainClass = (w.reg, none) from find_refused hr (h ha)]
  · rw [if_neg ha]

theorem no_main_class : ¬ ∃ c, World.initial.IsClass "fakejni/impl/createMainMethod".toList c := by
  rw [initial_classes]
  rintro ⟨n, hn, h⟩
  have hall : ∀ n ∈ builtinClasses.map String.toList, n.take 4 ≠ "fake".toList := by decide +kernel
  refine hall n hn ?_
  rcases h with rfl | ⟨_, inner, rfl, _⟩ <;> rfl

/-- A new Baron VM. -/
example : ∃ w', World.initial.createMainMethod (.baron .empty) true 7 = .ok w' := by
  obtain ⟨w', _, h, _⟩ := main_method_partial (w := .initial) ⟨[], rfl⟩ (f := .baron .empty) (.inr (fun h => nomatch h)) 7
  exact ⟨w', h⟩

/-- C66 fails for fake-jni VMs: nothing registers the class, so `createMainMethod` is undefined in every new VM. -/
theorem main_method_fake : ∀ fn, World.initial.createMainMethod .known true fn = .ub .nullDeref :=
  main_method_undefined ⟨[], rfl⟩ (fun _ => no_main_class)

/-- It is also undefined in a Baron VM that denies the class. -/
theorem main_method_denied : ∀ fn, World.initial.createMainMethod
    (.baron (Deny.empty.denyClass "fakejni/impl/createMainMethod".toList)) true fn = .ub .nullDeref :=
  main_method_undefined ⟨[], rfl⟩ (fun _ h => by
    rcases h with h | h
    · exact no_main_class h
    · exact h (by decide +kernel))

/-- C66. Without arguments `start` gives `main` a new array whose only element is the string "main"; the arrays that
exist are left alone. -/
theorem start_arguments {α : Type} {j : α} {s : CppArrays α} (h : CppArrays.Reached j s) (text : α) :
    ∃ s' a, startArguments s text = .ok (s', a) ∧ s.objs a = none ∧
      (∃ o, s'.objs a = some o ∧ o.length = 1 ∧ o.owner = true) ∧ s'.get a 0 = .ok text ∧
      (∀ i, i ≠ 0 → s'.get a i = .ub .outOfBounds) ∧
      ∀ b o, s.objs b = some o → s'.objs b = some o ∧ ∀ i x, s.get b i = .ok x → s'.get b i = .ok x := by
  have inv := h.inv
  have hx : startArguments s text = .ok (⟨fun b => if b = s.nextBlock then some [text] else s.blocks b, s.nextBlock + 1,
      fun i => if i = s.nextObj then some ⟨some ⟨s.nextBlock, 0⟩, 1, true⟩ else s.objs i, s.nextObj + 1,
      fun b => if b = s.nextBlock then false else s.callers b, s.junk⟩, s.nextObj) := by
    simp only [startArguments, CppArrays.ofLength, CppArrays.alloc, CppArrays.make, CppArrays.set, CppArrays.write]
    rw [if_neg (by omega)]
    simp only [Res.bind_ok, if_true]
    rw [if_pos (by simp)]
    simp only [Res.bind_ok]
    congr 4
    funext b
    split
    · rfl
    · rfl
  refine ⟨_, _, hx, ?_, ⟨_, if_pos rfl, rfl, rfl⟩, ?_, fun i hi => ?_, fun b o hb => ?_⟩
  · cases ho : s.objs s.nextObj with
    | none => rfl
    | some o => exact absurd (inv.objLt _ _ ho) (Nat.lt_irrefl _)
  · simp [CppArrays.get, CppArrays.read]
  · simp only [CppArrays.get, CppArrays.read, if_true]
    split
    · rfl
    · rw [List.getElem?_eq_none (by simp; omega)]
  · have hlt := inv.objLt _ _ hb
    have he : (if b = s.nextObj then some ⟨some ⟨s.nextBlock, 0⟩, 1, true⟩ else s.objs b) = some o := by
      rw [if_neg (Nat.ne_of_lt hlt)]; exact hb
    refine ⟨he, fun i x hg => ?_⟩
    simp only [CppArrays.get, hb] at hg
    simp only [CppArrays.get, he]
    unfold CppArrays.read at hg ⊢
    cases hd : o.data with
    | none => rw [hd] at hg; cases hg
    | some p =>
      rw [hd] at hg
      dsimp only at hg ⊢
      cases hl : s.blocks p.block with
      | none => rw [hl] at hg; cases hg
      | some l =>
        rw [hl] at hg
        rw [if_neg (Nat.ne_of_lt (inv.blockLt _ _ hl))]
        exact hg

/-- Sample for `start_arguments`: a state with other arrays. -/
example : CppArrays.Reached 0 sampleArrays ∧ (∃ o, sampleArrays.objs 0 = some o) :=
  ⟨sampleArrays_reached, _, rfl⟩

end Jnivm
