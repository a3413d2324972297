import Verif.Lemmas.TypedArrays
/-!
Property C56: object arrays with a C++ element type hold instances of that type only, and what is read
is what was written, whichever base class the array is seen as an array of.
-/
namespace Jnivm
open Spec

/-- An array of `T` seen as an array of `T` or of a direct base of `T`: indices in range are read;
writing puts null and instances of `T`; reading afterwards gives what was written there and the rest is
unchanged. -/
theorem typed_read_write {h : CppHier} {dyn : Nat → Nat} {a : TypedArray} {view : Nat}
    (hv : view = a.elem ∨ view ∈ h.bases a.elem) {i : Nat} (hi : i < a.cells.length) {val : Option Nat}
    (hval : ∀ o, val = some o → Derives h.bases (dyn o) a.elem) :
    a.get h view i = some (.ok (a.cells[i]'hi)) ∧
    ∃ b, a.set h dyn view i val = some (.ok b) ∧ b.elem = a.elem ∧
      b.cells.length = a.cells.length ∧
      ∀ (w : Nat), (w = a.elem ∨ w ∈ h.bases a.elem) → ∀ (j : Nat) (hj : j < a.cells.length),
        b.get h w j = some (.ok (if j = i then val else a.cells[j]'hj)) := by
  have hp : ∀ (c : TypedArray) (j : Nat), c.cells.length = a.cells.length → j < a.cells.length →
      c.position j = .ok j := fun c j hc hj => by
    unfold TypedArray.position
    rw [if_pos ⟨by omega, by omega⟩]; rfl
  have hg : ∀ (c : TypedArray), c.elem = a.elem → c.cells.length = a.cells.length → ∀ w : Nat,
      (w = a.elem ∨ w ∈ h.bases a.elem) → ∀ j : Nat, j < a.cells.length →
      c.get h w j = some (.ok (c.cells[j]?.getD none)) := fun c hc hl w hw j hj => by
    unfold TypedArray.get
    rw [CppHier.overrider_near (by rw [hc]; exact hw)]
    simp only [Option.map_some, TypedArray.cell, if_pos, hp c j hl hj, Res.bind_ok]
  refine ⟨?_, { a with cells := a.cells.set i val }, ?_, rfl, by simp, ?_⟩
  · rw [hg a rfl rfl view hv i hi, List.getElem?_eq_getElem hi]; rfl
  · unfold TypedArray.set
    rw [CppHier.overrider_near hv]
    have hc : ¬ (a.elem ≠ view ∧ val.any (fun o => !h.isA (dyn o) a.elem) = true) := by
      rintro ⟨_, hany⟩
      cases val with
      | none => cases hany
      | some o =>
        have : h.isA (dyn o) a.elem = true := CppHier.isA_iff.2 (hval o rfl)
        simp [this] at hany
    simp only [Option.map_some, if_neg hc, TypedArray.cell, if_pos, hp a i rfl hi, Res.bind_ok]
  · intro w hw j hj
    rw [hg { a with cells := a.cells.set i val } rfl (by simp) w hw j hj]
    simp only [List.getElem?_set]
    by_cases hji : j = i
    · subst hji; simp [hj]
    · rw [if_neg (Ne.symm hji), if_neg hji, List.getElem?_eq_getElem hj]; rfl

/-- Seen through a direct base, an object that is no instance of the element type is refused with a C++
exception, which JNI's SetObjectArrayElement does not catch. -/
theorem typed_write_refused {h : CppHier} {dyn : Nat → Nat} {a : TypedArray} {view : Nat} {i : Int} {o : Nat}
    (hv : view ∈ h.bases a.elem) (ho : ¬ Derives h.bases (dyn o) a.elem) :
    a.set h dyn view i (some o) = some (.throws .classType) := by
  unfold TypedArray.set
  rw [CppHier.overrider_near (.inr hv)]
  have hne : a.elem ≠ view := fun e => by
    have := h.ordered _ _ hv
    omega
  have hf : h.isA (dyn o) a.elem = false := by
    cases e : h.isA (dyn o) a.elem with
    | false => rfl
    | true => exact absurd (CppHier.isA_iff.1 e) ho
  simp [hne, hf]

/-- No index outside of the array is checked: reading there is undefined through every view, and so is
writing, unless the value is refused before. -/
theorem typed_index_unchecked {h : CppHier} {dyn : Nat → Nat} {a : TypedArray} {view : Nat}
    (hv : view = a.elem ∨ view ∈ h.bases a.elem) {i : Int} (hi : i < 0 ∨ a.cells.length ≤ i)
    {val : Option Nat} :
    a.get h view i = some (.ub .outOfBounds) ∧
      (a.set h dyn view i val = some (.ub .outOfBounds) ∨
        a.set h dyn view i val = some (.throws .classType)) := by
  have hp : a.cell a.elem i = .ub .outOfBounds := by
    unfold TypedArray.cell TypedArray.position
    rw [if_pos rfl, if_neg (fun hh => by omega)]
  unfold TypedArray.get TypedArray.set
  rw [CppHier.overrider_near hv]
  refine ⟨by simp only [Option.map_some, hp]; rfl, ?_⟩
  simp only [Option.map_some, hp]
  by_cases hc : a.elem ≠ view ∧ val.any (fun o => !h.isA (dyn o) a.elem) = true
  · exact .inr (by rw [if_pos hc])
  · exact .inl (by rw [if_neg hc]; rfl)

/-- Whatever is written through the type itself and its direct bases, the array holds instances of its
element type only.  (Through the type itself only instances can be written: the compiler checks.) -/
theorem typed_cells_kept {h : CppHier} {dyn : Nat → Nat} {ws : List CellWrite} {a b : TypedArray}
    (ha : TypedCells h.bases dyn a.elem a.cells)
    (hw : ∀ w ∈ ws, (w.view = a.elem ∧ ∀ o, w.val = some o → Derives h.bases (dyn o) a.elem) ∨
      w.view ∈ h.bases a.elem)
    (hr : a.run h dyn ws = some (.ok b)) :
    b.elem = a.elem ∧ TypedCells h.bases dyn b.elem b.cells := by
  induction ws generalizing a with
  | nil => cases hr; exact ⟨rfl, ha⟩
  | cons w ws ih =>
    have hws := fun x hx => hw x (List.mem_cons_of_mem _ hx)
    unfold TypedArray.run at hr
    split at hr
    · next a' e =>
      unfold TypedArray.set at e
      rw [CppHier.overrider_near ((hw w List.mem_cons_self).imp (·.1) id)] at e
      simp only [Option.map_some, Option.some.injEq] at e
      split at e
      · cases e
      · next hn =>
        obtain ⟨k, _, hk⟩ := Res.bind_eq_ok.1 e
        cases hk
        refine ih (a := { a with cells := a.cells.set k w.val }) ?_ hws hr
        intro o ho
        rcases List.mem_or_eq_of_mem_set ho with ho | ho
        · exact ha o ho
        · rcases hw w List.mem_cons_self with ⟨_, h2⟩ | h2
          · exact h2 o ho.symm
          · have hne : a.elem ≠ w.view := fun e => by
              have := h.ordered _ _ h2
              omega
            rw [← ho] at hn
            simp only [ne_eq, hne, not_false_eq_true, Option.any_some, Bool.not_eq_eq_eq_not, Bool.not_true,
              true_and, Bool.not_eq_false] at hn
            exact CppHier.isA_iff.1 hn
    · exact ih ha hws hr
    · next h1 h2 => exact absurd hr (h1 b)

/-- The exact condition: an access through a base class `view` is defined if and only if `view` is the
element type or one of its direct bases; otherwise every access with any index has undefined behaviour
(unless an object is refused first). -/
theorem typed_view_exact {h : CppHier} {dyn : Nat → Nat} {a : TypedArray} {view : Nat} {i : Int}
    {r : Res (Option Nat)} (hg : a.get h view i = some r) :
    (view = a.elem ∨ view ∈ h.bases a.elem) ∨
      (r = .ub .typePun ∧ ∀ val b, a.set h dyn view i val ≠ some (.ok b)) := by
  by_cases hv : view = a.elem ∨ view ∈ h.bases a.elem
  · exact .inl hv
  · refine .inr ?_
    unfold TypedArray.get at hg
    unfold TypedArray.set
    cases e : h.overrider a.elem view with
    | none => rw [e] at hg; cases hg
    | some z =>
      have hz : z ≠ a.elem := fun hza => by
        obtain ⟨⟨_, h2⟩, _⟩ := CppHier.overrider_some e
        rw [hza] at h2
        exact hv (h2.imp Eq.symm id)
      rw [e] at hg
      simp only [Option.map_some, TypedArray.cell, if_neg hz, Option.some.injEq] at hg
      refine ⟨hg.symm, fun val b hs => ?_⟩
      simp only [Option.map_some, TypedArray.cell, if_neg hz, Option.some.injEq] at hs
      split at hs <;> cases hs

/-- The negation of the property for JNI, which sees every array as an array of `Object`: an array of a
class that does not extend `Object` directly cannot be read at all. -/
theorem jni_array_of_grandchild {h : CppHier} {a : TypedArray} {i : Int} {r : Res (Option Nat)}
    (h1 : a.elem ≠ 0) (h2 : 0 ∉ h.bases a.elem) (hg : a.get h 0 i = some r) : r = .ub .typePun := by
  rcases typed_view_exact (dyn := fun _ => 0) hg with (h3 | h3) | h3
  · exact absurd h3.symm h1
  · exact absurd h3 h2
  · exact h3.1

/-- With single inheritance the array classes always compile, so the condition above is about programs
that exist. -/
theorem typed_single_compiles {h : CppHier} (hs : ∀ c, (h.bases c).length ≤ 1) {t b : Nat}
    (d : Derives h.bases t b) : ∃ z, h.overrider t b = some z := by
  have uniq : ∀ {c x y : Nat}, x ∈ h.bases c → y ∈ h.bases c → x = y := by
    intro c x y hx hy
    have := hs c
    match e : h.bases c, this with
    | [], _ => rw [e] at hx; cases hx
    | [w], _ => rw [e] at hx hy; rw [List.mem_singleton.1 hx, List.mem_singleton.1 hy]
    | _ :: _ :: _, hl => simp at hl
  -- between two classes on one chain there is no third way
  have line : ∀ {t x y : Nat}, Derives h.bases t x → Derives h.bases t y →
      Derives h.bases x y ∨ Derives h.bases y x := by
    intro t x y hx
    induction hx with
    | refl _ => exact fun hy => .inl hy
    | step hb hbx ih =>
      intro hy
      cases hy with
      | refl _ => exact .inr (.step hb hbx)
      | step hb' hy => rw [uniq hb' hb] at hy; exact ih hy
  by_cases ht : b = t
  · exact ⟨t, CppHier.overrider_near (.inl ht)⟩
  · -- the class just below `b` on the chain
    have hx : ∃ z, Derives h.bases t z ∧ b ∈ h.bases z := by
      clear line
      induction d with
      | refl _ => exact absurd rfl ht
      | @step c x d hb hd ih =>
        by_cases hxd : d = x
        · exact ⟨c, .refl _, hxd ▸ hb⟩
        · obtain ⟨z, h1, h2⟩ := ih hxd
          exact ⟨z, .step hb h1, h2⟩
    obtain ⟨z, h1, h2⟩ := hx
    refine ⟨z, CppHier.overrider_of h1 (.inr h2) fun y hy hyb => ?_⟩
    rcases hyb with rfl | hyb
    · exact .step h2 (.refl _)
    · rcases line h1 hy with h3 | h3
      · exact h3
      · cases h3 with
        | refl _ => exact .refl _
        | step hy2 h3 =>
          rw [uniq hy2 hyb] at h3
          have := CppHier.derives_le h3
          have := h.ordered _ _ h2
          omega

/-- `NewObjectArray` with an initial value, for a class that extends `Object` directly: every element is the
initial value. -/
theorem typed_fill {h : CppHier} {dyn : Nat → Nat} {t n : Nat} {val : Option Nat}
    (ht : t = 0 ∨ 0 ∈ h.bases t) (hval : ∀ o, val = some o → Derives h.bases (dyn o) t) :
    (TypedArray.make t n).fill h dyn val n = some (.ok ⟨t, List.replicate n val⟩) := by
  have key : ∀ k, k ≤ n → ∃ cs, (TypedArray.make t n).fill h dyn val k = some (.ok ⟨t, cs⟩) ∧
      cs.length = n ∧ ∀ j, j < k → cs[j]? = some val := by
    intro k
    induction k with
    | zero => exact fun _ => ⟨_, rfl, by simp, by omega⟩
    | succ k ih =>
      intro hk
      obtain ⟨cs, e, hl, hc⟩ := ih (by omega)
      obtain ⟨_, b, hb, hbe, hbl, hbg⟩ := typed_read_write (h := h) (dyn := dyn) (a := ⟨t, cs⟩) (view := 0)
        (ht.imp Eq.symm id) (i := k) (by simp only [hl]; omega) (val := val) hval
      refine ⟨b.cells, ?_, by simpa [hl] using hbl, fun j hj => ?_⟩
      · simp only [TypedArray.fill, e, hb]
        cases b; cases hbe; rfl
      · have hj2 : j < cs.length := by omega
        have hj3 : j < b.cells.length := by simp only [hbl]; exact hj2
        have h1 := hbg 0 (ht.imp Eq.symm id) j hj2
        obtain ⟨h2, _⟩ := typed_read_write (h := h) (dyn := dyn) (a := b) (view := 0) (val := none)
          (by rw [hbe]; exact ht.imp Eq.symm id) (i := j) hj3 (fun _ ho => nomatch ho)
        rw [h1] at h2
        simp only [Option.some.injEq, Res.ok.injEq] at h2
        rw [List.getElem?_eq_getElem hj3, ← h2]
        by_cases hjk : j = k
        · rw [if_pos hjk]
        · rw [if_neg hjk]
          have := hc j (by omega)
          rw [List.getElem?_eq_getElem hj2] at this
          exact this
  obtain ⟨cs, e, hl, hc⟩ := key n (Nat.le_refl n)
  rw [e]
  have : cs = List.replicate n val := List.ext_getElem? fun j => by
    by_cases hj : j < n
    · rw [hc j hj, List.getElem?_replicate, if_pos hj]
    · rw [List.getElem?_eq_none (by omega), List.getElem?_replicate, if_neg hj]
  rw [this]

/-! ### Examples -/

/-- The classes of the library's tests, src/tests/Tests.cpp:346-376: 0 is `Object`, 1 `TestInterface`,
2 `TestClass : Extends<Object, TestInterface>`, 3 `TestClass2 : Extends<TestClass>`. -/
def testHier : CppHier where
  bases | 1 => [0] | 2 => [0, 1] | 3 => [2] | _ => []
  ordered c b hb := by
    match c, hb with
    | 1, hb => simp at hb; omega
    | 2, hb => simp at hb; omega
    | 3, hb => simp at hb; omega
    | 0, hb => cases hb
    | _ + 4, hb => cases hb

/-- An array of `TestClass`: JNI reads what it wrote; a `TestInterface` is refused. -/
example : ((TypedArray.make 2 3).run testHier (fun o => o) [⟨0, 1, some 3⟩, ⟨1, 0, some 2⟩, ⟨0, 2, some 1⟩]) =
    some (.ok ⟨2, [some 2, some 3, none]⟩) := by decide

/-- The hypotheses of `typed_fill`, and what it says of an array of three. -/
example : 0 ∈ testHier.bases 2 ∧ testHier.isA 3 2 = true ∧
    (TypedArray.make 2 3).fill testHier (fun o => o) (some 3) 3 =
      some (.ok ⟨2, [some 3, some 3, some 3]⟩) := by decide

/-- The hypotheses of `typed_cells_kept` for this history. -/
example : TypedCells testHier.bases (fun o => o) 2 [none, none, none] ∧
    (0 ∈ testHier.bases 2 ∧ 1 ∈ testHier.bases 2) := by
  refine ⟨fun o ho => ?_, by decide, by decide⟩
  simp at ho

/-- The index just behind an array of three is not checked. -/
example : (TypedArray.make 2 3).get testHier 0 3 = some (.ub .outOfBounds) ∧
    (TypedArray.make 2 3).set testHier (fun o => o) 0 3 (some 3) = some (.ub .outOfBounds) := by decide

/-- An array of `TestClass2`, which extends `Object` through `TestClass` only, compiles and cannot be read
by JNI. -/
example : (TypedArray.make 3 1).get testHier 0 0 = some (.ub .typePun) ∧
    (TypedArray.make 3 1).get testHier 2 0 = some (.ok none) ∧ 0 ∉ testHier.bases 3 := by
  decide

/-- An object of the intermediate class passes the check although it is no instance of the element type:
the check is the one for arrays of the intermediate class. -/
example : (TypedArray.make 3 1).set testHier (fun o => o) 0 0 (some 1) = some (.throws .classType) ∧
    (TypedArray.make 3 1).set testHier (fun o => o) 0 0 (some 2) = some (.ub .typePun) := by
  decide

/-- Two bases that both extend `Object`, without `Object` in the list: `Array<T>` has no final overrider
and does not compile. -/
example : ∀ h : CppHier, h.bases 1 = [0] → h.bases 2 = [0] → h.bases 3 = [1, 2] → h.bases 0 = [] →
    h.overrider 3 0 = none := by
  intro h h1 h2 h3 h0
  simp [CppHier.overrider, CppHier.definers, CppHier.isA, CppHier.isAN, h1, h2, h3, h0, List.range,
    List.range.loop]

end Jnivm
