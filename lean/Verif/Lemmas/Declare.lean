import Verif.Lemmas.Registry
/-! Lemmas about `Declare` and registry histories. -/
namespace Jnivm
open Spec

/-- Create all these classes in order. -/
def createAll (r : Registry) (names : List Str) : Registry :=
  names.foldl (fun r n => (findClass false r n).1) r

theorem createAll_append (r : Registry) (a b : List Str) :
    createAll r (a ++ b) = createAll (createAll r a) b := by
  simp [createAll]

theorem createAll_spec (names : List Str) : ∀ {r : Registry}, RegInv r →
    RegInv (createAll r names) ∧
    (∀ m c, r.byName.lookup m = some c → (createAll r names).byName.lookup m = some c) ∧
    (∀ m, ((createAll r names).byName.lookup m).isSome ↔
      (r.byName.lookup m).isSome ∨ ∃ n ∈ names, Encloses m n) := by
  induction names with
  | nil => intro r inv; exact ⟨inv, fun _ _ h => h, fun m => by simp [createAll]⟩
  | cons n ns ih =>
    intro r inv
    obtain ⟨r', c, e, hl, hc⟩ := findClass_create inv n
    have := ih hc.inv
    simp only [createAll, List.foldl_cons, e]
    refine ⟨this.1, fun m c h => this.2.1 m c (hc.keep m c h), ?_⟩
    intro m
    refine (this.2.2 m).trans ?_
    rw [hc.new m, or_assoc]
    apply or_congr Iff.rfl
    simp

theorem initial_eq : Registry.initial = createAll Registry.empty (builtinClasses.map String.toList) := by
  unfold Registry.initial createAll
  rw [List.foldl_map]

theorem initial_inv : RegInv Registry.initial := by
  rw [initial_eq]; exact (createAll_spec _ empty_inv).1

theorem declareLoop_end (r : Registry) (s : Str) : declareLoop r s s.length = .ok r := by
  rw [declareLoop, if_pos rfl]

theorem declareLoop_other (r : Registry) (pre post : Str) {c : Char} (hc : c ≠ 'L') :
    declareLoop r (pre ++ c :: post) pre.length = declareLoop r (pre ++ c :: post) (pre.length + 1) := by
  rw [declareLoop, if_neg (by simp)]
  have hu := chAt_append pre c post
  split
  · rename_i d hd
    rw [hu] at hd; cases hd
    rw [if_neg hc]
  all_goals (rename_i hd; rw [hu] at hd; cases hd)

theorem declareLoop_cls (r : Registry) (pre name post : Str) (hn : ';' ∉ name) :
    declareLoop r (pre ++ 'L' :: (name ++ ';' :: post)) pre.length =
      declareLoop (findClass false r name).1 (pre ++ 'L' :: (name ++ ';' :: post))
        (pre.length + name.length + 2) := by
  rw [declareLoop, if_neg (by simp)]
  have hu := chAt_append pre 'L' (name ++ ';' :: post)
  have hf : findFrom (pre ++ 'L' :: (name ++ ';' :: post)) pre.length ';' = pre.length + name.length + 1 := by
    have := findFrom_append pre ('L' :: name) post ';' (by simp [hn])
    simp only [List.cons_append, List.append_assoc, List.length_cons] at this
    rw [this]; omega
  split
  · rename_i d hd
    rw [hu] at hd; cases hd
    rw [if_pos rfl, hf]
    have e : (pre ++ 'L' :: (name ++ ';' :: post)).drop (pre.length + 1) = name ++ ';' :: post := by
      rw [show pre ++ 'L' :: (name ++ ';' :: post) = (pre ++ ['L']) ++ (name ++ ';' :: post) by simp]
      rw [show pre.length + 1 = (pre ++ ['L']).length by simp]
      rw [List.drop_left]
    rw [e, show pre.length + name.length + 1 - (pre.length + 1) = name.length by omega, List.take_left]
  all_goals (rename_i hd; rw [hu] at hd; cases hd)

theorem letter_ne_L (p : Prim) : p.letter ≠ 'L' := by cases p <;> decide

theorem declareLoop_ty (t : Ty) : t.Valid → ∀ (r : Registry) (pre post : Str),
    declareLoop r (pre ++ (t.render ++ post)) pre.length =
      declareLoop (createAll r t.classNames) (pre ++ (t.render ++ post)) (pre.length + t.render.length) := by
  induction t with
  | prim p =>
    intro _ r pre post
    have := declareLoop_other r pre post (letter_ne_L p)
    simpa [Ty.render, Ty.classNames, createAll] using this
  | cls name =>
    intro hv r pre post
    have := declareLoop_cls r pre name post hv
    simp only [Ty.render, Ty.classNames, createAll, List.foldl_cons, List.foldl_nil, List.cons_append,
      List.append_assoc, List.nil_append, List.length_cons, List.length_append, List.length_nil]
    rw [this]
    congr 1
  | arr t ih =>
    intro hv r pre post
    have h1 := declareLoop_other r pre (t.render ++ post) (c := '[') (by decide)
    have h2 := ih hv r (pre ++ ['[']) post
    simp only [Ty.render, Ty.classNames, List.cons_append, List.length_cons]
    rw [h1]
    simp only [List.append_assoc, List.cons_append, List.nil_append, List.length_append,
      List.length_cons, List.length_nil] at h2
    rw [h2]
    congr 1
    omega

theorem declareLoop_tys (ts : List Ty) (hv : ∀ t ∈ ts, t.Valid) : ∀ (r : Registry) (pre post : Str),
    declareLoop r (pre ++ (ts.flatMap Ty.render ++ post)) pre.length =
      declareLoop (createAll r (ts.flatMap Ty.classNames)) (pre ++ (ts.flatMap Ty.render ++ post))
        (pre.length + (ts.flatMap Ty.render).length) := by
  induction ts with
  | nil => intro r pre post; simp [createAll]
  | cons t ts ih =>
    intro r pre post
    have h1 := declareLoop_ty t (hv t (by simp)) r pre (ts.flatMap Ty.render ++ post)
    have h2 := ih (fun t ht => hv t (by simp [ht])) (createAll r t.classNames) (pre ++ t.render) post
    simp only [List.flatMap_cons, List.append_assoc, createAll_append, List.length_append] at h1 h2 ⊢
    rw [h1, h2]
    congr 1
    omega

theorem declare_ty {t : Ty} (hv : t.Valid) (r : Registry) :
    declare r t.render = .ok (createAll r t.classNames) := by
  have := declareLoop_ty t hv r [] []
  simp only [List.nil_append, List.append_nil, List.length_nil, Nat.zero_add] at this
  unfold declare
  rw [this, declareLoop_end]

theorem declare_sig {params : List Ty} {ret : Option Ty} (hp : ∀ t ∈ params, t.Valid)
    (hr : ∀ t, ret = some t → t.Valid) (r : Registry) :
    declare r (renderSig params ret) = .ok (createAll r (sigClassNames params ret)) := by
  unfold declare renderSig
  have h0 := declareLoop_other r [] (params.flatMap Ty.render ++ ')' :: renderRet ret) (c := '(') (by decide)
  simp only [List.nil_append, List.length_nil, Nat.zero_add] at h0
  rw [h0]
  have h1 := declareLoop_tys params hp r ['('] (')' :: renderRet ret)
  simp only [List.cons_append, List.nil_append, List.length_cons, List.length_nil, Nat.zero_add] at h1
  rw [h1]
  have h2 := declareLoop_other (createAll r (params.flatMap Ty.classNames))
    ('(' :: params.flatMap Ty.render) (renderRet ret) (c := ')') (by decide)
  simp only [List.cons_append, List.length_cons] at h2
  rw [Nat.add_comm 1, h2]
  cases ret with
  | none =>
    have h3 := declareLoop_other (createAll r (params.flatMap Ty.classNames))
      ('(' :: (params.flatMap Ty.render ++ [')'])) [] (c := 'V') (by decide)
    simp only [List.cons_append, List.append_assoc, List.nil_append, List.length_cons, List.length_append,
      List.length_nil, Nat.zero_add] at h3
    simp only [renderRet, sigClassNames]
    rw [h3]
    have h4 := declareLoop_end (createAll r (params.flatMap Ty.classNames))
      ('(' :: (params.flatMap Ty.render ++ [')', 'V']))
    simp only [List.length_cons, List.length_append, List.length_nil] at h4
    simpa using h4
  | some t =>
    have h3 := declareLoop_ty t (hr t rfl) (createAll r (params.flatMap Ty.classNames))
      ('(' :: (params.flatMap Ty.render ++ [')'])) []
    simp only [List.cons_append, List.append_assoc, List.nil_append, List.append_nil, List.length_cons,
      List.length_append, List.length_nil, Nat.zero_add] at h3
    simp only [renderRet, sigClassNames, Option.map_some, Option.getD_some, createAll_append]
    rw [h3]
    have h4 := declareLoop_end (createAll (createAll r (params.flatMap Ty.classNames)) t.classNames)
      ('(' :: (params.flatMap Ty.render ++ ')' :: t.render))
    simp only [List.length_cons, List.length_append] at h4
    rw [← h4]
    congr 1
    omega

/-- Whatever text is declared: the registry only grows. -/
theorem declareLoop_mono (s : Str) (cur : Nat) : ∀ (r : Registry), RegInv r → ∀ r', declareLoop r s cur = .ok r' →
    RegInv r' ∧ ∀ m c, r.byName.lookup m = some c → r'.byName.lookup m = some c := by
  induction hl : s.length + 1 - cur using Nat.strongRecOn generalizing cur with
  | ind k ih =>
    intro r inv r' h
    rw [declareLoop] at h
    split at h
    · cases h; exact ⟨inv, fun _ _ h => h⟩
    · split at h
      · rename_i c hc
        have hle := chAt_le hc
        have hge := findFrom_ge s cur ';'
        split at h
        · obtain ⟨r1, d, e, _, hcr⟩ := findClass_create inv
            ((s.drop (cur + 1)).take (findFrom s cur ';' - (cur + 1)))
          rw [e] at h
          have := ih _ (by omega) _ rfl r1 hcr.inv r' h
          exact ⟨this.1, fun m c hm => this.2 m c (hcr.keep m c hm)⟩
        · exact ih _ (by omega) _ rfl r inv r' h
      · cases h
      · cases h
      · cases h

end Jnivm
