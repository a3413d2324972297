import Verif.Model.Sig
/-! Helper lemmas about the signature scanners. -/
namespace Jnivm
open Spec

theorem chAt_append (pre : List Char) (c : Char) (post : List Char) :
    chAt (pre ++ c :: post) pre.length = .ok c := by
  simp [chAt]

theorem chAt_end (s : List Char) : chAt s s.length = .ok '\x00' := by
  simp [chAt]

theorem chAt_ok {s : List Char} {i : Nat} (h : i ≤ s.length) : ∃ c, chAt s i = .ok c := by
  unfold chAt
  split
  · exact ⟨_, rfl⟩
  · split
    · exact ⟨_, rfl⟩
    · omega

theorem chAt_drop {s : List Char} {i : Nat} {c : Char} (h : chAt s i = .ok c) (hi : i < s.length) :
    s.drop i = c :: s.drop (i + 1) := by
  unfold chAt at h
  rw [dif_pos hi, Res.ok.injEq] at h
  rw [List.drop_eq_getElem_cons hi, h]

theorem findFrom_append (pre name post : List Char) (ch : Char) (h : ch ∉ name) :
    findFrom (pre ++ name ++ ch :: post) pre.length ch = pre.length + name.length := by
  unfold findFrom
  rw [List.append_assoc, List.drop_left]
  congr 1
  rw [List.findIdx_append, if_neg]
  · simp [List.findIdx_cons]
  · intro hlt
    rw [List.findIdx_lt_length] at hlt
    obtain ⟨x, hx, hxc⟩ := hlt
    simp only [beq_iff_eq] at hxc
    exact h (hxc ▸ hx)

theorem findFrom_le {s : List Char} {cur : Nat} (ch : Char) (h : cur ≤ s.length) :
    findFrom s cur ch ≤ s.length := by
  unfold findFrom
  have := List.findIdx_le_length (p := (· == ch)) (xs := s.drop cur)
  rw [List.length_drop] at this
  omega

theorem findFrom_lt_iff {s : List Char} {cur : Nat} (ch : Char) (h : cur ≤ s.length) :
    findFrom s cur ch < s.length ↔ ch ∈ s.drop cur := by
  unfold findFrom
  have e : (s.drop cur).length = s.length - cur := List.length_drop
  rw [show (cur + (s.drop cur).findIdx (· == ch) < s.length) ↔
    ((s.drop cur).findIdx (· == ch) < (s.drop cur).length) by rw [e]; omega]
  rw [List.findIdx_lt_length]
  simp

theorem render_ne_nil (t : Ty) : t.render ≠ [] := by
  cases t <;> simp [Ty.render]

/-- Scanning one descriptor. -/
theorem skip_render (t : Ty) : t.Valid → ∀ (pre post : List Char),
    skipJNIType (pre ++ t.render ++ post) pre.length = .ok (pre.length + t.render.length) := by
  induction t with
  | prim p =>
    intro _ pre post
    have hc : chAt (pre ++ (Ty.prim p).render ++ post) pre.length = .ok p.letter := by
      rw [List.append_assoc]; exact chAt_append pre p.letter post
    unfold skipJNIType
    split
    · rename_i c h
      rw [hc, Res.ok.injEq] at h
      subst h
      cases p <;> simp [Prim.letter, Ty.render]
    all_goals (rename_i h; rw [hc] at h; cases h)
  | cls name =>
    intro hv pre post
    have hc : chAt (pre ++ (Ty.cls name).render ++ post) pre.length = .ok 'L' := by
      rw [List.append_assoc]; exact chAt_append pre 'L' _
    have hf : findFrom (pre ++ (Ty.cls name).render ++ post) pre.length ';'
        = pre.length + ('L' :: name).length := by
      have := findFrom_append pre ('L' :: name) post ';' (by
        simp only [List.mem_cons, not_or]; exact ⟨by decide, hv⟩)
      simpa [Ty.render] using this
    unfold skipJNIType
    split
    · rename_i c h
      rw [hc, Res.ok.injEq] at h
      subst h
      rw [if_neg (by decide), if_pos rfl, hf]
      simp [Ty.render]
      omega
    all_goals (rename_i h; rw [hc] at h; cases h)
  | arr t ih =>
    intro hv pre post
    have hc : chAt (pre ++ (Ty.arr t).render ++ post) pre.length = .ok '[' := by
      rw [List.append_assoc]; exact chAt_append pre '[' _
    have := ih hv (pre ++ ['[']) post
    simp only [List.length_append, List.length_cons, List.length_nil, Nat.zero_add] at this
    have e : pre ++ ['['] ++ t.render ++ post = pre ++ (Ty.arr t).render ++ post := by
      simp [Ty.render]
    rw [e] at this
    unfold skipJNIType
    split
    · rename_i c h
      rw [hc, Res.ok.injEq] at h
      subst h
      rw [if_pos rfl, this]
      simp only [Ty.render, List.length_cons]
      congr 1
      omega
    all_goals (rename_i h; rw [hc] at h; cases h)

/-- One parameter of the variadic decoder. -/
theorem jvalueStep_render (d2f : BitVec 64 → BitVec 32) (t : Ty) (ht : t.Valid) (a : CArg)
    (v : BitVec 64) (hd : delivered d2f t a = some v) (rest : List CArg) (pre post : List Char) :
    ∃ c, chAt (pre ++ t.render ++ post) pre.length = .ok c ∧ c ≠ ')' ∧
      jvalueStep d2f (pre ++ t.render ++ post) pre.length c (a :: rest)
        = .ok (v, rest, pre.length + t.render.length) := by
  cases t with
  | prim p =>
    have hc : chAt (pre ++ (Ty.prim p).render ++ post) pre.length = .ok p.letter := by
      rw [List.append_assoc]; exact chAt_append pre p.letter post
    refine ⟨p.letter, hc, by cases p <;> decide, ?_⟩
    cases p <;> cases a <;> simp [delivered] at hd <;> subst hd <;> rfl
  | cls name =>
    have hc : chAt (pre ++ (Ty.cls name).render ++ post) pre.length = .ok 'L' := by
      rw [List.append_assoc]; exact chAt_append pre 'L' _
    refine ⟨'L', hc, by decide, ?_⟩
    have hf : findFrom (pre ++ (Ty.cls name).render ++ post) pre.length ';'
        = pre.length + ('L' :: name).length := by
      have := findFrom_append pre ('L' :: name) post ';' (by
        simp only [List.mem_cons, not_or]; exact ⟨by decide, ht⟩)
      simpa [Ty.render] using this
    cases a <;> simp [delivered] at hd
    subst hd
    simp only [jvalueStep]
    rw [hf, if_neg (by simp [Ty.render])]
    simp only [vaObject, Res.ok_bind, Res.pure_eq, Ty.render, List.length_cons,
      List.length_append, List.length_nil]
    rfl
  | arr t =>
    have hc : chAt (pre ++ (Ty.arr t).render ++ post) pre.length = .ok '[' := by
      rw [List.append_assoc]; exact chAt_append pre '[' _
    refine ⟨'[', hc, by decide, ?_⟩
    have := skip_render t ht (pre ++ ['[']) post
    simp only [List.length_append, List.length_cons, List.length_nil, Nat.zero_add] at this
    have e : pre ++ ['['] ++ t.render ++ post = pre ++ (Ty.arr t).render ++ post := by
      simp [Ty.render]
    rw [e] at this
    cases a <;> simp [delivered] at hd
    subst hd
    simp only [jvalueStep]
    rw [this]
    simp only [vaObject, Res.ok_bind, Res.pure_eq, Ty.render, List.length_cons]
    congr 3
    omega

theorem jvaluesLoop_params (d2f : BitVec 64 → BitVec 32) {ts : List Ty} {as : List CArg}
    {vs : List (BitVec 64)} (h : Passes d2f ts as vs) : (∀ t ∈ ts, t.Valid) →
    ∀ (pre post : List Char) (extra : List CArg) (out : List (BitVec 64)),
      jvaluesLoop d2f (pre ++ ts.flatMap Ty.render ++ post) pre.length (as ++ extra) out
        = jvaluesLoop d2f (pre ++ ts.flatMap Ty.render ++ post)
            (pre.length + (ts.flatMap Ty.render).length) extra (out ++ vs) := by
  induction h with
  | nil => intro _ pre post extra out; simp
  | @cons t a v ts as vs hd _ ih =>
    intro hv pre post extra out
    have e : pre ++ (t :: ts).flatMap Ty.render ++ post
        = pre ++ t.render ++ (ts.flatMap Ty.render ++ post) := by simp
    rw [e]
    obtain ⟨c, hc, hne, hs⟩ := jvalueStep_render d2f t (hv t (by simp)) a v hd (as ++ extra) pre
      (ts.flatMap Ty.render ++ post)
    have hlen : 0 < t.render.length := List.length_pos_iff.2 (render_ne_nil t)
    rw [jvaluesLoop]
    split
    · rename_i c' h'
      rw [hc, Res.ok.injEq] at h'
      subst h'
      rw [if_neg hne, if_neg (by simp only [List.length_append]; omega)]
      split
      · rename_i v' rest' next' h'
        rw [List.cons_append, hs, Res.ok.injEq, Prod.mk.injEq, Prod.mk.injEq] at h'
        obtain ⟨rfl, rfl, rfl⟩ := h'
        have := ih (fun t' ht' => hv t' (by simp [ht'])) (pre ++ t.render) post extra (out ++ [v])
        rw [List.append_assoc (pre ++ t.render), List.length_append] at this
        rw [this]
        simp only [List.append_assoc, List.flatMap_cons, List.length_append, List.cons_append,
          List.nil_append, Nat.add_assoc]
      all_goals (rename_i h'; rw [List.cons_append, hs] at h'; cases h')
    all_goals (rename_i h'; rw [hc] at h'; cases h')

/-- A parameter for which there is no argument of its type. -/
theorem jvalueStep_refused (d2f : BitVec 64 → BitVec 32) (t : Ty) (ht : t.Valid) (args : List CArg)
    (hd : ∀ a rest, args = a :: rest → delivered d2f t a = none) (pre post : List Char) :
    ∃ c, chAt (pre ++ t.render ++ post) pre.length = .ok c ∧ c ≠ ')' ∧
      jvalueStep d2f (pre ++ t.render ++ post) pre.length c args = .ub .badVaArg := by
  cases t with
  | prim p =>
    have hc : chAt (pre ++ (Ty.prim p).render ++ post) pre.length = .ok p.letter := by
      rw [List.append_assoc]; exact chAt_append pre p.letter post
    refine ⟨p.letter, hc, by cases p <;> decide, ?_⟩
    cases args with
    | nil => cases p <;> rfl
    | cons a rest =>
      have hd := hd a rest rfl
      cases p <;> cases a <;> first | (simp [delivered] at hd; done) | rfl
  | cls name =>
    have hc : chAt (pre ++ (Ty.cls name).render ++ post) pre.length = .ok 'L' := by
      rw [List.append_assoc]; exact chAt_append pre 'L' _
    refine ⟨'L', hc, by decide, ?_⟩
    have hf : findFrom (pre ++ (Ty.cls name).render ++ post) pre.length ';'
        = pre.length + ('L' :: name).length := by
      have := findFrom_append pre ('L' :: name) post ';' (by
        simp only [List.mem_cons, not_or]; exact ⟨by decide, ht⟩)
      simpa [Ty.render] using this
    have hva : vaObject args = .ub .badVaArg := by
      cases args with
      | nil => rfl
      | cons a rest =>
        have hd := hd a rest rfl
        cases a <;> first | (simp [delivered] at hd; done) | rfl
    simp only [jvalueStep]
    rw [hf, if_neg (by simp [Ty.render]), hva]
    rfl
  | arr t =>
    have hc : chAt (pre ++ (Ty.arr t).render ++ post) pre.length = .ok '[' := by
      rw [List.append_assoc]; exact chAt_append pre '[' _
    refine ⟨'[', hc, by decide, ?_⟩
    have := skip_render t ht (pre ++ ['[']) post
    simp only [List.length_append, List.length_cons, List.length_nil, Nat.zero_add] at this
    have e : pre ++ ['['] ++ t.render ++ post = pre ++ (Ty.arr t).render ++ post := by
      simp [Ty.render]
    rw [e] at this
    have hva : vaObject args = .ub .badVaArg := by
      cases args with
      | nil => rfl
      | cons a rest =>
        have hd := hd a rest rfl
        cases a <;> first | (simp [delivered] at hd; done) | rfl
    simp only [jvalueStep]
    rw [this, hva]
    rfl

/-- Arguments that do not fit the parameters. -/
theorem jvaluesLoop_refused (d2f : BitVec 64 → BitVec 32) (ts : List Ty) (hv : ∀ t ∈ ts, t.Valid) :
    ∀ (args : List CArg), (¬ ∃ as extra vs, args = as ++ extra ∧ Passes d2f ts as vs) →
    ∀ (pre post : List Char) (out : List (BitVec 64)),
      jvaluesLoop d2f (pre ++ ts.flatMap Ty.render ++ post) pre.length args out = .ub .badVaArg := by
  induction ts with
  | nil => exact fun args h => absurd ⟨[], args, [], rfl, .nil⟩ h
  | cons t ts ih =>
    intro args h pre post out
    have e : pre ++ (t :: ts).flatMap Ty.render ++ post
        = pre ++ t.render ++ (ts.flatMap Ty.render ++ post) := by simp
    have hlen : 0 < t.render.length := List.length_pos_iff.2 (render_ne_nil t)
    rw [e, jvaluesLoop]
    by_cases hfit : ∃ a rest v, args = a :: rest ∧ delivered d2f t a = some v
    · obtain ⟨a, rest, v, rfl, hd⟩ := hfit
      obtain ⟨c, hc, hne, hs⟩ := jvalueStep_render d2f t (hv t (by simp)) a v hd rest pre
        (ts.flatMap Ty.render ++ post)
      split
      · rename_i c' h'
        rw [hc, Res.ok.injEq] at h'
        subst h'
        rw [if_neg hne, if_neg (by simp only [List.length_append]; omega)]
        split
        · rename_i v' rest' next' h'
          rw [hs, Res.ok.injEq, Prod.mk.injEq, Prod.mk.injEq] at h'
          obtain ⟨rfl, rfl, rfl⟩ := h'
          have := ih (fun t' ht' => hv t' (by simp [ht'])) rest (by
            rintro ⟨as, extra, vs, rfl, hp⟩
            exact h ⟨a :: as, extra, v :: vs, rfl, .cons hd hp⟩) (pre ++ t.render) post (out ++ [v])
          rw [List.append_assoc (pre ++ t.render), List.length_append] at this
          exact this
        all_goals (rename_i h'; rw [hs] at h'; cases h')
      all_goals (rename_i h'; rw [hc] at h'; cases h')
    · obtain ⟨c, hc, hne, hs⟩ := jvalueStep_refused d2f t (hv t (by simp)) args (by
        intro a rest ha
        cases hd : delivered d2f t a with
        | none => rfl
        | some v => exact absurd ⟨a, rest, v, ha, hd⟩ hfit) pre (ts.flatMap Ty.render ++ post)
      split
      · rename_i c' h'
        rw [hc, Res.ok.injEq] at h'
        subst h'
        rw [if_neg hne, if_neg (by simp only [List.length_append]; omega)]
        split
        · rename_i h'; rw [hs] at h'; cases h'
        · rename_i h'; rw [hs] at h'; cases h'
        · rename_i h'; rw [hs] at h'; cases h'; rfl
        · rename_i h'; rw [hs] at h'; cases h'
      all_goals (rename_i h'; rw [hc] at h'; cases h')

/-- At `)` the decoder stops. -/
theorem jvaluesLoop_stop (d2f : BitVec 64 → BitVec 32) (pre post : List Char) (args : List CArg)
    (out : List (BitVec 64)) :
    jvaluesLoop d2f (pre ++ ')' :: post) pre.length args out = .ok (out, args) := by
  have hc := chAt_append pre ')' post
  rw [jvaluesLoop]
  split
  · rename_i c h
    rw [hc, Res.ok.injEq] at h
    subst h
    rw [if_pos rfl]
  all_goals (rename_i h; rw [hc] at h; cases h)

theorem skip_result (s : List Char) (cur : Nat) (hcur : cur ≤ s.length) :
    ∃ r, skipJNIType s cur = .ok r ∧
      (CutType (s.drop cur) → r = s.length + 1) ∧ (¬ CutType (s.drop cur) → r ≤ s.length) := by
  by_cases hend : cur = s.length
  · subst hend
    refine ⟨s.length + 1, ?_, fun _ => rfl, fun h => absurd ?_ h⟩
    · have hc := chAt_end s
      unfold skipJNIType
      split
      · rename_i c h
        rw [hc, Res.ok.injEq] at h
        subst h
        simp
      all_goals (rename_i h; rw [hc] at h; cases h)
    · rw [List.drop_length]; simp only [CutType]
  have hlt : cur < s.length := by omega
  obtain ⟨c, hc⟩ := chAt_ok hcur
  have hd := chAt_drop hc hlt
  have ih := fun (h : cur + 1 ≤ s.length) => skip_result s (cur + 1) h
  rw [hd]
  unfold skipJNIType
  split
  · rename_i c' h
    rw [hc, Res.ok.injEq] at h
    subst h
    by_cases h1 : c = '['
    · subst h1
      rw [if_pos rfl]
      obtain ⟨r, hr, h1, h2⟩ := ih (by omega)
      have := skipJNIType_gt _ _ _ hr
      rw [hr]
      refine ⟨r - 1 + 1, rfl, ?_, ?_⟩
      · intro h; simp only [CutType] at h; have := h1 h; omega
      · intro h; simp only [CutType] at h; have := h2 h; omega
    rw [if_neg h1]
    by_cases h2 : c = 'L'
    · subst h2
      rw [if_pos rfl]
      refine ⟨_, rfl, ?_, ?_⟩
      · intro h
        simp only [CutType] at h
        have hle := findFrom_le (s := s) ';' hcur
        have : ¬ findFrom s cur ';' < s.length := by
          rw [findFrom_lt_iff ';' hcur, hd]
          simpa using h
        omega
      · intro h
        simp only [CutType, Classical.not_not] at h
        have : findFrom s cur ';' < s.length := by
          rw [findFrom_lt_iff ';' hcur, hd]
          simp [h]
        omega
    rw [if_neg h2]
    by_cases h3 : c = '('
    · subst h3
      rw [if_pos rfl]
      obtain ⟨r, hr, h1, h2⟩ := ih (by omega)
      exact ⟨r, hr, h1, h2⟩
    rw [if_neg h3]
    refine ⟨_, rfl, ?_, fun _ => by omega⟩
    intro h
    unfold CutType at h
    split at h <;> simp_all
  all_goals (rename_i h; rw [hc] at h; cases h)
termination_by s.length - cur

/-- Without a cut array element type the decoder stays inside the signature. -/
theorem jvaluesLoop_inside (d2f : BitVec 64 → BitVec 32) (sig : List Char)
    (hcut : ∀ pre post, sig = pre ++ '[' :: post → ¬ CutType post)
    (cur : Nat) (hcur : cur ≤ sig.length) (args : List CArg) (out : List (BitVec 64)) :
    jvaluesLoop d2f sig cur args out ≠ .ub .outOfBounds := by
  obtain ⟨c, hc⟩ := chAt_ok hcur
  rw [jvaluesLoop]
  split
  · rename_i c' h
    rw [hc, Res.ok.injEq] at h
    subst h
    by_cases h1 : c = ')'
    · rw [if_pos h1]; simp
    rw [if_neg h1]
    by_cases hend : cur = sig.length
    · rw [if_pos hend]; simp
    rw [if_neg hend]
    have hlt : cur < sig.length := by omega
    have hd := chAt_drop hc hlt
    have step : (∀ v rest next, jvalueStep d2f sig cur c args = .ok (v, rest, next) →
        next ≤ sig.length) ∧ jvalueStep d2f sig cur c args ≠ .ub .outOfBounds := by
      have va : ∀ {α : Type} (x : Res α), x ≠ .ub .outOfBounds → ∀ (f : α → BitVec 64 × List CArg),
          ((∀ v rest next, (x >>= fun a => pure ((f a).1, (f a).2, cur + 1)) =
            (.ok (v, rest, next) : Res (BitVec 64 × List CArg × Nat)) → next ≤ sig.length) ∧
          (x >>= fun a => pure ((f a).1, (f a).2, cur + 1)) ≠
            (.ub .outOfBounds : Res (BitVec 64 × List CArg × Nat))) := by
        intro α x hx f
        constructor
        · intro v rest next h
          rw [Res.bind_eq_ok] at h
          obtain ⟨_, _, h⟩ := h
          simp only [Res.pure_eq, Res.ok.injEq, Prod.mk.injEq] at h
          omega
        · cases x <;> simp at hx ⊢ <;> exact hx
      have hI : vaInt args ≠ .ub .outOfBounds := by unfold vaInt; split <;> simp
      have hJ : vaLong args ≠ .ub .outOfBounds := by unfold vaLong; split <;> simp
      have hD : vaDouble args ≠ .ub .outOfBounds := by unfold vaDouble; split <;> simp
      have hO : vaObject args ≠ .ub .outOfBounds := by unfold vaObject; split <;> simp
      unfold jvalueStep
      split
      · exact ⟨fun v rest next h => by simp only [Res.ok.injEq, Prod.mk.injEq] at h; omega, by simp⟩
      · exact va _ hI (fun a => ((a.1.truncate 8).zeroExtend 64, a.2))
      · exact va _ hI (fun a => ((a.1.truncate 8).zeroExtend 64, a.2))
      · exact va _ hI (fun a => ((a.1.truncate 16).zeroExtend 64, a.2))
      · exact va _ hI (fun a => ((a.1.truncate 16).zeroExtend 64, a.2))
      · exact va _ hI (fun a => (a.1.zeroExtend 64, a.2))
      · exact va _ hJ (fun a => (a.1, a.2))
      · exact va _ hD (fun a => ((d2f a.1).zeroExtend 64, a.2))
      · exact va _ hD (fun a => (a.1, a.2))
      · have hnc : ¬ CutType (sig.drop (cur + 1)) := by
          apply hcut (sig.take cur)
          rw [← hd, List.take_append_drop]
        obtain ⟨r, hr, -, h2⟩ := skip_result sig (cur + 1) (by omega)
        have hr1 := skipJNIType_gt _ _ _ hr
        have hrl := h2 hnc
        rw [hr]
        simp only [Res.ok_bind]
        constructor
        · intro v rest next h
          rw [Res.bind_eq_ok] at h
          obtain ⟨_, _, h⟩ := h
          simp only [Res.pure_eq, Res.ok.injEq, Prod.mk.injEq] at h
          omega
        · generalize vaObject args = x at hO
          cases x <;> simp at hO ⊢ <;> exact hO
      · have hle := findFrom_le (s := sig) ';' hcur
        by_cases hf : findFrom sig cur ';' = sig.length
        · rw [if_pos hf]; simp
        · rw [if_neg hf]
          constructor
          · intro v rest next h
            rw [Res.bind_eq_ok] at h
            obtain ⟨_, _, h⟩ := h
            simp only [Res.pure_eq, Res.ok.injEq, Prod.mk.injEq] at h
            omega
          · generalize vaObject args = x at hO
            cases x <;> simp at hO ⊢ <;> exact hO
      · exact ⟨fun v rest next h => by simp only [Res.ok.injEq, Prod.mk.injEq] at h; omega, by simp⟩
    split
    · rename_i v rest next h
      have h1 := jvalueStep_gt h
      have h2 := step.1 v rest next h
      exact jvaluesLoop_inside d2f sig hcut next h2 rest (out ++ [v])
    · simp
    · rename_i u h
      intro hu
      apply step.2
      cases hu
      exact h
    · simp
  all_goals (rename_i h; rw [hc] at h; cases h)
termination_by sig.length - cur

theorem findLast_append (pre post : List Char) (ch : Char) (h : ch ∉ post) :
    findLast (pre ++ ch :: post) ch = some pre.length := by
  unfold findLast
  have : (pre ++ ch :: post).reverse.findIdx? (· == ch) = some post.length := by
    rw [List.reverse_append, List.reverse_cons, List.append_assoc, List.findIdx?_append]
    have : post.reverse.findIdx? (· == ch) = none := by
      rw [List.findIdx?_eq_none_iff]
      intro x hx
      simp only [List.mem_reverse] at hx
      simp only [beq_eq_false_iff_ne, ne_eq]
      rintro rfl
      exact h hx
    rw [this]
    simp [List.findIdx?_cons]
  rw [this]
  simp only [List.length_append, List.length_cons, Option.some.injEq]
  omega

end Jnivm
