import Verif.Lemmas.Declare
/-!
Properties of the class registry (C10, C12, C13, C14, C15).
-/
namespace Jnivm
open Spec

/-- Registry operations of the API: class lookups (creating or not) and the declaration of the
classes in a member signature. -/
inductive RegOp where
  | find (returnZero : Bool) (name : Str)
  | declare (text : Str)

def RegOp.run (r : Registry) : RegOp → Res Registry
  | .find z n => .ok (findClass z r n).1
  | .declare text => Jnivm.declare r text

/-- Run a history. -/
def runReg : Registry → List RegOp → Res Registry
  | r, [] => .ok r
  | r, op :: ops => (op.run r).bind fun r' => runReg r' ops

/-- Registries reached from a fresh VM by some history. -/
def RegReachable (r : Registry) : Prop := ∃ ops, runReg Registry.initial ops = .ok r

/-- `Requests ops names`: the history `ops` asks for exactly these classes to exist; it only
declares well-formed signatures and types. -/
inductive Requests : List RegOp → List Str → Prop
  | nil : Requests [] []
  | query {ops ns} (n : Str) : Requests ops ns → Requests (.find true n :: ops) ns
  | create {ops ns} (n : Str) : Requests ops ns → Requests (.find false n :: ops) (n :: ns)
  | signature {ops ns} (params : List Ty) (ret : Option Ty) : (∀ t ∈ params, t.Valid) →
      (∀ t, ret = some t → t.Valid) → Requests ops ns →
      Requests (.declare (renderSig params ret) :: ops) (sigClassNames params ret ++ ns)
  | type {ops ns} (t : Ty) : t.Valid → Requests ops ns →
      Requests (.declare t.render :: ops) (t.classNames ++ ns)

/-! ### Helpers -/

theorem runReg_mono (ops : List RegOp) : ∀ {r r' : Registry}, RegInv r → runReg r ops = .ok r' →
    RegInv r' ∧ ∀ m c, r.byName.lookup m = some c → r'.byName.lookup m = some c := by
  induction ops with
  | nil => intro r r' inv h; cases h; exact ⟨inv, fun _ _ h => h⟩
  | cons op ops ih =>
    intro r r' inv h
    unfold runReg at h
    cases h1 : op.run r with
    | ok r1 =>
      rw [h1] at h
      have h : runReg r1 ops = .ok r' := h
      have step : RegInv r1 ∧ ∀ m c, r.byName.lookup m = some c → r1.byName.lookup m = some c := by
        cases op with
        | find z n =>
          cases z with
          | true =>
            simp only [RegOp.run, findClass_find inv] at h1
            cases h1; exact ⟨inv, fun _ _ h => h⟩
          | false =>
            obtain ⟨r2, c, e, _, hc⟩ := findClass_create inv n
            simp only [RegOp.run, e] at h1
            cases h1; exact ⟨hc.inv, hc.keep⟩
        | declare text => exact declareLoop_mono _ _ _ inv _ h1
      have := ih step.1 h
      exact ⟨this.1, fun m c hm => this.2 m c (step.2 m c hm)⟩
    | throws e => rw [h1] at h; cases h
    | ub u => rw [h1] at h; cases h
    | diverges => rw [h1] at h; cases h

theorem RegReachable.inv {r : Registry} (h : RegReachable r) : RegInv r := by
  obtain ⟨ops, h⟩ := h
  exact (runReg_mono ops initial_inv h).1

theorem find_result {r : Registry} (inv : RegInv r) {z : Bool} {n : Str} {c : Nat}
    (h : (findClass z r n).2 = some c) :
    RegInv (findClass z r n).1 ∧ (findClass z r n).1.byName.lookup n = some c := by
  cases z with
  | true =>
    rw [findClass_find inv] at h ⊢
    exact ⟨inv, h⟩
  | false =>
    obtain ⟨r', c', e, hl, hc⟩ := findClass_create inv n
    rw [e] at h ⊢
    cases h
    exact ⟨hc.inv, hl⟩

theorem lookup_find {r : Registry} (inv : RegInv r) {n : Str} {c : Nat}
    (h : r.byName.lookup n = some c) (z : Bool) : (findClass z r n).2 = some c := by
  cases z with
  | true => rw [findClass_find inv]; exact h
  | false =>
    obtain ⟨r', c', e, hl, hc⟩ := findClass_create inv n
    rw [e]
    have := hc.keep n c h
    rw [hl] at this
    exact this

theorem afterLastSlash_spec (n : Str) :
    '/' ∉ afterLastSlash n ∧ (afterLastSlash n = n ∨ ∃ pre, n = pre ++ '/' :: afterLastSlash n) := by
  unfold afterLastSlash
  have key : ∀ m : Str, '/' ∉ m.takeWhile (· ≠ '/') ∧
      (m.takeWhile (· ≠ '/') = m ∨ ∃ post, m = m.takeWhile (· ≠ '/') ++ '/' :: post) := by
    intro m
    induction m with
    | nil => simp
    | cons c m ih =>
      by_cases hc : c = '/'
      · subst hc; simp
      · have e : (c :: m).takeWhile (· ≠ '/') = c :: m.takeWhile (· ≠ '/') := by
          rw [List.takeWhile_cons, if_pos (by simpa using hc)]
        rw [e]
        refine ⟨?_, ?_⟩
        · simp only [List.mem_cons, not_or]; exact ⟨fun h => hc h.symm, ih.1⟩
        · rcases ih.2 with h | ⟨post, h⟩
          · left; rw [h]
          · right; refine ⟨post, ?_⟩; simp only [List.cons_append]; rw [← h]
  have := key n.reverse
  refine ⟨by simpa using this.1, ?_⟩
  rcases this.2 with h | ⟨post, h⟩
  · left; rw [h]; simp
  · right
    refine ⟨post.reverse, ?_⟩
    have := congrArg List.reverse h
    rw [List.reverse_reverse] at this
    conv => lhs; rw [this]
    simp

/-! ### C12 -/

/-- C12. Once `FindClass(n)` has returned class `c`, it returns `c` after every further
history, whether or not it may create classes. -/
theorem find_stable {r : Registry} (hr : RegReachable r) (z : Bool) (n : Str) (c : Nat)
    (h : (findClass z r n).2 = some c) (ops : List RegOp) (r' : Registry)
    (hops : runReg (findClass z r n).1 ops = .ok r') (z' : Bool) :
    (findClass z' r' n).2 = some c := by
  have h1 := find_result hr.inv h
  have h2 := runReg_mono ops h1.1 hops
  exact lookup_find h2.1 (h2.2 n c h1.2) z'

/-- A class lookup that may create always returns a class. -/
theorem find_total {r : Registry} (hr : RegReachable r) (n : Str) :
    ∃ c, (findClass false r n).2 = some c := by
  obtain ⟨r', c, e, _, _⟩ := findClass_create hr.inv n
  exact ⟨c, by rw [e]⟩

example : RegReachable Registry.initial := ⟨[], rfl⟩
example : ∃ c, (findClass false Registry.initial "a/B$C".toList).2 = some c ∧
    ∃ r', runReg (findClass false Registry.initial "a/B$C".toList).1
      [.find false "a/B".toList, .find true "q".toList, .declare "(I[Lx/Y;)V".toList] = .ok r' := by
  have hr : RegReachable Registry.initial := ⟨[], rfl⟩
  obtain ⟨r1, c, e, _, _⟩ := findClass_create hr.inv "a/B$C".toList
  refine ⟨c, by rw [e], ?_⟩
  have := declare_sig (params := [.prim .int, .arr (.cls "x/Y".toList)]) (ret := none) (by decide) (by simp)
  simp only [show renderSig [.prim .int, .arr (.cls "x/Y".toList)] none = "(I[Lx/Y;)V".toList by decide] at this
  simp only [runReg, RegOp.run, Res.bind, this]
  exact ⟨_, rfl⟩

/-! ### C13 -/

/-- C13, separation. If `FindClass(n)` returned `c` and at any later time `FindClass(m)`
returns `c`, then `m = n`. -/
theorem find_separates {r : Registry} (hr : RegReachable r) (z : Bool) (n : Str) (c : Nat)
    (h : (findClass z r n).2 = some c) (ops : List RegOp) (r' : Registry)
    (hops : runReg (findClass z r n).1 ops = .ok r') (z' : Bool) (m : Str)
    (h' : (findClass z' r' m).2 = some c) : m = n := by
  have h1 := find_result hr.inv h
  have h2 := runReg_mono ops h1.1 hops
  have h3 := find_result h2.1 h'
  have hn := find_result h2.1 (lookup_find h2.1 (h2.2 n c h1.2) z')
  have hkeep : (findClass z' r' m).1.byName.lookup n = some c := by
    have hl := h2.2 n c h1.2
    cases z' with
    | true => rw [findClass_find h2.1]; exact hl
    | false =>
      obtain ⟨r2, c2, e, _, hc⟩ := findClass_create h2.1 m
      rw [e]; exact hc.keep n c hl
  obtain ⟨d1, e1, p1, _⟩ := lookup_record h3.1 h3.2
  obtain ⟨d2, e2, p2, _⟩ := lookup_record h3.1 hkeep
  rw [e1] at e2
  cases e2
  rw [← p1, ← p2]

theorem lookup_simple {r : Registry} (inv : RegInv r) {n : Str} {c : Nat} (h : r.byName.lookup n = some c) :
    ∃ cd, r.cls[c]? = some cd ∧ cd.nativeprefix = n ∧ SimpleName n cd.name := by
  obtain ⟨cd, e, p, q⟩ := lookup_record inv h
  refine ⟨cd, e, p, ?_⟩
  unfold SimpleName
  by_cases hb : n.head? = some '['
  · rw [if_pos hb] at q ⊢
    have := afterLastSlash_spec n
    rw [q]
    exact this
  · rw [if_neg hb] at q ⊢
    have hg := parts_good n
    obtain hnil | ⟨i, x, hx⟩ := snoc_cases (parts n).2
    · exact absurd hnil hg.2.2
    · rw [hx] at q
      simp only [List.getLast?_append, List.getLast?_singleton, Option.some_or, Option.getD_some] at q
      rw [q]
      have hgx := hg.2.1 x (by rw [hx]; simp)
      refine ⟨hgx.1, hgx.2, ?_⟩
      have hj := joinName_parts n
      rw [show parts n = ((parts n).1, (parts n).2) from rfl, hx] at hj
      by_cases hi : i = []
      · subst hi
        simp only [joinName, List.nil_append, joinCls] at hj
        obtain hp | ⟨j, y, hy⟩ := snoc_cases (parts n).1
        · left; rw [hp] at hj; simpa [joinNs] using hj
        · right; left
          rw [hy] at hj
          exact ⟨joinNs j ++ y, hj.symm.trans (by simp [joinNs])⟩
      · right; right
        simp only [joinName, joinCls_snoc _ hi] at hj
        exact ⟨joinNs (parts n).1 ++ joinCls i, hj.symm.trans (by simp)⟩

/-- C13, reported name. After any later history the class returned for `n` has the path `n`
and its simple name. -/
theorem find_names {r : Registry} (hr : RegReachable r) (z : Bool) (n : Str) (c : Nat)
    (h : (findClass z r n).2 = some c) (ops : List RegOp) (r' : Registry)
    (hops : runReg (findClass z r n).1 ops = .ok r') :
    ∃ cd, r'.cls[c]? = some cd ∧ cd.nativeprefix = n ∧ SimpleName n cd.name := by
  have h1 := find_result hr.inv h
  have h2 := runReg_mono ops h1.1 hops
  exact lookup_simple h2.1 (h2.2 n c h1.2)

example : SimpleName "java/lang/Outer$Inner".toList "Inner".toList :=
  ⟨by decide, by rw [if_neg (by decide)]; exact ⟨by decide, .inr (.inr ⟨"java/lang/Outer".toList, by decide⟩)⟩⟩

/-- Simple names are unique, so `find_names` fixes the reported name. -/
theorem simpleName_unique {n s t : Str} (hs : SimpleName n s) (ht : SimpleName n t) : s = t := by
  have key : ∀ {a b p q : Str} {c d : Char} (P : Char → Prop), P c → P d → (∀ x ∈ a, ¬ P x) →
      (∀ x ∈ b, ¬ P x) → p ++ c :: a = q ++ d :: b → a = b := by
    intro a b p q c d P hc hd ha hb h
    rcases List.append_eq_append_iff.1 h with ⟨w, h1, h2⟩ | ⟨w, h1, h2⟩
    · cases w with
      | nil => simp at h2; exact h2.2
      | cons y w =>
        simp only [List.cons_append, List.cons.injEq] at h2
        exact absurd hd (ha d (by rw [h2.2]; simp))
    · cases w with
      | nil => simp at h2; exact h2.2.symm
      | cons y w =>
        simp only [List.cons_append, List.cons.injEq] at h2
        exact absurd hc (hb c (by rw [h2.2]; simp))
  have whole : ∀ {a p : Str} {c : Char} (P : Char → Prop), P c → (∀ x ∈ n, ¬ P x) → n = p ++ c :: a → False := by
    intro a p c P hc hn h
    exact hn c (by rw [h]; simp) hc
  unfold SimpleName at hs ht
  by_cases hb : n.head? = some '['
  · rw [if_pos hb] at hs ht
    have hsP : ∀ x ∈ s, ¬ (x = '/') := fun x hx h => hs.1 (h ▸ hx)
    have htP : ∀ x ∈ t, ¬ (x = '/') := fun x hx h => ht.1 (h ▸ hx)
    rcases hs.2 with rfl | ⟨p, hp⟩ <;> rcases ht.2 with rfl | ⟨q, hq⟩
    · rfl
    · exact (whole (· = '/') rfl hsP hq).elim
    · exact (whole (· = '/') rfl htP hp).elim
    · exact key (· = '/') rfl rfl hsP htP (hp.symm.trans hq)
  · rw [if_neg hb] at hs ht
    have hsP : ∀ x ∈ s, ¬ (x = '/' ∨ x = '$') := fun x hx h => h.elim (fun h => hs.1 (h ▸ hx)) (fun h => hs.2.1 (h ▸ hx))
    have htP : ∀ x ∈ t, ¬ (x = '/' ∨ x = '$') := fun x hx h => h.elim (fun h => ht.1 (h ▸ hx)) (fun h => ht.2.1 (h ▸ hx))
    rcases hs.2.2 with rfl | ⟨p, hp⟩ | ⟨p, hp⟩ <;> rcases ht.2.2 with rfl | ⟨q, hq⟩ | ⟨q, hq⟩
    · rfl
    · exact (whole (fun x => x = '/' ∨ x = '$') (.inl rfl) hsP hq).elim
    · exact (whole (fun x => x = '/' ∨ x = '$') (.inr rfl) hsP hq).elim
    · exact (whole (fun x => x = '/' ∨ x = '$') (.inl rfl) htP hp).elim
    · exact key (fun x => x = '/' ∨ x = '$') (.inl rfl) (.inl rfl) hsP htP (hp.symm.trans hq)
    · exact key (fun x => x = '/' ∨ x = '$') (.inl rfl) (.inr rfl) hsP htP (hp.symm.trans hq)
    · exact (whole (fun x => x = '/' ∨ x = '$') (.inr rfl) htP hp).elim
    · exact key (fun x => x = '/' ∨ x = '$') (.inr rfl) (.inl rfl) hsP htP (hp.symm.trans hq)
    · exact key (fun x => x = '/' ∨ x = '$') (.inr rfl) (.inr rfl) hsP htP (hp.symm.trans hq)

/-! ### C14 -/

/-- C14, no effect. A class lookup that may not create leaves the registry unchanged. -/
theorem query_no_effect {r : Registry} (hr : RegReachable r) (n : Str) :
    (findClass true r n).1 = r := by
  rw [findClass_find hr.inv]

theorem requests_contents {ops : List RegOp} {names : List Str} (h : Requests ops names) :
    ∀ {r : Registry}, RegInv r → ∃ r', runReg r ops = .ok r' ∧ RegInv r' ∧
      ∀ m, (r'.byName.lookup m).isSome ↔ (r.byName.lookup m).isSome ∨ ∃ n ∈ names, Encloses m n := by
  induction h with
  | nil => intro r inv; exact ⟨r, rfl, inv, by simp⟩
  | query n _ ih =>
    intro r inv
    obtain ⟨r', h1, h2, h3⟩ := ih inv
    exact ⟨r', by simp only [runReg, RegOp.run, findClass_find inv]; exact h1, h2, h3⟩
  | create n _ ih =>
    intro r inv
    obtain ⟨r1, c, e, _, hc⟩ := findClass_create inv n
    obtain ⟨r', h1, h2, h3⟩ := ih hc.inv
    refine ⟨r', by simp only [runReg, RegOp.run, e]; exact h1, h2, ?_⟩
    intro m
    rw [h3, hc.new, or_assoc]
    simp
  | signature params ret hp hv _ ih =>
    intro r inv
    have hs := createAll_spec (sigClassNames params ret) inv
    obtain ⟨r', h1, h2, h3⟩ := ih hs.1
    refine ⟨r', by simp only [runReg, RegOp.run, declare_sig hp hv]; exact h1, h2, ?_⟩
    intro m
    rw [h3, hs.2.2, or_assoc]
    apply or_congr Iff.rfl
    simp only [List.mem_append, or_and_right, exists_or]
  | type t hv _ ih =>
    intro r inv
    have hs := createAll_spec t.classNames inv
    obtain ⟨r', h1, h2, h3⟩ := ih hs.1
    refine ⟨r', by simp only [runReg, RegOp.run, declare_ty hv]; exact h1, h2, ?_⟩
    intro m
    rw [h3, hs.2.2, or_assoc]
    apply or_congr Iff.rfl
    simp only [List.mem_append, or_and_right, exists_or]

/-- C14/C15, contents. After a history that requested `names`, a lookup-only query for `m`
succeeds exactly when `m` is, or encloses, one of the built-in classes or of `names`. -/
theorem query_exact {ops : List RegOp} {names : List Str} (h : Requests ops names) :
    ∃ r, runReg Registry.initial ops = .ok r ∧
      ∀ m, (findClass true r m).2.isSome ↔
        ∃ n ∈ builtinClasses.map String.toList ++ names, Encloses m n := by
  obtain ⟨r, h1, h2, h3⟩ := requests_contents h initial_inv
  refine ⟨r, h1, ?_⟩
  intro m
  rw [findClass_find h2, h3, initial_eq, (createAll_spec _ empty_inv).2.2]
  simp only [List.mem_append, or_and_right, exists_or]
  simp [Registry.empty]

example : Requests [.find false "a/B$C".toList, .find true "zz".toList, .declare "(Lx/Y;)I".toList]
    ["a/B$C".toList, "x/Y".toList] :=
  .create _ (.query _ (.signature [.cls "x/Y".toList] (some (.prim .int)) (by decide) (by simp; trivial) .nil))
example : Encloses "a/B".toList "a/B$C".toList := .inr ⟨by decide, "C".toList, by decide, by decide⟩
/-- Not every prefix encloses: `a` is a package. -/
example : ¬ Encloses "a".toList "a/B$C".toList := by
  rintro (h | ⟨_, inner, h, _⟩)
  · exact absurd h (by decide)
  · exact absurd (List.cons.inj (List.cons.inj h).2).1 (by decide)

/-! ### C15 -/

/-- C15, one step. Creating `n` makes exactly `n` and its enclosing classes available in
addition to what was there. -/
theorem create_exact {r : Registry} (hr : RegReachable r) (n m : Str) :
    (findClass true (findClass false r n).1 m).2.isSome ↔
      (findClass true r m).2.isSome ∨ Encloses m n := by
  obtain ⟨r', c, e, hl, hc⟩ := findClass_create hr.inv n
  rw [e, findClass_find hc.inv, findClass_find hr.inv]
  exact hc.new m

/-- C15, VM map. The VM's name-to-class map and the lookup agree on every name. -/
theorem map_agrees {r : Registry} (hr : RegReachable r) (n : Str) :
    r.byName.lookup n = (findClass true r n).2 := by
  rw [findClass_find hr.inv]

/-! ### C10 (declaration part) -/

/-- C10. Declaring a well-formed signature succeeds and makes exactly the classes named in it
and their enclosing classes available in addition. -/
theorem declare_exact {r : Registry} (hr : RegReachable r) (params : List Ty) (ret : Option Ty)
    (hp : ∀ t ∈ params, t.Valid) (hv : ∀ t, ret = some t → t.Valid) :
    ∃ r', declare r (renderSig params ret) = .ok r' ∧
      (∀ m, (findClass true r' m).2.isSome ↔
        (findClass true r m).2.isSome ∨ ∃ n ∈ sigClassNames params ret, Encloses m n) ∧
      (∀ m c, (findClass true r m).2 = some c → (findClass true r' m).2 = some c) := by
  have hs := createAll_spec (sigClassNames params ret) hr.inv
  refine ⟨_, declare_sig hp hv r, ?_, ?_⟩
  · intro m
    rw [findClass_find hs.1, findClass_find hr.inv]
    exact hs.2.2 m
  · intro m c h
    rw [findClass_find hr.inv] at h
    rw [findClass_find hs.1]
    exact hs.2.1 m c h

/-- Likewise for a field type. -/
theorem declare_type_exact {r : Registry} (hr : RegReachable r) (t : Ty) (hv : t.Valid) :
    ∃ r', declare r t.render = .ok r' ∧
      (∀ m, (findClass true r' m).2.isSome ↔
        (findClass true r m).2.isSome ∨ ∃ n ∈ t.classNames, Encloses m n) ∧
      (∀ m c, (findClass true r m).2 = some c → (findClass true r' m).2 = some c) := by
  have hs := createAll_spec t.classNames hr.inv
  refine ⟨_, declare_ty hv r, ?_, ?_⟩
  · intro m
    rw [findClass_find hs.1, findClass_find hr.inv]
    exact hs.2.2 m
  · intro m c h
    rw [findClass_find hr.inv] at h
    rw [findClass_find hs.1]
    exact hs.2.1 m c h

/-- The restriction to well-formed signatures matters: an unterminated class name makes
`Declare` read past the end of the text, in every state. -/
theorem declare_unterminated_ub (r : Registry) (params : List Ty) (hp : ∀ t ∈ params, t.Valid)
    (name : Str) (hn : ';' ∉ name) :
    declare r ('(' :: (params.flatMap Ty.render ++ 'L' :: name)) = .ub .outOfBounds := by
  unfold declare
  have h0 := declareLoop_other r [] (params.flatMap Ty.render ++ 'L' :: name) (c := '(') (by decide)
  simp only [List.nil_append, List.length_nil, Nat.zero_add] at h0
  rw [h0]
  have h1 := declareLoop_tys params hp r ['('] ('L' :: name)
  simp only [List.cons_append, List.nil_append, List.length_cons, List.length_nil, Nat.zero_add] at h1
  rw [h1, Nat.add_comm 1]
  generalize hpre : '(' :: params.flatMap Ty.render = pre
  have hlen : (params.flatMap Ty.render).length + 1 = pre.length := by rw [← hpre]; simp
  have htext : '(' :: (params.flatMap Ty.render ++ 'L' :: name) = pre ++ 'L' :: name := by rw [← hpre]; simp
  rw [hlen, htext, declareLoop, if_neg (by simp)]
  have hu := chAt_append pre 'L' name
  have hf : findFrom (pre ++ 'L' :: name) pre.length ';' = (pre ++ 'L' :: name).length := by
    have h1 := findFrom_le (s := pre ++ 'L' :: name) (cur := pre.length) ';' (by simp)
    have h2 := findFrom_lt_iff (s := pre ++ 'L' :: name) (cur := pre.length) ';' (by simp)
    rw [List.drop_left] at h2
    have : ¬ (findFrom (pre ++ 'L' :: name) pre.length ';' < (pre ++ 'L' :: name).length) := by
      rw [h2]; simp [hn]
    omega
  split
  · rename_i d hd
    rw [hu] at hd; cases hd
    rw [if_pos rfl, hf, declareLoop, if_neg (by omega)]
    have hu2 : chAt (pre ++ 'L' :: name) ((pre ++ 'L' :: name).length + 1) = .ub .outOfBounds := by
      unfold chAt
      rw [dif_neg (by omega), if_neg (by omega)]
    split
    · rename_i d hd; rw [hu2] at hd; cases hd
    · rename_i d hd; rw [hu2] at hd; cases hd
    · rename_i d hd; rw [hu2] at hd; cases hd; rfl
    · rename_i hd; rw [hu2] at hd; cases hd
  all_goals (rename_i hd; rw [hu] at hd; cases hd)

example : ';' ∉ "java/lang/String".toList := by decide

end Jnivm
