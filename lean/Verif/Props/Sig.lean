import Verif.Lemmas.Sig
/-!
Properties of method signatures (C07, C08, C09, C11).
-/
namespace Jnivm
open Spec

/-- `[[Ljava/lang/String;` -/
def demoTy : Ty := .arr (.arr (.cls "java/lang/String".toList))
/-- Parameters `(I[[Ljava/lang/String;J)` -/
def demoParams : List Ty := [.prim .int, demoTy, .prim .long]

/-! ### C07 -/

/-- C07. At a position where the text continues with the descriptor of `t`, whatever
precedes and follows it, scanning one type advances over exactly that descriptor. -/
theorem skip_exact (t : Ty) (ht : t.Valid) (before after : List Char) :
    skipJNIType (before ++ t.render ++ after) before.length
      = .ok (before.length + t.render.length) :=
  skip_render t ht before after

example : demoTy.Valid ∧ ("(I".toList ++ demoTy.render ++ "J)V".toList) = "(I[[Ljava/lang/String;J)V".toList := by
  decide

/-! ### C08 -/

/-- C08. For every signature `(params)ret` and every argument list that passes `vals` for
`params` (followed by anything), the decoder produces exactly `vals` and leaves exactly the
extra arguments. -/
theorem varargs_delivered (d2f : BitVec 64 → BitVec 32) (params : List Ty) (ret : Option Ty)
    (hv : ∀ t ∈ params, t.Valid) (args extra : List CArg) (vals : List (BitVec 64))
    (hp : Passes d2f params args vals) :
    jvaluesFromValist d2f (renderSig params ret) (args ++ extra) = .ok (vals, extra) := by
  unfold jvaluesFromValist renderSig
  rw [show chAt ('(' :: (params.flatMap Ty.render ++ ')' :: renderRet ret)) 0 = .ok '(' from
    chAt_append [] '(' _]
  simp only [Res.ok_bind]
  rw [if_neg (by simp)]
  have h1 := jvaluesLoop_params d2f hp hv ['('] (')' :: renderRet ret) extra []
  have e : ['('] ++ params.flatMap Ty.render ++ ')' :: renderRet ret
      = '(' :: (params.flatMap Ty.render ++ ')' :: renderRet ret) := by simp
  rw [e] at h1
  rw [show ['('].length = 1 from rfl] at h1
  rw [h1, ← e]
  have h2 := jvaluesLoop_stop d2f (['('] ++ params.flatMap Ty.render) (renderRet ret) extra
    ([] ++ vals)
  rw [List.length_append] at h2
  rw [show ['('].length = 1 from rfl] at h2
  rw [h2]
  rfl

example : (∀ t ∈ demoParams, t.Valid) ∧
    renderSig demoParams (some (.prim .boolean)) = "(I[[Ljava/lang/String;J)Z".toList := by decide
example : Passes (fun _ => 0) demoParams [.int 7, .obj 0x1000, .long 9] [7, 0x1000, 9] :=
  .cons rfl (.cons rfl (.cons rfl .nil))

/-- C08. The same for a signature that ends behind its parameters, without `)`. -/
theorem varargs_unclosed (d2f : BitVec 64 → BitVec 32) (params : List Ty) (hv : ∀ t ∈ params, t.Valid)
    (args extra : List CArg) (vals : List (BitVec 64)) (hp : Passes d2f params args vals) :
    jvaluesFromValist d2f ('(' :: params.flatMap Ty.render) (args ++ extra) = .ok (vals, extra) := by
  unfold jvaluesFromValist
  rw [show chAt ('(' :: params.flatMap Ty.render) 0 = .ok '(' from chAt_append [] '(' _]
  simp only [Res.ok_bind]
  rw [if_neg (by simp)]
  have h1 := jvaluesLoop_params d2f hp hv ['('] [] extra []
  have e : ['('] ++ params.flatMap Ty.render ++ [] = '(' :: params.flatMap Ty.render := by simp
  rw [e] at h1
  rw [show ['('].length = 1 from rfl] at h1
  have e2 : 1 + (params.flatMap Ty.render).length = ('(' :: params.flatMap Ty.render).length := by
    simp [Nat.add_comm]
  rw [h1, e2, jvaluesLoop]
  have hc := chAt_end ('(' :: params.flatMap Ty.render)
  split
  · rename_i c h
    rw [hc, Res.ok.injEq] at h
    subst h
    rw [if_neg (by decide), if_pos rfl]
    rfl
  all_goals (rename_i h; rw [hc] at h; cases h)

example : (∀ t ∈ demoParams, t.Valid) ∧ '(' :: demoParams.flatMap Ty.render = "(I[[Ljava/lang/String;J".toList := by decide

/-- C08. Nothing else is delivered: if the arguments do not begin with one of the promoted type of each
parameter, reading them is undefined. -/
theorem varargs_refused (d2f : BitVec 64 → BitVec 32) (params : List Ty) (ret : Option Ty)
    (hv : ∀ t ∈ params, t.Valid) (args : List CArg)
    (hp : ¬ ∃ as extra vals, args = as ++ extra ∧ Passes d2f params as vals) :
    jvaluesFromValist d2f (renderSig params ret) args = .ub .badVaArg := by
  unfold jvaluesFromValist renderSig
  rw [show chAt ('(' :: (params.flatMap Ty.render ++ ')' :: renderRet ret)) 0 = .ok '(' from
    chAt_append [] '(' _]
  simp only [Res.ok_bind]
  rw [if_neg (by simp)]
  have h1 := jvaluesLoop_refused d2f params hv args hp ['('] (')' :: renderRet ret) []
  have e : ['('] ++ params.flatMap Ty.render ++ ')' :: renderRet ret
      = '(' :: (params.flatMap Ty.render ++ ')' :: renderRet ret) := by simp
  rw [e] at h1
  exact h1

-- an int where a long is expected, and a missing argument
example : (∀ t ∈ demoParams, t.Valid) ∧
    ¬ (∃ as extra vals, [.int 7, .obj 0x1000, .int 9] = as ++ extra ∧ Passes (fun _ => 0) demoParams as vals) ∧
    ¬ (∃ as extra vals, [CArg.int 7] = as ++ extra ∧ Passes (fun _ => 0) demoParams as vals) := by
  refine ⟨by decide, ?_, ?_⟩
  · rintro ⟨as, extra, vals, he, hp⟩
    cases hp with
    | cons _ hp => cases hp with
      | cons _ hp => cases hp with
        | cons h3 hp =>
          simp only [List.cons_append, List.cons.injEq] at he
          rw [← he.2.2.1] at h3
          cases h3
  · rintro ⟨as, extra, vals, he, hp⟩
    cases hp with
    | cons _ hp => cases hp with
      | cons _ hp => simp at he

/-- C08, outside of well formed signatures: a character that begins no type (`V` among them) counts as a
parameter with the value zero, for which no argument is taken. -/
theorem varargs_stray (d2f : BitVec 64 → BitVec 32) (before after : List Ty) (c : Char) (ret : Option Ty)
    (hc : c ∉ "ZBSCIJFD[L)".toList) (hb : ∀ t ∈ before, t.Valid) (ha : ∀ t ∈ after, t.Valid)
    (args more extra : List CArg) (vals vals' : List (BitVec 64))
    (hp : Passes d2f before args vals) (hp' : Passes d2f after more vals') :
    jvaluesFromValist d2f
      ('(' :: (before.flatMap Ty.render ++ c :: (after.flatMap Ty.render ++ ')' :: renderRet ret)))
      (args ++ (more ++ extra)) = .ok (vals ++ 0 :: vals', extra) := by
  unfold jvaluesFromValist
  rw [show chAt ('(' :: (before.flatMap Ty.render ++ c :: (after.flatMap Ty.render ++ ')' :: renderRet ret))) 0
    = .ok '(' from chAt_append [] '(' _]
  simp only [Res.ok_bind]
  rw [if_neg (by simp)]
  have h1 := jvaluesLoop_params d2f hp hb ['('] (c :: (after.flatMap Ty.render ++ ')' :: renderRet ret))
    (more ++ extra) []
  have e : ['('] ++ before.flatMap Ty.render ++ c :: (after.flatMap Ty.render ++ ')' :: renderRet ret)
      = '(' :: (before.flatMap Ty.render ++ c :: (after.flatMap Ty.render ++ ')' :: renderRet ret)) := by simp
  rw [e] at h1
  rw [show ['('].length = 1 from rfl] at h1
  rw [h1, ← e]
  have hcc := chAt_append (['('] ++ before.flatMap Ty.render) c (after.flatMap Ty.render ++ ')' :: renderRet ret)
  rw [List.length_append, show ['('].length = 1 from rfl] at hcc
  simp only [show "ZBSCIJFD[L)".toList = ['Z', 'B', 'S', 'C', 'I', 'J', 'F', 'D', '[', 'L', ')'] from rfl,
    List.mem_cons, List.not_mem_nil, or_false, not_or] at hc
  have hs : jvalueStep d2f (['('] ++ before.flatMap Ty.render ++ c :: (after.flatMap Ty.render ++ ')' :: renderRet ret))
      (1 + (before.flatMap Ty.render).length) c (more ++ extra) =
      .ok (0, more ++ extra, 1 + (before.flatMap Ty.render).length + 1) := by
    unfold jvalueStep
    split <;> first | rfl | simp at hc
  rw [jvaluesLoop]
  split
  · rename_i c' h'
    rw [hcc, Res.ok.injEq] at h'
    subst h'
    rw [if_neg hc.2.2.2.2.2.2.2.2.2.2, if_neg (by
      simp only [List.length_append, List.length_cons, List.length_nil]; omega)]
    split
    · rename_i v rest next h'
      rw [hs, Res.ok.injEq, Prod.mk.injEq, Prod.mk.injEq] at h'
      obtain ⟨rfl, rfl, rfl⟩ := h'
      have h2 := jvaluesLoop_params d2f hp' ha (['('] ++ before.flatMap Ty.render ++ [c])
        (')' :: renderRet ret) extra ([] ++ vals ++ [0])
      have e2 : ['('] ++ before.flatMap Ty.render ++ [c] ++ after.flatMap Ty.render ++ ')' :: renderRet ret
          = ['('] ++ before.flatMap Ty.render ++ c :: (after.flatMap Ty.render ++ ')' :: renderRet ret) := by simp
      rw [e2, List.length_append, List.length_append, show ['('].length = 1 from rfl,
        show [c].length = 1 from rfl] at h2
      rw [h2]
      have h3 := jvaluesLoop_stop d2f (['('] ++ before.flatMap Ty.render ++ [c] ++ after.flatMap Ty.render)
        (renderRet ret) extra ([] ++ vals ++ [0] ++ vals')
      rw [e2] at h3
      simp only [List.length_append, show ['('].length = 1 from rfl, show [c].length = 1 from rfl] at h3
      rw [h3]
      simp
    all_goals (rename_i h'; rw [hs] at h'; cases h')
  all_goals (rename_i h'; rw [hcc] at h'; cases h')

-- "(IVJ)Z"
example : 'V' ∉ "ZBSCIJFD[L)".toList ∧ Passes (fun _ => 0) [.prim .int] [.int 7] [7] ∧
    Passes (fun _ => 0) [.prim .long] [.long 9] [9] := ⟨by decide, .cons rfl .nil, .cons rfl .nil⟩

/-- C08, count. As many values as parameters. -/
theorem varargs_arity (d2f : BitVec 64 → BitVec 32) (params : List Ty) (ret : Option Ty)
    (hv : ∀ t ∈ params, t.Valid) (args : List CArg) (vals : List (BitVec 64))
    (hp : Passes d2f params args vals) :
    ∃ out, jvaluesFromValist d2f (renderSig params ret) args = .ok (out, []) ∧
      out.length = params.length := by
  refine ⟨vals, ?_, ?_⟩
  · have := varargs_delivered d2f params ret hv args [] vals hp
    simpa using this
  · clear hv
    induction hp with
    | nil => rfl
    | cons _ _ ih => simp [ih]

/-! ### C09 -/

/-- C09, the general unsafe shape: after any well-formed parameters an array whose element
type is cut off by the end of the text. -/
theorem signature_cut_array_ub (d2f : BitVec 64 → BitVec 32) (params : List Ty)
    (hv : ∀ t ∈ params, t.Valid) (args : List CArg) (vals : List (BitVec 64))
    (hp : Passes d2f params args vals) (p : BitVec 64) (cut : List Char) (hcut : CutType cut) :
    jvaluesFromValist d2f ('(' :: (params.flatMap Ty.render ++ '[' :: cut)) (args ++ [.obj p])
      = .ub .outOfBounds := by
  unfold jvaluesFromValist
  rw [show chAt ('(' :: (params.flatMap Ty.render ++ '[' :: cut)) 0 = .ok '(' from
    chAt_append [] '(' _]
  simp only [Res.ok_bind]
  rw [if_neg (by simp)]
  have h1 := jvaluesLoop_params d2f hp hv ['('] ('[' :: cut) [.obj p] []
  have e : ['('] ++ params.flatMap Ty.render ++ '[' :: cut
      = '(' :: (params.flatMap Ty.render ++ '[' :: cut) := by simp
  rw [e, show ['('].length = 1 from rfl] at h1
  rw [h1, ← e]
  have hl : 1 + (params.flatMap Ty.render).length = (['('] ++ params.flatMap Ty.render).length := by
    simp only [List.length_append]; rfl
  rw [hl]
  generalize ['('] ++ params.flatMap Ty.render = pre
  have hc := chAt_append pre '[' cut
  obtain ⟨r, hr, hr1, -⟩ := skip_result (pre ++ '[' :: cut) (pre.length + 1) (by simp)
  have hdrop : (pre ++ '[' :: cut).drop (pre.length + 1) = cut := by
    rw [List.drop_append, List.drop_of_length_le (by omega)]
    simp
  rw [hdrop] at hr1
  have hrl := hr1 hcut
  have hlen : (pre ++ '[' :: cut).length = pre.length + cut.length + 1 := by simp; omega
  have hstep : jvalueStep d2f (pre ++ '[' :: cut) pre.length '[' [.obj p]
      = .ok (p, [], r - 1 + 1) := by
    simp only [jvalueStep]
    rw [hr]
    rfl
  rw [jvaluesLoop]
  split
  · rename_i c h
    rw [hc, Res.ok.injEq] at h
    subst h
    rw [if_neg (by decide), if_neg (by omega)]
    split
    · rename_i v rest next h
      rw [hstep, Res.ok.injEq, Prod.mk.injEq, Prod.mk.injEq] at h
      obtain ⟨rfl, rfl, rfl⟩ := h
      rw [jvaluesLoop]
      have hub : chAt (pre ++ '[' :: cut) (r - 1 + 1) = .ub .outOfBounds := by
        unfold chAt
        rw [dif_neg (by omega), if_neg (by omega)]
      split
      · rename_i h; rw [hub] at h; cases h
      · rename_i h; rw [hub] at h; cases h
      · rename_i h; rw [hub] at h; cases h; rfl
      · rename_i h; rw [hub] at h; cases h
    all_goals (rename_i h; rw [hstep] at h; cases h)
  all_goals (rename_i h; rw [hc] at h; cases h)

example : CutType "[[Ljava/lang/Str".toList := by decide

/-- C09 does not hold: the signature `([` is read past its end. -/
theorem signature_read_past_end (d2f : BitVec 64 → BitVec 32) :
    jvaluesFromValist d2f "([".toList [.obj 0] = .ub .outOfBounds :=
  signature_cut_array_ub d2f [] (by simp) [] [] .nil 0 [] trivial

/-- C09, partial. A text in which every `[` is followed by a complete type is never read
past its end, however malformed it is otherwise and whatever arguments are passed.
Missing for the full claim: texts with a cut array element type. -/
theorem signature_inside_partial (d2f : BitVec 64 → BitVec 32) (sig : List Char)
    (hcut : ∀ pre post, sig = pre ++ '[' :: post → ¬ CutType post) (args : List CArg) :
    jvaluesFromValist d2f sig args ≠ .ub .outOfBounds := by
  unfold jvaluesFromValist
  obtain ⟨c, hc⟩ := chAt_ok (s := sig) (i := 0) (by omega)
  rw [hc]
  simp only [Res.ok_bind]
  by_cases h : c ≠ '('
  · rw [if_pos h]; simp
  · rw [if_neg h]
    cases sig with
    | nil =>
      rw [show chAt [] 0 = .ok '\x00' from rfl, Res.ok.injEq] at hc
      subst hc
      exact absurd (by decide) h
    | cons x xs => exact jvaluesLoop_inside d2f _ hcut 1 (by simp) args []

-- an unterminated class name, unknown letters, no closing parenthesis
example : ∀ pre post, "(Q[ILfoo".toList = pre ++ '[' :: post → ¬ CutType post := by
  intro pre post h
  match pre, h with
  | [], h => cases h
  | [_], h => cases h
  | [_, _], h => simp at h; rw [← h.2.2]; decide
  | _ :: _ :: _ :: pre, h =>
    simp at h
    have := h.2.2.2
    have hm : '[' ∈ ['I', 'L', 'f', 'o', 'o'] := by rw [this]; simp
    simp at hm

/-! ### C11 -/

/-- The result kind the Java type system assigns to a return type. -/
def retKind : Option Ty → CallKind
  | none => .void
  | some (.prim .boolean) => .boolean
  | some (.prim .byte) => .byte
  | some (.prim .char) => .char
  | some (.prim .short) => .short
  | some (.prim .int) => .int
  | some (.prim .long) => .long
  | some (.prim .float) => .float
  | some (.prim .double) => .double
  | some (.cls _) => .object
  | some (.arr _) => .object

/-- C11. A method with signature `(params)ret` is invoked through the call of its return type,
whatever its parameters are, provided the return type's name contains no `)`. -/
theorem jinvoke_kind_partial (params : List Ty) (ret : Option Ty) (h : ')' ∉ renderRet ret) :
    jinvokeKind (renderSig params ret) = .ok (retKind ret) := by
  unfold jinvokeKind renderSig
  rw [if_neg (by simp)]
  have e : '(' :: (params.flatMap Ty.render ++ ')' :: renderRet ret)
      = ('(' :: params.flatMap Ty.render) ++ ')' :: renderRet ret := by simp
  rw [e, findLast_append _ _ _ h]
  generalize '(' :: params.flatMap Ty.render = pre
  have hc : ∀ c t, renderRet ret = c :: t →
      chAt (pre ++ ')' :: renderRet ret) (pre.length + 1) = .ok c := by
    intro c t ht
    have := chAt_append (pre ++ [')']) c t
    rw [ht]
    simpa using this
  match ret with
  | none => simp only [hc 'V' [] rfl]; rfl
  | some (.prim p) =>
    simp only [hc p.letter [] rfl]
    cases p <;> rfl
  | some (.cls n) => simp only [hc 'L' _ rfl]; rfl
  | some (.arr t) => simp only [hc '[' _ rfl]; rfl

example : ')' ∉ renderRet (some (.cls "a/B".toList)) := by decide

/-- C11 without the proviso is false: a class name may contain `)`. -/
theorem jinvoke_kind_counterexample :
    jinvokeKind (renderSig [] (some (.cls "a)V".toList))) = .ok .void := by
  decide

/-- C11. The empty signature and unknown return letters are rejected by an exception. -/
theorem jinvoke_rejects (params : List Ty) (c : Char) (rest : List Char)
    (hr : ')' ∉ c :: rest) (hc : c ∉ "VZBSCIJFD[L".toList) :
    jinvokeKind [] = .throws (.user 0) ∧
    jinvokeKind ('(' :: (params.flatMap Ty.render ++ ')' :: c :: rest)) = .throws (.user 1) := by
  refine ⟨rfl, ?_⟩
  unfold jinvokeKind
  rw [if_neg (by simp)]
  have e : '(' :: (params.flatMap Ty.render ++ ')' :: c :: rest)
      = ('(' :: params.flatMap Ty.render) ++ ')' :: c :: rest := by simp
  rw [e, findLast_append _ _ _ hr]
  generalize '(' :: params.flatMap Ty.render = pre
  have h2 := chAt_append (pre ++ [')']) c rest
  simp only [List.append_assoc, List.singleton_append, List.length_append, List.length_cons,
    List.length_nil, Nat.zero_add] at h2
  simp only [h2, Res.ok_bind]
  rw [show "VZBSCIJFD[L".toList = ['V', 'Z', 'B', 'S', 'C', 'I', 'J', 'F', 'D', '[', 'L'] from rfl]
    at hc
  simp_all

example : ')' ∉ 'Q' :: [] ∧ 'Q' ∉ "VZBSCIJFD[L".toList := by decide

/-- The result kind named by a return type's first letter. -/
def letterKind : Char → Option CallKind
  | 'V' => some .void | 'Z' => some .boolean | 'B' => some .byte | 'S' => some .short
  | 'C' => some .char | 'I' => some .int | 'J' => some .long | 'F' => some .float
  | 'D' => some .double | '[' => some .object | 'L' => some .object
  | _ => none

theorem jinvokeKind_at (sig : List Char) (hne : sig ≠ []) (c : Char)
    (hc : chAt sig (match findLast sig ')' with | some i => i + 1 | none => 0) = .ok c) :
    jinvokeKind sig = match letterKind c with | some k => .ok k | none => .throws (.user 1) := by
  have key : ∀ c : Char,
      (if c = 'V' then pure CallKind.void
       else if c = 'Z' then pure .boolean
       else if c = 'B' then pure .byte
       else if c = 'S' then pure .short
       else if c = 'C' then pure .char
       else if c = 'I' then pure .int
       else if c = 'J' then pure .long
       else if c = 'F' then pure .float
       else if c = 'D' then pure .double
       else if c = '[' then pure .object
       else if c = 'L' then pure .object
       else (.throws (.user 1) : Res CallKind))
      = match letterKind c with | some k => .ok k | none => .throws (.user 1) := by
    intro c
    by_cases h : c ∈ ['V', 'Z', 'B', 'S', 'C', 'I', 'J', 'F', 'D', '[', 'L']
    · simp only [List.mem_cons, List.not_mem_nil, or_false] at h
      rcases h with rfl | rfl | rfl | rfl | rfl | rfl | rfl | rfl | rfl | rfl | rfl <;> rfl
    · simp only [List.mem_cons, List.not_mem_nil, or_false, not_or] at h
      have : letterKind c = none := by
        unfold letterKind
        split <;> simp_all
      rw [this]
      simp [h]
  unfold jinvokeKind
  rw [if_neg hne]
  cases h : findLast sig ')' <;> rw [h] at hc <;> simp only at hc <;> simp only [hc, Res.ok_bind] <;>
    exact key c

/-- C11, every text. The letter that decides follows the last `)`; a text that ends with `)`
is rejected; a text without `)` is decided by its first letter. -/
theorem jinvoke_exact :
    (∀ pre c rest, ')' ∉ c :: rest → jinvokeKind (pre ++ ')' :: c :: rest)
      = match letterKind c with | some k => .ok k | none => .throws (.user 1)) ∧
    (∀ pre, jinvokeKind (pre ++ [')']) = .throws (.user 1)) ∧
    (∀ c rest, ')' ∉ c :: rest → jinvokeKind (c :: rest)
      = match letterKind c with | some k => .ok k | none => .throws (.user 1)) ∧
    jinvokeKind [] = .throws (.user 0) := by
  refine ⟨?_, ?_, ?_, rfl⟩
  · intro pre c rest h
    apply jinvokeKind_at _ (by simp)
    rw [findLast_append _ _ _ h]
    have := chAt_append (pre ++ [')']) c rest
    simpa using this
  · intro pre
    rw [jinvokeKind_at _ (by simp) '\x00']
    · rfl
    · rw [findLast_append pre [] ')' (by simp)]
      have := chAt_end (pre ++ [')'])
      simpa using this
  · intro c rest h
    apply jinvokeKind_at _ (by simp)
    have : findLast (c :: rest) ')' = none := by
      unfold findLast
      have : (c :: rest).reverse.findIdx? (· == ')') = none := by
        rw [List.findIdx?_eq_none_iff]
        intro x hx
        rw [List.mem_reverse] at hx
        simp only [beq_eq_false_iff_ne, ne_eq]
        rintro rfl
        exact h hx
      rw [this]
    rw [this]
    exact chAt_append [] c rest

example : ')' ∉ 'I' :: "x".toList ∧ jinvokeKind "(I)Lx;".toList = .ok .object := by decide

end Jnivm
