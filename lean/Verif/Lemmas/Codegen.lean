import Verif.Model.Codegen
import Verif.Spec.Codegen
import Verif.Lemmas.Registry
/-! Lemmas about the code generator. -/
namespace Jnivm
open Spec

/-! ### Types -/

theorem scopeName_eq (n : Str) : scopeName n = cppName n := by
  induction n with
  | nil => rfl
  | cons c t ih =>
    have e : scopeName (c :: t) = (if c = '/' ∨ c = '$' then [':', ':'] else [c]) ++ scopeName t := by
      simp [scopeName]
    rw [e, ih, cppName]
    rfl

theorem classType_eq (fake : Bool) (n : Str) : classType fake n = cppType fake (.cls n) := by
  unfold classType cppType cppBare cppClass
  rw [scopeName_eq]
  cases fake
  · simp
  · simp only [Bool.true_and, beq_iff_eq, if_true]
    split
    · rfl
    · split
      · rfl
      · split
        · rfl
        · split
          · rfl
          · split
            · rfl
            · simp

theorem unwrapShared_wrap (t : Str) :
    unwrapShared ("std::shared_ptr<".toList ++ t ++ ">".toList) = t := by
  unfold unwrapShared
  have h1 : "std::shared_ptr<".toList.isPrefixOf ("std::shared_ptr<".toList ++ t ++ ">".toList) = true := by
    rw [List.isPrefixOf_iff_prefix, List.append_assoc]
    exact List.prefix_append _ _
  have h2 : ("std::shared_ptr<".toList ++ t ++ ">".toList).getLast? = some '>' :=
    List.getLast?_concat
  rw [h1, h2]
  simp only [Bool.true_and, beq_self_eq_true, if_true]
  have h3 : ("std::shared_ptr<".toList ++ t ++ ">".toList).drop 16 = t ++ ">".toList := by
    rw [List.append_assoc, List.drop_left' (by decide)]
  rw [h3]
  have h4 : ("std::shared_ptr<".toList ++ t ++ ">".toList).length - 17 = t.length := by
    simp
  rw [h4, List.take_left' rfl]

theorem unwrapShared_prim (fake : Bool) (p : Prim) : unwrapShared (cppPrim fake p) = cppPrim fake p := by
  cases fake <;> cases p <;> decide +kernel

theorem unwrapShared_type (fake : Bool) (t : Ty) : unwrapShared (cppType fake t) = cppBare fake t := by
  cases t with
  | prim p => exact unwrapShared_prim fake p
  | cls n => exact unwrapShared_wrap _
  | arr t => exact unwrapShared_wrap _

theorem letterType_prim (fake : Bool) (p : Prim) : letterType fake p.letter = cppPrim fake p := by
  cases fake <;> cases p <;> rfl

theorem letterArray_prim (t : Str) (p : Prim) : letterArray t p.letter = cppType true (.arr (.prim p)) := by
  cases p <;> rfl

theorem letter_ne (p : Prim) : p.letter ≠ '[' ∧ p.letter ≠ 'L' ∧ p.letter ≠ '(' ∧ p.letter ≠ ')' := by
  cases p <;> decide

/-- Unfolding at a known character. -/
theorem parseJNIType_at (fake : Bool) {s : Str} {cur : Nat} {c : Char} (h : chAt s cur = .ok c) :
    parseJNIType fake s cur =
      if c = '[' then
        (parseJNIType fake s (cur + 1)).bind fun (n, t) =>
          if !fake then .ok (n, "std::shared_ptr<jnivm::Array<".toList ++ unwrapShared t ++ ">>".toList)
          else if n - cur = 1 then (chAt s n).bind fun d => .ok (n, letterArray t d)
          else .ok (n, "std::shared_ptr<FakeJni::JArray<".toList ++ unwrapShared t ++ ">>".toList)
      else if c = 'L' then
        .ok (findFrom s (cur + 1) ';', classType fake ((s.drop (cur + 1)).take (findFrom s (cur + 1) ';' - (cur + 1))))
      else .ok (cur, letterType fake c) := by
  rw [parseJNIType]
  split
  · rename_i c' h'
    rw [h] at h'
    cases h'
    split
    · cases parseJNIType fake s (cur + 1) <;> rfl
    · rfl
  all_goals rename_i h'; rw [h] at h'; cases h'

theorem render_length_pos (t : Ty) : 0 < t.render.length := by
  cases h : t.render with
  | nil => exact absurd h (render_ne_nil t)
  | cons => simp

theorem parse_render (fake : Bool) (t : Ty) : t.Valid → ∀ (pre post : List Char),
    parseJNIType fake (pre ++ t.render ++ post) pre.length =
      .ok (pre.length + t.render.length - 1, cppType fake t) := by
  induction t with
  | prim p =>
    intro _ pre post
    have h : chAt (pre ++ (Ty.prim p).render ++ post) pre.length = .ok p.letter := by
      have := chAt_append pre p.letter post
      simpa [Ty.render] using this
    rw [parseJNIType_at fake h, if_neg (letter_ne p).1, if_neg (letter_ne p).2.1, letterType_prim]
    rfl
  | cls n =>
    intro hv pre post
    have e : pre ++ (Ty.cls n).render ++ post = pre ++ 'L' :: (n ++ ';' :: post) := by simp [Ty.render]
    rw [e]
    have h : chAt (pre ++ 'L' :: (n ++ ';' :: post)) pre.length = .ok 'L' := chAt_append pre 'L' _
    have e2 : pre ++ 'L' :: (n ++ ';' :: post) = (pre ++ ['L']) ++ n ++ ';' :: post := by simp
    have hf : findFrom (pre ++ 'L' :: (n ++ ';' :: post)) (pre.length + 1) ';' = pre.length + 1 + n.length := by
      have := findFrom_append (pre ++ ['L']) n post ';' hv
      rw [e2]
      simpa using this
    rw [parseJNIType_at fake h, if_neg (by decide), if_pos rfl, hf]
    have e3 : ((pre ++ 'L' :: (n ++ ';' :: post)).drop (pre.length + 1)).take (pre.length + 1 + n.length - (pre.length + 1)) = n := by
      rw [e2, List.append_assoc, List.drop_left' (by simp), show pre.length + 1 + n.length - (pre.length + 1) = n.length by omega,
        List.take_left' rfl]
    rw [e3, classType_eq]
    have : pre.length + (Ty.cls n).render.length - 1 = pre.length + 1 + n.length := by
      simp only [Ty.render, List.length_cons, List.length_append, List.length_nil]; omega
    rw [this]
  | arr t ih =>
    intro hv pre post
    have e : pre ++ (Ty.arr t).render ++ post = pre ++ '[' :: (t.render ++ post) := by simp [Ty.render]
    have e2 : pre ++ '[' :: (t.render ++ post) = (pre ++ ['[']) ++ t.render ++ post := by simp
    rw [e]
    have h : chAt (pre ++ '[' :: (t.render ++ post)) pre.length = .ok '[' := chAt_append pre '[' _
    have hi := ih hv (pre ++ ['[']) post
    rw [← e2] at hi
    rw [show (pre ++ ['[']).length = pre.length + 1 by simp] at hi
    rw [parseJNIType_at fake h, if_pos rfl, hi, Res.bind_ok]
    have hl : pre.length + (Ty.arr t).render.length - 1 = pre.length + 1 + t.render.length - 1 := by
      simp only [Ty.render, List.length_cons]; omega
    rw [hl]
    simp only
    cases fake
    · rw [if_pos (by rfl), unwrapShared_type]
      congr 2
      cases t <;> simp [cppType, cppBare]
    · rw [if_neg (by decide)]
      have hp := render_length_pos t
      by_cases hn : pre.length + 1 + t.render.length - 1 - pre.length = 1
      · rw [if_pos hn]
        cases t with
        | prim p =>
          have : chAt (pre ++ '[' :: ((Ty.prim p).render ++ post)) (pre.length + 1 + (Ty.prim p).render.length - 1) = .ok p.letter := by
            have := chAt_append (pre ++ ['[']) p.letter post
            simpa [Ty.render] using this
          rw [this, Res.bind_ok, letterArray_prim]
        | cls n => simp [Ty.render] at hn; omega
        | arr t =>
          have hp := render_length_pos t
          simp [Ty.render] at hn; omega
      · rw [if_neg hn, unwrapShared_type]
        congr 2
        cases t with
        | prim p => simp [Ty.render] at hn
        | cls n => simp [cppType, cppBare]
        | arr t => simp [cppType, cppBare]

/-! ### Signatures -/

theorem cppType_ne_nil (fake : Bool) (t : Ty) : cppType fake t ≠ [] := by
  cases t with
  | prim p => cases fake <;> cases p <;> decide
  | cls n => simp [cppType]
  | arr t => simp [cppType]

/-- Unfolding at a type. -/
theorem scanLoop_type (fake : Bool) {s : Str} {cur n : Nat} {c : Char} {t : Str} (hl : cur < s.length)
    (h : chAt s cur = .ok c) (h1 : c ≠ '(') (h2 : c ≠ ')') (hp : parseJNIType fake s cur = .ok (n, t))
    (inarg : Bool) (ps : List Str) (ret : Str) :
    scanLoop fake s cur inarg ps ret =
      if t = [] then scanLoop fake s (n + 1) inarg ps ret
      else if inarg then scanLoop fake s (n + 1) inarg (ps ++ [t]) ret
      else scanLoop fake s (n + 1) inarg ps t := by
  rw [scanLoop, if_neg (by omega)]
  split
  · rename_i c' h'
    rw [h] at h'
    cases h'
    rw [if_neg h1, if_neg h2]
    split
    · rename_i n' t' hp'
      rw [hp] at hp'
      cases hp'
      rfl
    all_goals rename_i hp'; rw [hp] at hp'; cases hp'
  all_goals rename_i h'; rw [h] at h'; cases h'

theorem scanLoop_ub (fake : Bool) {s : Str} {cur : Nat} {c : Char} {u : UB} (hl : cur < s.length)
    (h : chAt s cur = .ok c) (h1 : c ≠ '(') (h2 : c ≠ ')') (hp : parseJNIType fake s cur = .ub u)
    (inarg : Bool) (ps : List Str) (ret : Str) : scanLoop fake s cur inarg ps ret = .ub u := by
  rw [scanLoop, if_neg (by omega)]
  split
  · rename_i c' h'
    rw [h] at h'
    cases h'
    rw [if_neg h1, if_neg h2]
    split
    · rename_i n' t' hp'
      rw [hp] at hp'
      cases hp'
    · rename_i hp'; rw [hp] at hp'; cases hp'
    · rename_i hp'; rw [hp] at hp'; cases hp'; rfl
    · rename_i hp'; rw [hp] at hp'; cases hp'
  all_goals rename_i h'; rw [h] at h'; cases h'

theorem scanLoop_open (fake : Bool) {s : Str} {cur : Nat} (hl : cur < s.length) (h : chAt s cur = .ok '(')
    (inarg : Bool) (ps : List Str) (ret : Str) :
    scanLoop fake s cur inarg ps ret = scanLoop fake s (cur + 1) true ps ret := by
  rw [scanLoop, if_neg (by omega)]
  split
  · rename_i c' h'
    rw [h] at h'
    cases h'
    rw [if_pos rfl]
  all_goals rename_i h'; rw [h] at h'; cases h'

theorem scanLoop_close (fake : Bool) {s : Str} {cur : Nat} (hl : cur < s.length) (h : chAt s cur = .ok ')')
    (inarg : Bool) (ps : List Str) (ret : Str) :
    scanLoop fake s cur inarg ps ret = scanLoop fake s (cur + 1) false ps ret := by
  rw [scanLoop, if_neg (by omega)]
  split
  · rename_i c' h'
    rw [h] at h'
    cases h'
    rw [if_neg (by decide), if_pos rfl]
  all_goals rename_i h'; rw [h] at h'; cases h'

theorem scanLoop_end (fake : Bool) (s : Str) (inarg : Bool) (ps : List Str) (ret : Str) :
    scanLoop fake s s.length inarg ps ret = .ok (ps, ret) := by
  rw [scanLoop, if_pos rfl]

/-- The first character of a type. -/
theorem render_head (t : Ty) : ∃ c l, t.render = c :: l ∧ c ≠ '(' ∧ c ≠ ')' := by
  cases t with
  | prim p => exact ⟨p.letter, [], rfl, (letter_ne p).2.2.1, (letter_ne p).2.2.2⟩
  | cls n => exact ⟨'L', n ++ [';'], rfl, by decide, by decide⟩
  | arr t => exact ⟨'[', t.render, rfl, by decide, by decide⟩

theorem scanLoop_render (fake : Bool) (t : Ty) (ht : t.Valid) (pre post : Str) (inarg : Bool) (ps : List Str)
    (ret : Str) :
    scanLoop fake (pre ++ t.render ++ post) pre.length inarg ps ret =
      if inarg then scanLoop fake (pre ++ t.render ++ post) (pre ++ t.render).length inarg (ps ++ [cppType fake t]) ret
      else scanLoop fake (pre ++ t.render ++ post) (pre ++ t.render).length inarg ps (cppType fake t) := by
  obtain ⟨c, l, e, h1, h2⟩ := render_head t
  have hc : chAt (pre ++ t.render ++ post) pre.length = .ok c := by
    have := chAt_append pre c (l ++ post)
    rw [e]
    simpa using this
  have hl : pre.length < (pre ++ t.render ++ post).length := by
    rw [e]; simp
  rw [scanLoop_type fake hl hc h1 h2 (parse_render fake t ht pre post), if_neg (cppType_ne_nil fake t)]
  have : pre.length + t.render.length - 1 + 1 = (pre ++ t.render).length := by
    have := render_length_pos t
    simp only [List.length_append]; omega
  rw [this]

theorem scanLoop_params (fake : Bool) (ts : List Ty) : (∀ t ∈ ts, t.Valid) → ∀ (pre post : Str) (ps : List Str)
    (ret : Str),
    scanLoop fake (pre ++ ts.flatMap Ty.render ++ post) pre.length true ps ret =
      scanLoop fake (pre ++ ts.flatMap Ty.render ++ post) (pre ++ ts.flatMap Ty.render).length true
        (ps ++ ts.map (cppType fake)) ret := by
  induction ts with
  | nil => intro _ pre post ps ret; simp
  | cons t ts ih =>
    intro hv pre post ps ret
    have e : pre ++ (t :: ts).flatMap Ty.render ++ post = pre ++ t.render ++ (ts.flatMap Ty.render ++ post) := by simp
    have e2 : pre ++ t.render ++ (ts.flatMap Ty.render ++ post) = (pre ++ t.render) ++ ts.flatMap Ty.render ++ post := by
      simp
    rw [e, scanLoop_render fake t (hv t (by simp)), if_pos rfl, e2,
      ih (fun x hx => hv x (by simp [hx])) (pre ++ t.render) post]
    simp

theorem scanSig_render (fake : Bool) (ts : List Ty) (ret : Option Ty) (hp : ∀ t ∈ ts, t.Valid)
    (hr : ∀ t, ret = some t → t.Valid) :
    scanSig fake (renderSig ts ret) = .ok (ts.map (cppType fake), cppRet fake ret) := by
  unfold scanSig
  have e0 : renderSig ts ret = ['('] ++ ts.flatMap Ty.render ++ (')' :: renderRet ret) := by simp [renderSig]
  have h0 : chAt (renderSig ts ret) 0 = .ok '(' := chAt_append [] '(' _
  rw [scanLoop_open fake (by simp [renderSig]) h0, e0]
  have := scanLoop_params fake ts hp ['('] (')' :: renderRet ret) [] []
  rw [show (['('] : Str).length = 0 + 1 from rfl] at this
  rw [this, List.nil_append]
  have h1 : chAt (['('] ++ ts.flatMap Ty.render ++ (')' :: renderRet ret)) (['('] ++ ts.flatMap Ty.render).length = .ok ')' :=
    chAt_append _ _ _
  rw [scanLoop_close fake (by simp) h1]
  have e1 : ['('] ++ ts.flatMap Ty.render ++ (')' :: renderRet ret) = (['('] ++ ts.flatMap Ty.render ++ [')']) ++ renderRet ret := by
    simp
  rw [e1, show (['('] ++ ts.flatMap Ty.render).length + 1 = (['('] ++ ts.flatMap Ty.render ++ [')']).length by simp]
  generalize ['('] ++ ts.flatMap Ty.render ++ [')'] = pre
  cases ret with
  | none =>
    have hc : chAt (pre ++ renderRet none) pre.length = .ok 'V' := chAt_append pre 'V' []
    have hp : parseJNIType fake (pre ++ renderRet none) pre.length = .ok (pre.length, "void".toList) := by
      rw [parseJNIType_at fake hc, if_neg (by decide), if_neg (by decide)]
      cases fake <;> rfl
    rw [scanLoop_type fake (by simp [renderRet]) hc (by decide) (by decide) hp, if_neg (by decide), if_neg (by decide)]
    have : pre.length + 1 = (pre ++ renderRet none).length := by simp [renderRet]
    rw [this, scanLoop_end]
    rfl
  | some t =>
    have := scanLoop_render fake t (hr t rfl) pre [] false (ts.map (cppType fake)) []
    rw [List.append_nil] at this
    rw [show renderRet (some t) = t.render from rfl, this, if_neg (by decide), scanLoop_end]
    rfl

/-! ### Parameter lists -/

theorem commas_cons (x : Str) (l : List Str) : commas (x :: l) = x ++ (l.map (", ".toList ++ ·)).flatten := by
  induction l generalizing x with
  | nil => simp [commas]
  | cons y l ih => rw [commas, ih]; simp

theorem commas_append (x : Str) (l m : List Str) :
    commas (x :: l ++ m) = commas (x :: l) ++ (m.map (", ".toList ++ ·)).flatten := by
  rw [List.cons_append, commas_cons, commas_cons]
  simp

theorem perParam_cons (f : Nat → Str → Str) (p : Str) (ps : List Str) :
    perParam f (p :: ps) = f 0 p ++ perParam (fun i => f (i + 1)) ps := by
  simp [perParam, List.mapIdx_cons]

theorem perParam_plain (g : Str → Str) (ps : List Str) : perParam (fun _ p => g p) ps = (ps.map g).flatten := by
  induction ps with
  | nil => rfl
  | cons p ps ih => rw [perParam_cons, ih]; simp

theorem perParam_named (fake : Bool) (ts : List Ty) (k : Nat) :
    perParam (fun i p => ", ".toList ++ p ++ " arg".toList ++ (Nat.repr (i + k)).toList) (ts.map (cppType fake)) =
      ((namedFrom fake k ts).map (", ".toList ++ ·)).flatten := by
  induction ts generalizing k with
  | nil => rfl
  | cons t ts ih =>
    rw [List.map_cons, perParam_cons]
    have := ih (k + 1)
    simp only [namedFrom, List.map_cons, List.flatten_cons]
    rw [← this]
    have e : ∀ i, i + 1 + k = i + (k + 1) := by omega
    simp only [e, Nat.zero_add, argName]
    simp

theorem perParam_names (ps : List Str) (k : Nat) :
    perParam (fun i _ => ", arg".toList ++ (Nat.repr (i + k)).toList) ps =
      ((namesFrom k ps.length).map (", ".toList ++ ·)).flatten := by
  induction ps generalizing k with
  | nil => rfl
  | cons t ts ih =>
    rw [perParam_cons]
    have := ih (k + 1)
    simp only [List.length_cons, namesFrom, List.map_cons, List.flatten_cons]
    rw [← this]
    have e : ∀ i, i + 1 + k = i + (k + 1) := by omega
    simp only [e, Nat.zero_add, argName]
    simp

/-! ### Signatures that end too early -/

theorem cutOff_cons {st : ScanState} (h : st ≠ .name) (c : Char) (t : Str) :
    cutOff st (c :: t) = if c = '[' then cutOff .array t else if c = 'L' then cutOff .name t else cutOff .outside t := by
  cases st with
  | name => exact absurd rfl h
  | outside => rfl
  | array => rfl

theorem cutOff_name (t : Str) : cutOff .name t = true ∧ ';' ∉ t ∨
    ∃ n r, t = n ++ ';' :: r ∧ ';' ∉ n ∧ cutOff .name t = cutOff .outside r := by
  induction t with
  | nil => exact .inl ⟨rfl, by simp⟩
  | cons c t ih =>
    by_cases hc : c = ';'
    · subst hc
      exact .inr ⟨[], t, rfl, by simp, by rw [cutOff, if_pos rfl]⟩
    · have e : cutOff .name (c :: t) = cutOff .name t := by rw [cutOff, if_neg hc]
      rw [e]
      rcases ih with ⟨h1, h2⟩ | ⟨n, r, rfl, h2, h3⟩
      · exact .inl ⟨h1, by simp [h2, Ne.symm hc]⟩
      · exact .inr ⟨c :: n, r, rfl, by simp [h2, Ne.symm hc], h3⟩

theorem parse_state (fake : Bool) (rest : Str) : ∀ pre : Str, ∃ n t,
    parseJNIType fake (pre ++ rest) pre.length = .ok (n, t) ∧ n ≤ (pre ++ rest).length ∧
    (n = (pre ++ rest).length → cutOff .array rest = true) ∧
    (n < (pre ++ rest).length → cutOff .array rest = cutOff .outside ((pre ++ rest).drop (n + 1))) := by
  induction rest with
  | nil =>
    intro pre
    have h : chAt (pre ++ []) pre.length = .ok '\x00' := by simpa using chAt_end pre
    refine ⟨pre.length, [], ?_, by simp, fun _ => rfl, ?_⟩
    · rw [parseJNIType_at fake h, if_neg (by decide), if_neg (by decide)]
      cases fake <;> rfl
    · intro h; simp at h
  | cons c rest ih =>
    intro pre
    have h : chAt (pre ++ c :: rest) pre.length = .ok c := chAt_append pre c rest
    rw [parseJNIType_at fake h, cutOff_cons (by decide)]
    by_cases hc : c = '['
    · rw [if_pos hc, if_pos hc]
      have e : pre ++ c :: rest = (pre ++ [c]) ++ rest := by simp
      obtain ⟨n, t, h1, h2, h3, h4⟩ := ih (pre ++ [c])
      rw [← e] at h1 h2 h3 h4
      rw [show (pre ++ [c]).length = pre.length + 1 by simp] at h1
      rw [h1, Res.bind_ok]
      simp only
      cases fake
      · exact ⟨n, _, by rw [if_pos (by rfl)], h2, h3, h4⟩
      · rw [if_neg (by decide)]
        by_cases hn : n - pre.length = 1
        · obtain ⟨d, hd⟩ := chAt_ok h2
          exact ⟨n, _, by rw [if_pos hn, hd, Res.bind_ok], h2, h3, h4⟩
        · exact ⟨n, _, by rw [if_neg hn], h2, h3, h4⟩
    · rw [if_neg hc, if_neg hc]
      by_cases hL : c = 'L'
      · rw [if_pos hL, if_pos hL]
        refine ⟨_, _, rfl, findFrom_le ';' (by simp), ?_⟩
        rcases cutOff_name rest with ⟨h1, h2⟩ | ⟨n, r, rfl, h2, h3⟩
        · refine ⟨fun _ => h1, fun hlt => ?_⟩
          rw [findFrom_lt_iff ';' (by simp)] at hlt
          rw [show pre ++ c :: rest = (pre ++ [c]) ++ rest by simp, List.drop_left' (by simp)] at hlt
          exact absurd hlt h2
        · have hf : findFrom (pre ++ c :: (n ++ ';' :: r)) (pre.length + 1) ';' = pre.length + 1 + n.length := by
            have := findFrom_append (pre ++ [c]) n r ';' h2
            simpa using this
          rw [hf, h3]
          refine ⟨fun he => ?_, fun _ => ?_⟩
          · simp at he; omega
          · rw [show pre ++ c :: (n ++ ';' :: r) = (pre ++ c :: (n ++ [';'])) ++ r by simp, List.drop_left' (by simp; omega)]
      · rw [if_neg hL, if_neg hL]
        refine ⟨_, _, rfl, by simp, fun he => ?_, fun _ => ?_⟩
        · simp at he
        · rw [show pre ++ c :: rest = (pre ++ [c]) ++ rest by simp, List.drop_left' (by simp)]

theorem scanLoop_past (fake : Bool) (s : Str) (inarg : Bool) (ps : List Str) (ret : Str) :
    scanLoop fake s (s.length + 1) inarg ps ret = .ub .outOfBounds := by
  have h : chAt s (s.length + 1) = .ub .outOfBounds := by
    unfold chAt
    rw [dif_neg (by omega), if_neg (by omega)]
  rw [scanLoop, if_neg (by omega)]
  split
  · rename_i h'; rw [h] at h'; cases h'
  · rename_i h'; rw [h] at h'; cases h'
  · rename_i h'; rw [h] at h'; cases h'; rfl
  · rename_i h'; rw [h] at h'; cases h'

theorem scanLoop_cut (fake : Bool) (k : Nat) : ∀ (rest : Str), rest.length = k → ∀ (pre : Str) (inarg : Bool)
    (ps : List Str) (ret : Str),
    (cutOff .outside rest = true → scanLoop fake (pre ++ rest) pre.length inarg ps ret = .ub .outOfBounds) ∧
    (cutOff .outside rest = false → ∃ r, scanLoop fake (pre ++ rest) pre.length inarg ps ret = .ok r) := by
  induction k using Nat.strongRecOn with
  | ind k ih =>
    intro rest hk pre inarg ps ret
    cases rest with
    | nil =>
      refine ⟨fun h => (nomatch h), fun _ => ⟨(ps, ret), ?_⟩⟩
      have := scanLoop_end fake pre inarg ps ret
      simpa using this
    | cons c rest =>
      have h : chAt (pre ++ c :: rest) pre.length = .ok c := chAt_append pre c rest
      have hl : pre.length < (pre ++ c :: rest).length := by simp
      have e : pre ++ c :: rest = (pre ++ [c]) ++ rest := by simp
      have el : (pre ++ [c]).length = pre.length + 1 := by simp
      have hlt : rest.length < k := by rw [← hk]; simp
      by_cases h1 : c = '('
      · subst h1
        rw [cutOff_cons (by decide), if_neg (by decide), if_neg (by decide), scanLoop_open fake hl h]
        have := ih rest.length hlt rest rfl (pre ++ ['(']) true ps ret
        rwa [← e, el] at this
      · by_cases h2 : c = ')'
        · subst h2
          rw [cutOff_cons (by decide), if_neg (by decide), if_neg (by decide), scanLoop_close fake hl h]
          have := ih rest.length hlt rest rfl (pre ++ [')']) false ps ret
          rwa [← e, el] at this
        · obtain ⟨n, t, p1, p2, p3, p4⟩ := parse_state fake (c :: rest) pre
          rw [scanLoop_type fake hl h h1 h2 p1]
          have hc : cutOff .outside (c :: rest) = cutOff .array (c :: rest) := rfl
          rw [hc]
          by_cases hn : n = (pre ++ c :: rest).length
          · rw [p3 hn, hn]
            refine ⟨fun _ => ?_, fun h => (nomatch h)⟩
            rw [scanLoop_past, scanLoop_past, scanLoop_past]
            simp
          · have hn : n < (pre ++ c :: rest).length := by omega
            rw [p4 hn]
            have hge : pre.length ≤ n := parseJNIType_ge _ _ _ _ p1
            have hd : ((pre ++ c :: rest).drop (n + 1)).length < k := by
              rw [List.length_drop, ← hk]
              simp only [List.length_append, List.length_cons] at hn ⊢
              omega
            have hsplit : (pre ++ c :: rest).take (n + 1) ++ (pre ++ c :: rest).drop (n + 1) = pre ++ c :: rest :=
              List.take_append_drop _ _
            have hlen : ((pre ++ c :: rest).take (n + 1)).length = n + 1 := by
              rw [List.length_take]; omega
            have g := ih _ hd _ rfl ((pre ++ c :: rest).take (n + 1)) inarg
            rw [hsplit, hlen] at g
            split
            · exact g ps ret
            · split
              · exact g (ps ++ [t]) ret
              · exact g ps t

theorem scanSig_cut (fake : Bool) (sig : Str) :
    (cutOff .outside sig = true → scanSig fake sig = .ub .outOfBounds) ∧
    (cutOff .outside sig = false → ∃ r, scanSig fake sig = .ok r) := by
  have := scanLoop_cut fake _ sig rfl [] false [] []
  simpa [scanSig] using this

theorem parse_total (fake : Bool) (s : Str) : ∃ r, parseJNIType fake s 0 = .ok r := by
  obtain ⟨n, t, h, _⟩ := parse_state fake s []
  exact ⟨_, h⟩

end Jnivm
