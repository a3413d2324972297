import Verif.Lemmas.CppHeader
/-! Lemmas about reading the definitions of members. -/
namespace Jnivm
open Spec

variable {R : CppReader} {num : Str → Nat} {clazz : Nat} {T : Typing}

/-- How definitions start. -/
def DefStart (l : Str) : Prop := ∃ c s, l = c :: s ∧ c ∈ ['j', 'F', 's', 'v']

theorem DefStart.append {a : Str} (h : DefStart a) (b : Str) : DefStart (a ++ b) := by
  obtain ⟨c, s, rfl, hc⟩ := h
  exact ⟨c, s ++ b, rfl, hc⟩

theorem type_start (fake : Bool) (t : Ty) : DefStart (cppType fake t) := by
  cases t with
  | prim p =>
    have : ∀ fake : Bool, ∀ p : Prim, ∃ c ∈ (cppPrim fake p).head?, c ∈ ['j', 'F', 's', 'v'] := by
      intro fake p
      cases fake <;> cases p <;> exact ⟨_, rfl, by decide⟩
    obtain ⟨c, h1, h2⟩ := this fake p
    cases hp : cppPrim fake p with
    | nil => rw [hp] at h1; cases h1
    | cons d s =>
      rw [hp] at h1
      cases h1
      exact ⟨c, s, hp, h2⟩
  | cls n => exact ⟨'s', _, rfl, by decide⟩
  | arr t => exact ⟨'s', _, rfl, by decide⟩

theorem ret_start (fake : Bool) (ret : Option Ty) : DefStart (cppRet fake ret) := by
  cases ret with
  | none => exact ⟨'v', _, rfl, by decide⟩
  | some t => exact type_start fake t

theorem strip_start {l : Str} (h : DefStart l) : stripBlanks l = l := by
  obtain ⟨c, s, rfl, hc⟩ := h
  refine stripBlanks_cons ?_ s
  rintro rfl
  revert hc
  decide

theorem readTop_definition {t : CppText} (hsp : t.spaces = []) {l : Str} (h : DefStart l) :
    t.readTop R l = t.readDefinition R l ∧ between "BEGIN_NATIVE_DESCRIPTOR(".toList ")".toList l = none := by
  obtain ⟨c, s, rfl, hc⟩ := h
  have hne : ∀ d, d ∉ ['j', 'F', 's', 'v'] → d ≠ c := by
    rintro d hd rfl
    exact hd hc
  have ha : ∀ (d : Char) (p : Str), d ∉ ['j', 'F', 's', 'v'] → after (d :: p) (c :: s) = none := by
    intro d p hd
    unfold after
    rw [if_neg (hne d hd)]
  have e2 : c :: s ≠ "}".toList := by
    intro e
    have : "}".toList = ['}'] := rfl
    rw [this] at e
    cases e
    exact absurd hc (by decide)
  have e3 : after "#include <".toList (c :: s) = none := ha '#' _ (by decide)
  have e4 : between "namespace ".toList " {".toList (c :: s) = none := between_none (ha 'n' _ (by decide))
  have e5 : between "class ".toList ";".toList (c :: s) = none := between_none (ha 'c' _ (by decide))
  have e6 : after "class ".toList (c :: s) = none := ha 'c' _ (by decide)
  refine ⟨?_, between_none (ha 'B' _ (by decide))⟩
  unfold CppText.readTop
  rw [if_neg (fun e => nomatch e), if_neg e2, e3]
  simp only
  rw [e4]
  simp only
  rw [e5]
  simp only
  rw [if_pos hsp, e6]

theorem before_last (q s : Str) {a b : Char} (h : a ≠ b) : before (q ++ [a]) (s ++ [b]) = none := by
  unfold before
  simp only [List.reverse_append, List.reverse_cons, List.reverse_nil, List.nil_append, List.cons_append]
  unfold after
  rw [if_neg h]
  rfl

/-- A static variable. -/
theorem variable_read {t : CppText} (ht : t.place = .top) (hsp : t.spaces = []) {scope x : Str} {ty : Ty} {D : CppDecl}
    (hs : t.complete scope = some D) (hk : Known R.fake (t.known R) num ty)
    (hsc : ':' ∉ x) (hm : .named x ⟨.variable, typeOf num ty, []⟩ ∈ D.members)
    (hd : (scope, CppMember.named x ⟨.variable, typeOf num ty, []⟩) ∉ t.defs) :
    t.readLines R [cppType R.fake ty ++ " ".toList ++ scope ++ "::".toList ++ x ++ " = {};".toList, []] =
      some { t with defs := t.defs ++ [(scope, .named x ⟨.variable, typeOf num ty, []⟩)] } := by
  have hst : DefStart (cppType R.fake ty ++ " ".toList ++ scope ++ "::".toList ++ x ++ " = {};".toList) :=
    ((((((type_start R.fake ty).append _).append _).append _).append _).append _)
  obtain ⟨h1, h2⟩ := readTop_definition (R := R) hsp hst
  have hi : cppType R.fake ty ++ " ".toList ++ scope ++ "::".toList ++ x ++ " = {};".toList ≠ initHeading R.fake := by
    intro e
    have h3 : before " = {};".toList (initHeading R.fake) = some (cppType R.fake ty ++ " ".toList ++ scope ++ "::".toList ++ x) := by
      rw [← e, before_append]
    have h4 : before " = {};".toList (initHeading R.fake) = none := by
      cases R.fake <;> decide +kernel
    rw [h4] at h3
    cases h3
  have hv : t.readVariable R (cppType R.fake ty ++ " ".toList ++ scope ++ "::".toList ++ x) =
      some (scope, .named x ⟨.variable, typeOf num ty, []⟩) := by
    have hb : ' ' ∉ cppType R.fake ty := type_lacks R.fake (known_words hk) (by decide)
    have e : cppType R.fake ty ++ " ".toList ++ scope ++ "::".toList ++ x = cppType R.fake ty ++ ' ' :: (scope ++ "::".toList ++ x) := by
      rw [show " ".toList = [' '] from rfl]
      simp only [List.append_assoc, List.cons_append, List.nil_append]
    unfold CppText.readVariable
    rw [e, splitFirst_append hb]
    simp only [Option.bind_some]
    rw [readType_cpp hk]
    simp only [Option.bind_some]
    rw [splitScope_append hsc]
    simp only [Option.bind_some]
    rw [hs]
    simp only [Option.bind_some]
    rw [if_pos hm]
  have hstep : t.readLine R (stripBlanks (cppType R.fake ty ++ " ".toList ++ scope ++ "::".toList ++ x ++ " = {};".toList)) =
      some { t with defs := t.defs ++ [(scope, .named x ⟨.variable, typeOf num ty, []⟩)] } := by
    rw [strip_start hst, readLine_top ht, h1]
    unfold CppText.readDefinition
    rw [if_neg hi, h2]
    simp only
    rw [before_append]
    simp only
    rw [hv]
    simp only [Option.bind_some]
    rw [if_neg hd]
  rw [readLines_step hstep]
  have hblank : CppText.readLine R { t with defs := t.defs ++ [(scope, .named x ⟨.variable, typeOf num ty, []⟩)] } (stripBlanks []) =
      some { t with defs := t.defs ++ [(scope, .named x ⟨.variable, typeOf num ty, []⟩)] } := by
    refine (readLine_top (t := { t with defs := t.defs ++ [(scope, .named x ⟨.variable, typeOf num ty, []⟩)] }) ht _).trans ?_
    rfl
  rw [readLines_step hblank]
  rfl

/-- The first line of the definition of a function. -/
def defHeading (fake static : Bool) (name scope cname : Str) (ts : List Ty) (ret : Option Ty) : Str :=
  (if name = "<init>".toList then scope ++ "::".toList ++ cname
    else cppRet fake ret ++ " ".toList ++ scope ++ "::".toList ++ name) ++
  '(' :: (commas (implicit fake static "jnivm::ENV *".toList ++ namedFrom fake 0 ts) ++ ")".toList)

/-- What it returns. -/
def defBody (name : Str) (ret : Option Ty) : Str :=
  if name = "<init>".toList ∨ ret = none then [] else "return {};".toList

theorem params_read {N : CppNames} {fake static : Bool} {ts : List Ty}
    (hc : N.cls "jnivm::Class".toList = some clazz) (h : ∀ t ∈ ts, Known fake N num t) :
    (∀ p ∈ implicit fake static "jnivm::ENV *".toList ++ namedFrom fake 0 ts, (p ≠ [] ∧ ',' ∉ p) ∧ '(' ∉ p ∧ ')' ∉ p ∧ '\n' ∉ p) ∧
    ∃ ps, readAllOf (readParam N) (implicit fake static "jnivm::ENV *".toList ++ namedFrom fake 0 ts) = some ps ∧
      ps.map (·.1) = implicitOf N clazz fake static ++ ts.map (typeOf num) ∧ ((ps.map (·.2)).filter (· ≠ [])).Nodup := by
  constructor
  · intro p hp
    rcases List.mem_append.1 hp with hp | hp
    · have hl : ∀ q ∈ ["jnivm::ENV *".toList, "jnivm::Class* cl".toList], (q ≠ [] ∧ ',' ∉ q) ∧ '(' ∉ q ∧ ')' ∉ q ∧ '\n' ∉ q := by decide +kernel
      rcases implicit_mem hp with rfl | rfl
      · exact hl _ (.head _)
      · exact hl _ (.tail _ (.head _))
    · obtain ⟨t, ht, i, rfl⟩ := namedFrom_mem hp
      have hw := known_words (h t ht)
      have hb : ∀ c ∈ [',', '(', ')', '\n'], c ∉ cppType fake t ++ " ".toList ++ argName i := by
        intro c hc
        have h1 : ∀ c ∈ [',', '(', ')', '\n'], typeChar c = false ∧ c ∉ " ".toList ∧ wordChar c = false := by decide
        obtain ⟨a, b, d⟩ := h1 c hc
        simp only [List.mem_append, not_or]
        exact ⟨⟨type_lacks fake hw a, b⟩, argName_lacks i d⟩
      exact ⟨⟨by simp [cppType_ne], hb _ (by decide)⟩, hb _ (by decide), hb _ (by decide), hb _ (by decide)⟩
  · obtain ⟨qs, r1, r2, r3⟩ := named_read h 0
    have hna : ∀ p ∈ namesFrom 0 ts.length, p.head? = some 'a' := by
      intro p hp
      obtain ⟨i, rfl⟩ := namesFrom_mem hp
      have : "arg".toList = 'a' :: "rg".toList := by decide
      simp only [argName, this, List.cons_append, List.head?_cons]
    have hnd : (namesFrom 0 ts.length).Nodup := codegen_names_distinct 0 _
    have hf : (namesFrom 0 ts.length).filter (· ≠ []) = namesFrom 0 ts.length := by
      refine List.filter_eq_self.2 fun p hp => ?_
      have := hna p hp
      cases p with
      | nil => cases this
      | cons c p => simp
    have himp : ∃ is, readAllOf (readParam N) (implicit fake static "jnivm::ENV *".toList) = some is ∧
        is.map (·.1) = implicitOf N clazz fake static ∧ ((is.map (·.2)).filter (· ≠ [])).Nodup ∧
        ∀ p ∈ (is.map (·.2)).filter (· ≠ []), p.head? ≠ some 'a' := by
      have he : readParam N "jnivm::ENV *".toList = some (.env N.env, []) := by
        have h1 : splitFirst ' ' "jnivm::ENV *".toList = some ("jnivm::ENV".toList, ['*']) := by decide +kernel
        have h2 : "jnivm::ENV".toList ++ "*".toList = "jnivm::ENV*".toList := by decide +kernel
        unfold readParam
        rw [h1]
        simp only
        rw [h2, readType_env]
        rfl
      cases fake with
      | true => exact ⟨[], rfl, rfl, by simp, fun p hp => (nomatch hp)⟩
      | false =>
        cases static with
        | false =>
          refine ⟨[(.env N.env, [])], ?_, rfl, by simp, by simp⟩
          show readAllOf (readParam N) ["jnivm::ENV *".toList] = _
          simp only [readAllOf, he, Option.bind_some, Option.map_some]
        | true =>
          refine ⟨[(.env N.env, []), (.data .pointer (.cls clazz), "cl".toList)], ?_, rfl, by simp, ?_⟩
          · show readAllOf (readParam N) ["jnivm::ENV *".toList, "jnivm::Class* cl".toList] = _
            simp only [readAllOf, he, readParam_class hc, Option.bind_some, Option.map_some]
          · intro p hp
            simp only [List.map_cons, List.map_nil] at hp
            have hp := (List.mem_filter.1 hp)
            simp only [List.mem_cons, List.not_mem_nil, or_false] at hp
            rcases hp.1 with rfl | rfl
            · simp at hp
            · decide
    obtain ⟨is, i1, i2, i3, i4⟩ := himp
    refine ⟨is ++ qs, readAllOf_append i1 r1, by rw [List.map_append, i2, r2], ?_⟩
    rw [List.map_append, List.filter_append, r3, hf]
    refine List.nodup_append.2 ⟨i3, hnd, fun a ha b hb e => ?_⟩
    subst e
    exact i4 a ha (hna a hb)

/-- A function. -/
theorem function_read {t : CppText} (ht : t.place = .top) (hsp : t.spaces = []) {static : Bool} {name scope cname : Str} {ts : List Ty}
    {ret : Option Ty} {D : CppDecl} (hs : t.complete scope = some D) (hDc : D.cname = cname) (hsb : ' ' ∉ scope) (hsp2 : '(' ∉ scope) (hss : DefStart scope)
    (hc : (t.known R).cls "jnivm::Class".toList = some clazz) (hps : ∀ u ∈ ts, Known R.fake (t.known R) num u)
    (hret : ∀ u, ret = some u → Known R.fake (t.known R) num u) (hcn : isIdent cname = true)
    (hx : name ≠ "<init>".toList → isIdent name = true) {m : CppMember}
    (hmd : m = if name = "<init>".toList then CppMember.ctor (implicitOf R.base clazz R.fake static ++ ts.map (typeOf num))
      else .named name ⟨if static then .plain else .member, retOf num ret,
        implicitOf R.base clazz R.fake static ++ ts.map (typeOf num)⟩)
    (hm : m ∈ D.members) (hnd : (D.members.filterMap memberName).Nodup) (hd : (scope, m) ∉ t.defs) :
    t.readLines R [defHeading R.fake static name scope cname ts ret ++ " {".toList, indented (defBody name ret), "}".toList, []] =
      some { t with defs := t.defs ++ [(scope, m)] } := by
  obtain ⟨hp1, ps, hr1, hr2, hr3⟩ := params_read (N := t.known R) (fake := R.fake) (static := static) hc hps
  have hst : DefStart (defHeading R.fake static name scope cname ts ret ++ " {".toList) := by
    refine DefStart.append ?_ _
    unfold defHeading
    refine DefStart.append ?_ _
    by_cases hi : name = "<init>".toList
    · rw [if_pos hi]
      exact (hss.append _).append _
    · rw [if_neg hi]
      exact ((((ret_start _ _).append _).append _).append _).append _
  obtain ⟨h1, h2⟩ := readTop_definition (R := R) hsp hst
  -- the part in front of the parameters
  generalize hhead : (if name = "<init>".toList then scope ++ "::".toList ++ cname
    else cppRet R.fake ret ++ " ".toList ++ scope ++ "::".toList ++ name) = head
  have hl : defHeading R.fake static name scope cname ts ret = head ++
      '(' :: (commas (implicit R.fake static "jnivm::ENV *".toList ++ namedFrom R.fake 0 ts) ++ ")".toList) := by
    unfold defHeading
    rw [hhead]
  have hhp : '(' ∉ head := by
    rw [← hhead]
    have hlit : '(' ∉ "::".toList ∧ '(' ∉ " ".toList := by decide
    by_cases hi : name = "<init>".toList
    · rw [if_pos hi]
      simp only [List.mem_append, not_or]
      exact ⟨⟨hsp2, hlit.1⟩, ident_lacks hcn (by decide)⟩
    · rw [if_neg hi]
      simp only [List.mem_append, not_or]
      exact ⟨⟨⟨⟨ret_lacks R.fake (fun u hu => known_words (hret u hu)) (by decide), hlit.2⟩, hsp2⟩, hlit.1⟩, ident_lacks (hx hi) (by decide)⟩
  have hcol : ':' ∈ head := by
    rw [← hhead]
    by_cases hi : name = "<init>".toList
    · rw [if_pos hi]; simp
    · rw [if_neg hi]; simp
  have hi : defHeading R.fake static name scope cname ts ret ++ " {".toList ≠ initHeading R.fake := by
    intro e
    have h3 := splitFirst_append hhp ((commas (implicit R.fake static "jnivm::ENV *".toList ++ namedFrom R.fake 0 ts) ++ ")".toList) ++ " {".toList)
    have h4 : ∀ fake, splitFirst '(' (initHeading fake) = some ("void InitJNIBinding".toList,
        if fake then "FakeJni::Jvm* vm) {".toList else "jnivm::ENV* env) {".toList) := by decide +kernel
    have h5 : splitFirst '(' (initHeading R.fake) = some (head, ((commas (implicit R.fake static "jnivm::ENV *".toList ++ namedFrom R.fake 0 ts) ++ ")".toList) ++ " {".toList)) := by
      rw [← h3, ← e, hl]
      simp only [List.append_assoc, List.cons_append]
    rw [h4] at h5
    have h6 := congrArg (fun o => o.map Prod.fst) h5
    simp only [Option.map_some, Option.some.injEq] at h6
    rw [← h6] at hcol
    exact absurd hcol (by decide +kernel)
  have hnv : before " = {};".toList (defHeading R.fake static name scope cname ts ret ++ " {".toList) = none := by
    have e1 : " = {};".toList = " = {}".toList ++ [';'] := by decide
    have e2 : " {".toList = " ".toList ++ ['{'] := by decide
    rw [e1, e2, ← List.append_assoc]
    exact before_last _ _ (by decide)
  have hf : t.readFunction R (defHeading R.fake static name scope cname ts ret) = some (scope, m) := by
    unfold CppText.readFunction
    rw [hl, splitFirst_append hhp]
    simp only [Option.bind_some]
    rw [before_append]
    simp only [Option.bind_some]
    rw [items_commas fun p hp => (hp1 p hp).1, hr1]
    simp only [Option.bind_some]
    rw [if_pos hr3]
    by_cases hi : name = "<init>".toList
    · rw [if_pos hi] at hhead hmd
      have hb : ' ' ∉ head := by
        rw [← hhead]
        simp only [List.mem_append, not_or]
        exact ⟨⟨hsb, by decide⟩, ident_lacks hcn (by decide)⟩
      rw [splitFirst_none hb]
      simp only
      rw [← hhead, splitScope_append (ident_lacks hcn (by decide))]
      simp only [Option.bind_some]
      rw [hs]
      simp only [Option.bind_some]
      rw [hr2]
      have : CppMember.ctor (implicitOf (t.known R) clazz R.fake static ++ ts.map (typeOf num)) = m := by rw [hmd]; rfl
      rw [this, if_pos ⟨hDc.symm, hm⟩]
    · rw [if_neg hi] at hhead hmd
      have e : head = cppRet R.fake ret ++ ' ' :: (scope ++ "::".toList ++ name) := by
        rw [← hhead, show " ".toList = [' '] from rfl]
        simp only [List.append_assoc, List.cons_append, List.nil_append]
      rw [e, splitFirst_append (ret_lacks R.fake (fun u hu => known_words (hret u hu)) (by decide))]
      simp only
      rw [readType_ret hret]
      simp only [Option.bind_some]
      rw [splitScope_append (ident_lacks (hx hi) (by decide))]
      simp only [Option.bind_some]
      rw [hs]
      simp only [Option.bind_some]
      rw [hr2]
      cases static with
      | true =>
        have : CppMember.named name ⟨.plain, retOf num ret, implicitOf (t.known R) clazz R.fake true ++ ts.map (typeOf num)⟩ = m := by
          rw [hmd]; rfl
        rw [this, if_pos hm]
      | false =>
        have he : CppMember.named name ⟨.member, retOf num ret, implicitOf (t.known R) clazz R.fake false ++ ts.map (typeOf num)⟩ = m := by
          rw [hmd]; rfl
        have hno : CppMember.named name ⟨.plain, retOf num ret, implicitOf (t.known R) clazz R.fake false ++ ts.map (typeOf num)⟩ ∉ D.members := by
          intro hx
          have a := memberNamed_of hx hnd
          have b := memberNamed_of (he ▸ hm) hnd
          rw [a] at b
          cases b
        rw [if_neg hno, he, if_pos hm]
  have hstep : t.readLine R (stripBlanks (defHeading R.fake static name scope cname ts ret ++ " {".toList)) =
      some { t with place := .func scope m } := by
    rw [strip_start hst, readLine_top ht, h1]
    unfold CppText.readDefinition
    rw [if_neg hi, h2]
    simp only
    rw [hnv]
    simp only
    rw [before_append]
    simp only [Option.bind_some]
    rw [hf]
    simp only [Option.bind_some]
    rw [if_neg hd]
  have hret' : m.returns = true ↔ ¬ (name = "<init>".toList ∨ ret = none) := by
    by_cases hin : name = "<init>".toList
    · rw [if_pos hin] at hmd
      rw [hmd]
      simp [CppMember.returns, hin]
    · rw [if_neg hin] at hmd
      rw [hmd]
      cases ret with
      | none => simp [CppMember.returns, retOf]
      | some u => (have hn : ¬ (name = "<init>".toList ∨ some u = none) := fun h => h.elim hin (fun e => (nomatch e))); cases u <;> exact ⟨fun _ => hn, fun _ => rfl⟩
  have hbody : CppText.readLine R { t with place := .func scope m } (stripBlanks (indented (defBody name ret))) =
      some { t with place := .funcEnd scope m } := by
    have e : stripBlanks (indented (defBody name ret)) = defBody name ret := by
      refine strip_indented ?_
      unfold defBody
      split <;> decide
    rw [e]
    simp only [CppText.readLine]
    refine if_pos ?_
    unfold defBody
    by_cases hb : name = "<init>".toList ∨ ret = none
    · have : m.returns = false := by
        cases hr : m.returns with
        | false => rfl
        | true => exact absurd hb (hret'.1 hr)
      rw [if_pos hb, this]
      rfl
    · rw [if_neg hb, hret'.2 hb]
      rfl
  have hclose : CppText.readLine R { t with place := .funcEnd scope m } (stripBlanks "}".toList) =
      some { t with place := .top, defs := t.defs ++ [(scope, m)] } := rfl
  have hblank : CppText.readLine R { t with place := .top, defs := t.defs ++ [(scope, m)] } (stripBlanks []) =
      some { t with place := .top, defs := t.defs ++ [(scope, m)] } := rfl
  rw [readLines_step hstep, readLines_step hbody, readLines_step hclose, readLines_step hblank]
  cases t
  simp only at ht
  subst ht
  rfl

end Jnivm
