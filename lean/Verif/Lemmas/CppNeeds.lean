import Verif.Lemmas.CppAssemble
/-! What a text needs to be readable as a program. -/
namespace Jnivm
open Spec

variable {R : CppReader} {num : Str → Nat} {clazz : Nat} {T : Typing} {ws : World}

/-! ### Types and members -/

theorem readBare_unknown {N : CppNames} {fake : Bool} {n : Str} (hn : N.cls (cppClass fake n) = none) : ∀ {t : Ty},
    (∀ k ∈ t.classNames, WordName k) → n ∈ t.classNames → ∀ k, readBare N k (cppBare fake t) = none := by
  intro t
  induction t with
  | prim p => intro _ h; cases h
  | cls m =>
    intro hw h k
    cases List.mem_singleton.1 h
    cases k with
    | zero => rfl
    | succ k =>
      show readBare N (k + 1) (cppClass fake n) = none
      rw [readBare_word (hw n h), hn]
      rfl
  | arr t ih =>
    intro hw h k
    cases k with
    | zero => rfl
    | succ k =>
      have step : cppBare fake (.arr t) = (if fake then "FakeJni::JArray<".toList else "jnivm::Array<".toList) ++ cppBare fake t ++ ">".toList →
          readBare N (k + 1) (cppBare fake (.arr t)) = none := by
        intro e
        rw [e, readBare_arr, ih hw h]
        rfl
      cases t with
      | cls n => exact step rfl
      | arr u => exact step rfl
      | prim p => cases h

/-- A type can only be read if its class is declared. -/
theorem readType_unknown {N : CppNames} {fake : Bool} {n : Str} {t : Ty} (hn : N.cls (cppClass fake n) = none)
    (hw : ∀ k ∈ t.classNames, WordName k) (h : n ∈ t.classNames) : readType N (cppType fake t) = none := by
  have shared : cppType fake t = "std::shared_ptr<".toList ++ cppBare fake t ++ ">".toList → readType N (cppType fake t) = none := by
    intro e
    have hv : cppType fake t ≠ "void".toList := by
      intro hx
      have : '<' ∉ "void".toList := by decide
      rw [← hx, e, List.append_assoc] at this
      exact this (List.mem_append_left _ (by decide))
    unfold readType
    rw [if_neg hv, e, between_append]
    simp only [readBare_unknown hn hw h, Option.map_none]
  cases t with
  | cls n => exact shared rfl
  | arr u => exact shared rfl
  | prim p => cases h

theorem readTyped_eq {N : CppNames} {s x : Str} (hs : ' ' ∉ s) (hx : isIdent x = true) :
    readTyped N (s ++ " ".toList ++ x) = (readType N s).map fun t => (t, x) := by
  have e1 : " ".toList = [' '] := by decide
  unfold readTyped
  rw [e1, List.append_assoc, List.singleton_append, splitFirst_append hs]
  simp only [Option.bind_some, hx, if_true]

theorem readAllOf_none {α β : Type} {f : α → Option β} {x : α} (hf : f x = none) : ∀ {l : List α}, x ∈ l → readAllOf f l = none := by
  intro l
  induction l with
  | nil => intro h; cases h
  | cons y l ih =>
    intro h
    rw [readAllOf]
    rcases List.mem_cons.1 h with rfl | h
    · rw [hf]; rfl
    · rw [ih h]
      cases f y <;> rfl

/-- The line of a field. -/
theorem readMember_field_eq {N : CppNames} {fake static : Bool} {t : Ty} {name cname : Str}
    (h : ∀ n ∈ t.classNames, WordName n) (hx : isIdent name = true) :
    readMember N cname (fieldDeclaration fake static name t) = (readType N (cppType fake t)).bind fun r =>
      if name = cname then none else some (.named name ⟨if static then .variable else .dataMember, r, []⟩) := by
  have hw : ∀ u, some t = some u → ∀ n ∈ u.classNames, WordName n := by
    rintro u ⟨⟩
    exact h
  have hret : cppRet fake (some t) = cppType fake t := rfl
  have hb : ∀ l : Str, between [] ";".toList (l ++ ";".toList) = some l := fun l => between_append [] _ l
  have a1 : '(' ∉ "static ".toList ∧ '(' ∉ " ".toList ∧ '(' ∉ ";".toList := by decide
  have hty := readTyped_eq (N := N) (type_lacks fake h (c := ' ') (by decide)) hx
  cases static with
  | true =>
    have e : fieldDeclaration fake true name t = ("static ".toList ++ (cppType fake t ++ " ".toList ++ name)) ++ ";".toList := by
      unfold fieldDeclaration
      simp only [if_true, List.append_assoc]
    have hno : '(' ∉ ("static ".toList ++ (cppType fake t ++ " ".toList ++ name)) ++ ";".toList := by
      simp only [List.mem_append, not_or]
      exact ⟨⟨a1.1, ⟨ret_lacks fake hw (by decide), a1.2.1⟩, ident_lacks hx (by decide)⟩, a1.2.2⟩
    unfold readMember
    rw [e, between_none (by rw [List.append_assoc]; exact static_head _), splitFirst_none hno]
    simp only [hb, Option.bind_some, after_append, hty, if_true]
    cases readType N (cppType fake t) <;> rfl
  | false =>
    have e : fieldDeclaration fake false name t = (cppType fake t ++ " ".toList ++ name) ++ ";".toList := by
      unfold fieldDeclaration
      simp only [Bool.false_eq_true, if_false, List.nil_append]
    have hno : '(' ∉ (cppType fake t ++ " ".toList ++ name) ++ ";".toList := by
      simp only [List.mem_append, not_or]
      exact ⟨⟨⟨ret_lacks fake hw (by decide), a1.2.1⟩, ident_lacks hx (by decide)⟩, a1.2.2⟩
    have h1 := ret_head fake hw (name ++ ";".toList)
    have h2 := ret_head fake hw name
    rw [hret] at h1 h2
    unfold readMember
    rw [e, between_none (by rw [List.append_assoc]; exact h1.1), splitFirst_none hno]
    simp only [hb, Option.bind_some, h2.2, hty, Bool.false_eq_true, if_false]
    cases readType N (cppType fake t) <;> rfl

/-- The parameters of a function. -/
def plainParams (fake static : Bool) (ts : List Ty) : List Str := implicit fake static "jnivm::ENV* env".toList ++ ts.map (cppType fake)

theorem plainParams_plain {fake static : Bool} {ts : List Ty} (h : ∀ t ∈ ts, ∀ n ∈ t.classNames, WordName n) :
    ∀ p ∈ plainParams fake static ts, p ≠ [] ∧ ',' ∉ p :=
  params_plain (N := ⟨fun _ => some 0, 0⟩) (num := fun _ => 0) (static := static) fun t ht n hn =>
    ⟨h t ht n hn, rfl⟩

/-- The line of a method. -/
theorem readMember_method_eq {N : CppNames} {fake static : Bool} {ts : List Ty}
    {ret : Option Ty} {name cname : Str} (h : ∀ t ∈ ts, ∀ n ∈ t.classNames, WordName n)
    (hw : ∀ t, ret = some t → ∀ n ∈ t.classNames, WordName n) (hx : isIdent name = true) (hcn : isIdent cname = true) :
    readMember N cname (declaration fake static name cname ts ret) = (readAllOf (readParam N) (plainParams fake static ts)).bind fun ps =>
      (readType N (cppRet fake ret)).bind fun r => if name = cname then none else
        some (.named name ⟨if static then .plain else .member, r, ps.map (·.1)⟩) := by
  have hinit : name ≠ "<init>".toList := by
    intro e
    exact ident_lacks hx (c := '<') (by decide) (by rw [e]; decide)
  have e2 : "(".toList = ['('] := by decide
  have hsp : ' ' ∉ cname := ident_lacks hcn (by decide)
  have hit := items_commas (plainParams_plain (fake := fake) (static := static) h)
  have hb : ∀ l : Str, between [] ");".toList (l ++ ");".toList) = some l := fun l => between_append [] _ l
  have hty := readTyped_eq (N := N) (ret_lacks fake hw (c := ' ') (by decide)) hx
  cases static with
  | true =>
    have e : declaration fake true name cname ts ret = ("static ".toList ++ (cppRet fake ret ++ " ".toList ++ name)) ++
        '(' :: (commas (plainParams fake true ts) ++ ");".toList) := by
      unfold declaration plainParams
      rw [if_neg hinit, e2]
      simp only [if_true, List.append_assoc, List.cons_append, List.nil_append]
    have hno : '(' ∉ "static ".toList ++ (cppRet fake ret ++ " ".toList ++ name) := by
      have a1 : '(' ∉ "static ".toList ∧ '(' ∉ " ".toList := by decide
      simp only [List.mem_append, not_or]
      exact ⟨a1.1, ⟨ret_lacks fake hw (by decide), a1.2⟩, ident_lacks hx (by decide)⟩
    have hhead : "static ".toList ++ (cppRet fake ret ++ " ".toList ++ name) ≠ cname := by
      intro e'
      rw [← e'] at hsp
      exact hsp (List.mem_append_left _ (by decide))
    unfold readMember
    rw [e, between_none (by rw [List.append_assoc]; exact static_head _), splitFirst_append hno]
    simp only [hb, Option.bind_some, hit, if_neg hhead, after_append, hty, if_true]
    cases readAllOf (readParam N) (plainParams fake true ts) with
    | none => rfl
    | some ps => cases readType N (cppRet fake ret) <;> rfl
  | false =>
    have e : declaration fake false name cname ts ret = (cppRet fake ret ++ " ".toList ++ name) ++
        '(' :: (commas (plainParams fake false ts) ++ ");".toList) := by
      unfold declaration plainParams
      rw [if_neg hinit, e2]
      simp only [Bool.false_eq_true, if_false, List.append_assoc, List.cons_append, List.nil_append]
    have hno : '(' ∉ cppRet fake ret ++ " ".toList ++ name := by
      have a1 : '(' ∉ " ".toList := by decide
      simp only [List.mem_append, not_or]
      exact ⟨⟨ret_lacks fake hw (by decide), a1⟩, ident_lacks hx (by decide)⟩
    have hhead : cppRet fake ret ++ " ".toList ++ name ≠ cname := by
      intro e'
      rw [← e', List.append_assoc] at hsp
      exact hsp (List.mem_append_right _ (List.mem_append_left _ (by decide)))
    unfold readMember
    rw [e, between_none (by rw [List.append_assoc]; exact (ret_head fake hw _).1), splitFirst_append hno]
    simp only [hb, Option.bind_some, hit, if_neg hhead, (ret_head fake hw name).2, hty, Bool.false_eq_true, if_false]
    cases readAllOf (readParam N) (plainParams fake false ts) with
    | none => rfl
    | some ps => cases readType N (cppRet fake ret) <;> rfl

/-- The line of a constructor. -/
theorem readMember_ctor_eq {N : CppNames} {fake static : Bool} {ts : List Ty} {ret : Option Ty} {cname : Str}
    (h : ∀ t ∈ ts, ∀ n ∈ t.classNames, WordName n) (hcn : isIdent cname = true) :
    readMember N cname (declaration fake static "<init>".toList cname ts ret) =
      (readAllOf (readParam N) (plainParams fake static ts)).map fun ps => .ctor (ps.map (·.1)) := by
  have e2 : "(".toList = ['('] := by decide
  have hit := items_commas (plainParams_plain (fake := fake) (static := static) h)
  have hb : ∀ l : Str, between [] ");".toList (l ++ ");".toList) = some l := fun l => between_append [] _ l
  have e : declaration fake static "<init>".toList cname ts ret = cname ++
      '(' :: (commas (plainParams fake static ts) ++ ");".toList) := by
    unfold declaration plainParams
    rw [if_pos rfl, e2]
    simp only [List.append_assoc, List.cons_append, List.nil_append]
  unfold readMember
  rw [e, between_none (after_early (by decide) (by decide) (ident_lacks hcn (by decide)) _),
    splitFirst_append (ident_lacks hcn (by decide))]
  simp only [hb, Option.bind_some, hit, if_true]
  cases readAllOf (readParam N) (plainParams fake static ts) <;> rfl

theorem readParam_unknown {N : CppNames} {fake : Bool} {n : Str} {t : Ty} (hn : N.cls (cppClass fake n) = none)
    (hw : ∀ k ∈ t.classNames, WordName k) (h : n ∈ t.classNames) : readParam N (cppType fake t) = none := by
  unfold readParam
  rw [splitFirst_none (type_lacks fake hw (by decide))]
  simp only [readType_unknown hn hw h, Option.map_none]

/-- If a member line can be read, then its classes are declared. -/
theorem readMember_field_needs {N : CppNames} {fake static : Bool} {t : Ty} {name cname n : Str} {m : CppMember}
    (h : ∀ n ∈ t.classNames, WordName n) (hx : isIdent name = true) (hr : readMember N cname (fieldDeclaration fake static name t) = some m)
    (hn : n ∈ t.classNames) : N.cls (cppClass fake n) ≠ none := by
  intro e
  rw [readMember_field_eq h hx, readType_unknown e h hn] at hr
  cases hr

theorem readMember_method_needs {N : CppNames} {fake static : Bool} {ts : List Ty} {ret : Option Ty} {name cname n : Str} {m : CppMember}
    (h : ∀ t ∈ ts, ∀ n ∈ t.classNames, WordName n)
    (hw : ∀ t, ret = some t → ∀ n ∈ t.classNames, WordName n) (hx : isIdent name = true ∨ name = "<init>".toList) (hcn : isIdent cname = true)
    (hr : readMember N cname (declaration fake static name cname ts ret) = some m) (hn : (∃ t ∈ ts, n ∈ t.classNames) ∨
      (name ≠ "<init>".toList ∧ ∃ t, ret = some t ∧ n ∈ t.classNames)) : N.cls (cppClass fake n) ≠ none := by
  intro e
  have hps : ∀ t ∈ ts, n ∈ t.classNames → readAllOf (readParam N) (plainParams fake static ts) = none := by
    intro t ht hk
    exact readAllOf_none (x := cppType fake t) (readParam_unknown e (h t ht) hk) (List.mem_append_right _ (List.mem_map_of_mem ht))
  rcases hx with hx | rfl
  · rw [readMember_method_eq h hw hx hcn] at hr
    rcases hn with ⟨t, ht, hk⟩ | ⟨_, t, rfl, hk⟩
    · rw [hps t ht hk] at hr
      cases hr
    · have : readType N (cppRet fake (some t)) = none := readType_unknown e (hw t rfl) hk
      rw [this] at hr
      cases hp : readAllOf (readParam N) (plainParams fake static ts) with
      | none => rw [hp] at hr; cases hr
      | some ps => rw [hp] at hr; cases hr
  · rcases hn with ⟨t, ht, hk⟩ | ⟨hne, _⟩
    · rw [readMember_ctor_eq h hcn, hps t ht hk] at hr
      cases hr
    · exact hne rfl

/-! ### Lines of a class -/

/-- The names a member declares. -/
def memberDeclares (scope : Str) : CppMember → List Str
  | .inner k => [scope ++ "::".toList ++ k]
  | _ => []

/-- What reading a member needs. -/
def MemberAllowed (R : CppReader) (packages : List Str) (scope : Str) : CppMember → Prop
  | .inner k => isIdent k = true ∧ k ∉ scopelessNames ∧ scope ++ "::".toList ++ k ∉ packages
  | .named x _ => x ∉ reservedNames R.fake
  | .ctor _ => True

/-- A line of a class that is not its end. -/
theorem readBody_inv {t t' : CppText} {scope : Str} {java : Option Str} {l0 : List CppMember} {l : Str}
    (hj : R.fake = true → java ≠ none) (hl : l ≠ "};".toList) (h : t.readBody R scope java l0 l = some t') :
    ∃ m, readMember (t.known R) (lastName scope) l = some m ∧ MemberAllowed R t.packages scope m ∧
      t' = { t with place := .body scope java (l0 ++ [m]), names := t.names ++ memberDeclares scope m } := by
  unfold CppText.readBody at h
  rw [if_neg hl] at h
  split at h
  · split at h
    · rename_i hc
      exact absurd hc.2.1 (hj hc.1)
    · cases h
  · obtain ⟨m, hm, h⟩ := Option.bind_eq_some_iff.1 h
    refine ⟨m, hm, ?_⟩
    cases m with
    | inner k =>
      simp only [CppText.declare] at h
      split at h
      · rename_i hc
        cases h
        exact ⟨⟨hc.1, hc.2.1, hc.2.2.1⟩, rfl⟩
      · cases h
    | named x f =>
      simp only at h
      split at h
      · cases h
      · rename_i hc
        cases h
        exact ⟨hc, by simp [memberDeclares]⟩
    | ctor ps =>
      cases h
      exact ⟨trivial, by simp [memberDeclares]⟩

/-- Inner classes. -/
theorem inners_inv {scope : Str} {java : Option Str} (hj : R.fake = true → java ≠ none) (ks : List Str) : ∀ {t t' : CppText} {l0 : List CppMember},
    t.place = .body scope java l0 → t.readLines R (ks.map fun k => indented (innerDeclaration k)) = some t' →
    (∀ k ∈ ks, isIdent k = true ∧ k ∉ scopelessNames ∧ scope ++ "::".toList ++ k ∉ t.packages) ∧
    ∃ l, t' = { t with place := .body scope java l, names := t.names ++ ks.map (scope ++ "::".toList ++ ·) } := by
  induction ks with
  | nil =>
    intro t t' l0 ht h
    cases h
    refine ⟨fun _ h => (nomatch h), l0, ?_⟩
    cases t
    simp only at ht
    subst ht
    simp
  | cons k ks ih =>
    intro t t' l0 ht h
    rw [List.map_cons, CppText.readLines, strip_indented (l := innerDeclaration k) (show some 'c' ≠ some ' ' by decide), readLine_body ht] at h
    obtain ⟨t1, h1, h⟩ := Option.bind_eq_some_iff.1 h
    obtain ⟨m, hm, ha, rfl⟩ := readBody_inv hj (show innerDeclaration k ≠ _ from fun e => nomatch e) h1
    rw [readMember_inner] at hm
    cases hm
    obtain ⟨h2, l, e⟩ := ih rfl h
    refine ⟨fun x hx => ?_, l, ?_⟩
    · rcases List.mem_cons.1 hx with rfl | hx
      · exact ha
      · exact h2 x hx
    · rw [e]
      simp [memberDeclares]

/-- Fields and methods. -/
theorem members_inv {scope : Str} {java : Option Str} (hj : R.fake = true → java ≠ none) (ls : List Str) : ∀ {t t' : CppText} {l0 : List CppMember},
    t.place = .body scope java l0 → (∀ l ∈ ls, l.head? ≠ some ' ' ∧ l ≠ "};".toList ∧ ∀ N k, readMember N (lastName scope) l ≠ some (.inner k)) →
    t.readLines R (ls.map indented) = some t' →
    (∀ l ∈ ls, ∃ m, readMember (t.known R) (lastName scope) l = some m ∧ MemberAllowed R t.packages scope m) ∧
    ∃ l, t' = { t with place := .body scope java l } := by
  induction ls with
  | nil =>
    intro t t' l0 ht _ h
    cases h
    refine ⟨fun _ h => (nomatch h), l0, ?_⟩
    cases t
    simp only at ht
    subst ht
    rfl
  | cons x ls ih =>
    intro t t' l0 ht hp h
    obtain ⟨p1, p2, p3⟩ := hp x (by simp)
    rw [List.map_cons, CppText.readLines, strip_indented p1, readLine_body ht] at h
    obtain ⟨t1, h1, h⟩ := Option.bind_eq_some_iff.1 h
    obtain ⟨m, hm, ha, rfl⟩ := readBody_inv hj p2 h1
    have hd : memberDeclares scope m = [] := by
      cases m with
      | inner k => exact absurd hm (p3 _ k)
      | named x f => rfl
      | ctor ps => rfl
    rw [hd, List.append_nil] at h
    obtain ⟨h2, l, e⟩ := ih (t := { t with place := .body scope java (l0 ++ [m]) }) rfl (fun l hl => hp l (by simp [hl])) h
    refine ⟨fun y hy => ?_, l, e⟩
    rcases List.mem_cons.1 hy with rfl | hy
    · exact ⟨m, hm, ha⟩
    · exact h2 y hy

/-- A class. -/
theorem header_inv {t t' : CppText} (ht : t.place = .top) (hsp : t.spaces = []) {scope n : Str} (hs : ' ' ∉ scope) {inner ls : List Str}
    (hl : ∀ l ∈ ls, l.head? ≠ some ' ' ∧ l ≠ "};".toList ∧ ∀ N k, readMember N (lastName scope) l ≠ some (.inner k))
    (h : t.readLines R (headLines R.fake scope n (inner.map innerDeclaration ++ ls)) = some t') :
    t'.place = .top ∧ t'.spaces = [] ∧ t'.packages = t.packages ∧ t'.names = t.names ++ inner.map (scope ++ "::".toList ++ ·) ∧
    (∀ k ∈ inner, isIdent k = true ∧ k ∉ scopelessNames ∧ scope ++ "::".toList ++ k ∉ t.packages) ∧
    ∀ l ∈ ls, ∃ m, readMember (namesKnown R t'.names) (lastName scope) l = some m ∧ MemberAllowed R t.packages scope m := by
  unfold headLines at h
  simp only [List.cons_append, List.nil_append, List.map_append, List.append_assoc] at h
  rw [CppText.readLines, readTop_heading_iff ht hsp hs] at h
  obtain ⟨t1, h1, h⟩ := Option.bind_eq_some_iff.1 h
  split at h1
  · cases h1
    rw [CppText.readLines] at h
    obtain ⟨t2, h2, h⟩ := Option.bind_eq_some_iff.1 h
    have hpub : CppText.readLine R { t with place := .heading scope } (stripBlanks "public:".toList) =
        some { t with place := .body scope none [] } := rfl
    rw [hpub] at h2
    cases h2
    have hjava : ∃ java, (R.fake = true → java ≠ none) ∧ CppText.readLines R { t with place := .body scope java [] }
        (inner.map (fun k => indented (innerDeclaration k)) ++ (ls.map indented ++ ["};".toList, []])) = some t' := by
      have e : (List.map indented (List.map innerDeclaration inner)) = inner.map (fun k => indented (innerDeclaration k)) := by
        rw [List.map_map]; rfl
      rw [e] at h
      cases hf : R.fake with
      | false =>
        rw [hf] at h
        exact ⟨none, fun e => (nomatch e), h⟩
      | true =>
        rw [hf, if_pos rfl] at h
        have hname : CppText.readLine R { t with place := .body scope none [] }
            (stripBlanks (indented ("DEFINE_CLASS_NAME(\"".toList ++ n ++ "\")".toList))) =
            some { t with place := .body scope (some n) [] } := by
          rw [strip_indented (l := "DEFINE_CLASS_NAME(\"".toList ++ n ++ "\")".toList) (show some 'D' ≠ some ' ' by decide)]
          have e1 : "DEFINE_CLASS_NAME(\"".toList ++ n ++ "\")".toList ≠ "};".toList := fun e => nomatch e
          simp only [CppText.readLine]
          unfold CppText.readBody
          rw [if_neg e1, between_append]
          simp only
          exact if_pos ⟨hf, trivial, trivial⟩
        rw [List.cons_append, List.nil_append, ← List.append_assoc "DEFINE_CLASS_NAME(\"".toList, readLines_step hname] at h
        exact ⟨some n, fun _ e => (nomatch e), h⟩
    obtain ⟨java, hj, h⟩ := hjava
    rw [readLines_append] at h
    obtain ⟨t3, h3, h⟩ := Option.bind_eq_some_iff.1 h
    obtain ⟨i1, l1, rfl⟩ := inners_inv hj inner (t := { t with place := .body scope java [] }) rfl h3
    rw [readLines_append] at h
    obtain ⟨t4, h4, h⟩ := Option.bind_eq_some_iff.1 h
    obtain ⟨i2, l2, rfl⟩ := members_inv hj ls rfl hl h4
    rw [CppText.readLines, readLine_body rfl, show stripBlanks "};".toList = "};".toList from rfl] at h
    obtain ⟨t5, h5, h⟩ := Option.bind_eq_some_iff.1 h
    unfold CppText.readBody at h5
    rw [if_pos rfl] at h5
    split at h5
    · cases h5
      rw [CppText.readLines, readLine_top rfl] at h
      cases h
      exact ⟨rfl, hsp, rfl, rfl, i1, i2⟩
    · cases h5
  · cases h1

/-! ### Lines of a namespace -/

theorem joinScope_jnivm {st : List Str} {n : Str} (h : joinScope (st ++ [n]) = "jnivm".toList) : st ++ [n] = ["jnivm".toList] := by
  cases st with
  | nil =>
    have h : n = "jnivm".toList := h
    rw [h]
    rfl
  | cons x st =>
    rw [joinScope_snoc (by simp)] at h
    have : ':' ∉ "jnivm".toList := by decide
    rw [← h] at this
    exact absurd (List.mem_append_left _ (List.mem_append_right _ (by decide))) this

/-- What the namespaces and forward declarations need. -/
theorem pre_inv (E : List PreLine) : ∀ (d : Nat) {t t' : CppText} {r}, t.place = .top → track t.spaces E = some r →
    t.readLines R (preLines d E) = some t' →
    t' = { t with spaces := r.1, names := t.names ++ declaredBy r.2, packages := t.packages ++ (opened t.spaces E).map joinScope } ∧
    (∀ n, PreLine.opens n ∈ E ∨ PreLine.declares n ∈ E → isIdent n = true) ∧
    (∀ n, PreLine.declares n ∈ E → n ∉ scopelessNames) ∧
    (∀ q ∈ opened t.spaces E, (q = ["jnivm".toList] ∨ ∀ k, q.getLast? = some k → k ∉ scopelessNames) ∧ joinScope q ∉ t.names ∧ joinScope q ∉ declaredBy r.2) ∧
    ∀ s ∈ declaredBy r.2, s ∉ t.packages := by
  induction E with
  | nil =>
    intro d t t' r _ h h'
    cases h
    cases h'
    refine ⟨by simp [opened, declaredBy], by simp, by simp, by simp [opened], by simp [declaredBy]⟩
  | cons e E ih =>
    intro d t t' r ht h h'
    cases e with
    | opens n =>
      rw [preLines, CppText.readLines] at h'
      obtain ⟨t1, h1, h'⟩ := Option.bind_eq_some_iff.1 h'
      unfold indentBy at h1
      rw [stripBlanks_replicate, show stripBlanks ("namespace ".toList ++ n ++ " {".toList) = "namespace ".toList ++ n ++ " {".toList from
        stripBlanks_cons (by decide) _, readLine_top ht, readTop_open] at h1
      simp only [CppText.openSpace] at h1
      split at h1
      · rename_i hc
        cases h1
        obtain ⟨e, i1, i2, i3, i4⟩ := ih (d + 1) (t := { t with spaces := t.spaces ++ [n], packages := t.packages ++ [joinScope (t.spaces ++ [n])] }) ht h h'
        refine ⟨by rw [e]; simp [opened], fun k hk => ?_, fun k hk => ?_, fun q hq => ?_, fun s hs hp => ?_⟩
        · by_cases hkn : k = n
          · rw [hkn]; exact hc.1
          · exact i1 k (by simpa [hkn] using hk)
        · exact i2 k (by simpa using hk)
        · rw [opened] at hq
          rcases List.mem_cons.1 hq with rfl | hq
          · refine ⟨?_, hc.2.2.1, fun hx => ?_⟩
            · rcases hc.2.1 with h | h
              · right
                intro k hk
                rw [List.getLast?_append] at hk
                cases hk
                exact h
              · left
                exact joinScope_jnivm h
            · exact i4 _ hx (by simp)
          · exact i3 q hq
        · exact i4 s hs (by simp [hp])
      · cases h1
    | declares n =>
      rw [preLines, CppText.readLines] at h'
      obtain ⟨t1, h1, h'⟩ := Option.bind_eq_some_iff.1 h'
      unfold track at h
      obtain ⟨q, hq, rfl⟩ := Option.map_eq_some_iff.1 h
      unfold indentBy at h1
      rw [stripBlanks_replicate, show stripBlanks ("class ".toList ++ n ++ ";".toList) = "class ".toList ++ n ++ ";".toList from
        stripBlanks_cons (by decide) _, readLine_top ht, readTop_class] at h1
      unfold CppText.declare at h1
      split at h1
      · rename_i hc
        cases h1
        obtain ⟨e, i1, i2, i3, i4⟩ := ih d (t := { t with names := t.names ++ [joinScope (t.spaces ++ [n])] }) ht hq h'
        refine ⟨by rw [e]; simp [opened, declaredBy], fun k hk => ?_, fun k hk => ?_, fun q hq => ?_, fun s hs hp => ?_⟩
        · by_cases hkn : k = n
          · rw [hkn]; exact hc.1
          · exact i1 k (by simpa [hkn] using hk)
        · by_cases hkn : k = n
          · rw [hkn]; exact hc.2.1
          · exact i2 k (by simpa [hkn] using hk)
        · obtain ⟨j1, j2, j3⟩ := i3 q hq
          simp only [List.mem_append, List.mem_singleton, not_or] at j2
          refine ⟨j1, j2.1, ?_⟩
          simp only [declaredBy, List.map_cons, List.mem_cons, not_or]
          exact ⟨j2.2, j3⟩
        · simp only [declaredBy, List.map_cons, List.mem_cons] at hs
          rcases hs with rfl | hs
          · exact hc.2.2.1 hp
          · exact i4 s hs hp
      · cases h1
    | closes =>
      unfold track at h
      split at h
      · cases h
      · rename_i hne
        rw [preLines, CppText.readLines] at h'
        obtain ⟨t1, h1, h'⟩ := Option.bind_eq_some_iff.1 h'
        unfold indentBy at h1
        rw [stripBlanks_replicate, show stripBlanks "}".toList = "}".toList from by decide, readLine_top ht, readTop_close hne] at h1
        cases h1
        obtain ⟨e, i1, i2, i3, i4⟩ := ih (d - 1) (t := { t with spaces := t.spaces.dropLast }) ht h h'
        refine ⟨by rw [e]; simp [opened], fun k hk => i1 k (by simpa using hk), fun k hk => i2 k (by simpa using hk), i3, i4⟩

end Jnivm
