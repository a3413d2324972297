import Verif.Lemmas.CppText
import Verif.Props.Codegen
/-! Lemmas about reading the lines of a class dump. -/
namespace Jnivm
open Spec

theorem after_space {p a : Str} (hp : ' ' ∉ p) (ha : ' ' ∉ a) (h : a ≠ p) (b : Str) :
    after (p ++ [' ']) (a ++ ' ' :: b) = none := by
  induction p generalizing a with
  | nil =>
    cases a with
    | nil => exact absurd rfl h
    | cons x a =>
      simp only [List.mem_cons, not_or] at ha
      simp only [List.nil_append, List.cons_append, after, if_neg ha.1]
  | cons c p ih =>
    simp only [List.mem_cons, not_or] at hp
    cases a with
    | nil => simp only [List.nil_append, List.cons_append, after, if_neg (Ne.symm hp.1)]
    | cons x a =>
      simp only [List.mem_cons, not_or] at ha
      simp only [List.cons_append, after]
      by_cases hx : c = x
      · rw [if_pos hx]
        exact ih hp.2 ha.2 (fun e => h (by rw [hx, e]))
      · rw [if_neg hx]

theorem after_early {p a : Str} {ch : Char} (hp : ch ∉ p) (hs : ' ' ∈ p) (ha : ' ' ∉ a) (b : Str) :
    after p (a ++ ch :: b) = none := by
  induction p generalizing a with
  | nil => cases hs
  | cons c p ih =>
    simp only [List.mem_cons, not_or] at hp
    cases a with
    | nil => simp only [List.nil_append, after, if_neg (Ne.symm hp.1)]
    | cons x a =>
      simp only [List.mem_cons, not_or] at ha
      simp only [List.cons_append, after]
      by_cases hx : c = x
      · rw [if_pos hx]
        refine ih hp.2 ?_ ha.2
        rcases List.mem_cons.1 hs with h | h
        · exact absurd (h.trans hx) ha.1
        · exact h
      · rw [if_neg hx]

theorem ident_word {s : Str} (h : isIdent s = true) : s ≠ [] ∧ ∀ c ∈ s, wordChar c = true := by
  cases s with
  | nil => cases h
  | cons c t =>
    simp only [isIdent, Bool.and_eq_true, List.all_eq_true] at h
    exact ⟨by simp, h.1.2⟩

theorem ident_lacks {s : Str} (h : isIdent s = true) {c : Char} (hc : wordChar c = false) : c ∉ s := fun hx => by
  rw [(ident_word h).2 c hx] at hc
  cases hc

theorem type_lacks (fake : Bool) {t : Ty} (h : ∀ n ∈ t.classNames, WordName n) {c : Char} (hc : typeChar c = false) :
    c ∉ cppType fake t := fun hx => by
  rw [cppType_chars fake h c hx] at hc
  cases hc

theorem ret_lacks (fake : Bool) {ret : Option Ty} (h : ∀ t, ret = some t → ∀ n ∈ t.classNames, WordName n) {c : Char}
    (hc : typeChar c = false) : c ∉ cppRet fake ret := by
  cases ret with
  | none =>
    intro hx
    have : ∀ c ∈ "void".toList, typeChar c = true := by decide
    rw [this c hx] at hc
    cases hc
  | some t => exact type_lacks fake (h t rfl) hc

theorem ret_word (fake : Bool) (ret : Option Ty) : cppRet fake ret ≠ "class".toList ∧ cppRet fake ret ≠ "static".toList := by
  have sh : ∀ s : Str, "std::shared_ptr<".toList ++ s ++ ">".toList ≠ "class".toList ∧
      "std::shared_ptr<".toList ++ s ++ ">".toList ≠ "static".toList := by
    intro s
    have h1 : '<' ∈ "std::shared_ptr<".toList ++ s ++ ">".toList := by
      rw [List.append_assoc]
      exact List.mem_append_left _ (by decide)
    constructor
    · intro hx; rw [hx] at h1; revert h1; decide
    · intro hx; rw [hx] at h1; revert h1; decide
  cases ret with
  | none => exact (by decide : "void".toList ≠ "class".toList ∧ "void".toList ≠ "static".toList)
  | some t =>
    cases t with
    | prim p => cases fake <;> cases p <;> decide +kernel
    | cls n => exact sh _
    | arr u => exact sh _

/-! ### Parameters -/

/-- The types of the parameters in front of the Java parameters. -/
def implicitOf (N : CppNames) (clazz : Nat) (fake static : Bool) : List CppTy :=
  if fake then [] else if static then [.env N.env, .data .pointer (.cls clazz)] else [.env N.env]

theorem readType_env (N : CppNames) : readType N "jnivm::ENV*".toList = some (.env N.env) := by
  have h1 : "jnivm::ENV*".toList ≠ "void".toList := by decide
  have h2 : between "std::shared_ptr<".toList ">".toList "jnivm::ENV*".toList = none := by decide +kernel
  have h3 : before "*".toList "jnivm::ENV*".toList = some "jnivm::ENV".toList := by decide +kernel
  unfold readType
  rw [if_neg h1, h2, h3]
  exact if_pos rfl

theorem readType_class {N : CppNames} {clazz : Nat} (h : N.cls "jnivm::Class".toList = some clazz) :
    readType N "jnivm::Class*".toList = some (.data .pointer (.cls clazz)) := by
  have h1 : "jnivm::Class*".toList ≠ "void".toList := by decide
  have h2 : between "std::shared_ptr<".toList ">".toList "jnivm::Class*".toList = none := by decide +kernel
  have h3 : before "*".toList "jnivm::Class*".toList = some "jnivm::Class".toList := by decide +kernel
  have h4 : "jnivm::Class".toList ≠ "jnivm::ENV".toList := by decide +kernel
  unfold readType
  rw [if_neg h1, h2, h3]
  simp only [if_neg h4, h, Option.map_some]

theorem readParam_blank {N : CppNames} {s t x : Str} {c : Char} (h : splitFirst ' ' s = some (t, c :: x)) (hc : c ≠ '*') :
    readParam N s = (readType N t).map fun t => (t, c :: x) := by
  unfold readParam
  rw [h]
  split
  · rename_i h; cases h
  · rename_i h; cases h; exact absurd rfl hc
  · rename_i h; cases h; rfl

theorem readParam_env (N : CppNames) : readParam N "jnivm::ENV* env".toList = some (.env N.env, "env".toList) ∧
    readParam N "jnivm::ENV *env".toList = some (.env N.env, "env".toList) := by
  have h1 : splitFirst ' ' "jnivm::ENV* env".toList = some ("jnivm::ENV*".toList, 'e' :: "nv".toList) := by decide +kernel
  have h2 : splitFirst ' ' "jnivm::ENV *env".toList = some ("jnivm::ENV".toList, '*' :: "env".toList) := by decide +kernel
  have h3 : "jnivm::ENV".toList ++ "*".toList = "jnivm::ENV*".toList := by decide +kernel
  have h4 : 'e' :: "nv".toList = "env".toList := by decide
  constructor
  · rw [readParam_blank h1 (by decide), readType_env, h4]
    rfl
  · unfold readParam
    rw [h2]
    simp only [h3, readType_env, Option.map_some]

theorem readParam_class {N : CppNames} {clazz : Nat} (h : N.cls "jnivm::Class".toList = some clazz) :
    readParam N "jnivm::Class* cl".toList = some (.data .pointer (.cls clazz), "cl".toList) := by
  have h1 : splitFirst ' ' "jnivm::Class* cl".toList = some ("jnivm::Class*".toList, 'c' :: "l".toList) := by decide +kernel
  have h4 : 'c' :: "l".toList = "cl".toList := by decide
  rw [readParam_blank h1 (by decide), readType_class h, h4]
  rfl

theorem readParam_type {N : CppNames} {fake : Bool} {num : Str → Nat} {t : Ty} (h : Known fake N num t) :
    readParam N (cppType fake t) = some (typeOf num t, []) := by
  unfold readParam
  rw [splitFirst_none (type_lacks fake (fun n hn => (h n hn).1) (by decide))]
  simp only [readType_cpp h, Option.map_some]

theorem readParam_named {N : CppNames} {fake : Bool} {num : Str → Nat} {t : Ty} (h : Known fake N num t) (i : Nat) :
    readParam N (cppType fake t ++ " ".toList ++ argName i) = some (typeOf num t, argName i) := by
  have e1 : " ".toList = [' '] := by decide
  have e2 : argName i = 'a' :: ("rg".toList ++ (Nat.repr i).toList) := by
    have : "arg".toList = 'a' :: "rg".toList := by decide
    simp only [argName, this, List.cons_append]
  rw [e2, e1, List.append_assoc, List.singleton_append,
    readParam_blank (splitFirst_append (type_lacks fake (fun n hn => (h n hn).1) (by decide)) _) (by decide),
    readType_cpp h]
  rfl

theorem readParams_plain {N : CppNames} {fake static : Bool} {num : Str → Nat} {clazz : Nat} {ts : List Ty}
    (hc : N.cls "jnivm::Class".toList = some clazz) (h : ∀ t ∈ ts, Known fake N num t) :
    ∃ ps, readAllOf (readParam N) (implicit fake static "jnivm::ENV* env".toList ++ ts.map (cppType fake)) = some ps ∧
      ps.map (·.1) = implicitOf N clazz fake static ++ ts.map (typeOf num) := by
  have h1 : readAllOf (readParam N) (ts.map (cppType fake)) = some (ts.map fun t => (typeOf num t, [])) :=
    readAllOf_map fun t ht => readParam_type (h t ht)
  have h2 : ∃ qs, readAllOf (readParam N) (implicit fake static "jnivm::ENV* env".toList) = some qs ∧
      qs.map (·.1) = implicitOf N clazz fake static := by
    unfold implicit implicitOf
    cases fake with
    | true => exact ⟨[], rfl, rfl⟩
    | false =>
      cases static with
      | false =>
        refine ⟨[(.env N.env, "env".toList)], ?_, rfl⟩
        simp only [Bool.false_eq_true, if_false, readAllOf, (readParam_env N).1, Option.bind_some, Option.map_some]
      | true =>
        refine ⟨[(.env N.env, "env".toList), (.data .pointer (.cls clazz), "cl".toList)], ?_, rfl⟩
        simp only [Bool.false_eq_true, if_false, if_true, readAllOf, (readParam_env N).1, readParam_class hc,
          Option.bind_some, Option.map_some]
  obtain ⟨qs, h2, h3⟩ := h2
  refine ⟨_, readAllOf_append h2 h1, ?_⟩
  rw [List.map_append, h3, List.map_map]
  rfl

theorem implicit_mem {fake static : Bool} {env p : Str} (h : p ∈ implicit fake static env) :
    p = env ∨ p = "jnivm::Class* cl".toList := by
  revert h
  unfold implicit
  cases fake <;> cases static <;>
    simp only [if_true, Bool.false_eq_true, if_false, List.mem_cons, List.not_mem_nil, or_false, false_imp_iff, imp_self]
  exact Or.inl

theorem params_plain {N : CppNames} {fake static : Bool} {num : Str → Nat} {ts : List Ty}
    (h : ∀ t ∈ ts, Known fake N num t) : ∀ p ∈ implicit fake static "jnivm::ENV* env".toList ++ ts.map (cppType fake),
      p ≠ [] ∧ ',' ∉ p := by
  intro p hp
  rcases List.mem_append.1 hp with hp | hp
  · have : ∀ q ∈ ["jnivm::ENV* env".toList, "jnivm::Class* cl".toList], q ≠ [] ∧ ',' ∉ q := by decide +kernel
    rcases implicit_mem hp with rfl | rfl
    · exact this _ List.mem_cons_self
    · exact this _ (List.mem_cons_of_mem _ List.mem_cons_self)
  · obtain ⟨t, ht, rfl⟩ := List.mem_map.1 hp
    exact ⟨cppType_ne fake t, type_lacks fake (fun n hn => (h t ht n hn).1) (by decide)⟩

/-! ### Declarations -/

theorem readMember_inner (N : CppNames) (cname k : Str) : readMember N cname (innerDeclaration k) = some (.inner k) := by
  unfold readMember innerDeclaration
  rw [between_append]

theorem readTyped_ok {N : CppNames} {s x : Str} {t : CppTy} (hs : ' ' ∉ s) (h : readType N s = some t)
    (hx : isIdent x = true) : readTyped N (s ++ " ".toList ++ x) = some (t, x) := by
  have e1 : " ".toList = [' '] := by decide
  unfold readTyped
  rw [e1, List.append_assoc, List.singleton_append, splitFirst_append hs]
  simp only [Option.bind_some, hx, if_true, h, Option.map_some]

theorem static_lit : "static ".toList = "static".toList ++ [' '] ∧ "class ".toList = "class".toList ++ [' '] := by
  decide +kernel

/-- `T x` starts with neither `class` nor `static`. -/
theorem ret_head (fake : Bool) {ret : Option Ty} (h : ∀ t, ret = some t → ∀ n ∈ t.classNames, WordName n) (s : Str) :
    after "class ".toList (cppRet fake ret ++ " ".toList ++ s) = none ∧
    after "static ".toList (cppRet fake ret ++ " ".toList ++ s) = none := by
  have e1 : " ".toList = [' '] := by decide
  have hr := ret_lacks fake h (c := ' ') (by decide)
  rw [static_lit.1, static_lit.2, e1, List.append_assoc, List.singleton_append]
  exact ⟨after_space (by decide) hr (ret_word fake ret).1 s, after_space (by decide) hr (ret_word fake ret).2 s⟩

theorem static_head (s : Str) : after "class ".toList ("static ".toList ++ s) = none := by
  have e1 : "class ".toList = 'c' :: "lass ".toList := by decide
  have e2 : "static ".toList = 's' :: "tatic ".toList := by decide
  rw [e1, e2]
  rfl

theorem readMember_method {N : CppNames} {fake static : Bool} {num : Str → Nat} {clazz : Nat} {ts : List Ty}
    {ret : Option Ty} {name cname : Str} (hc : N.cls "jnivm::Class".toList = some clazz)
    (h : ∀ t ∈ ts, Known fake N num t) (hret : ∀ t, ret = some t → Known fake N num t)
    (hx : isIdent name = true) (hcn : isIdent cname = true) (hne : name ≠ cname) :
    readMember N cname (declaration fake static name cname ts ret) =
      some (.named name ⟨if static then .plain else .member, retOf num ret,
        implicitOf N clazz fake static ++ ts.map (typeOf num)⟩) := by
  have hinit : name ≠ "<init>".toList := by
    intro e
    exact ident_lacks hx (c := '<') (by decide) (by rw [e]; decide)
  have hw : ∀ t, ret = some t → ∀ n ∈ t.classNames, WordName n := fun t ht n hn => (hret t ht n hn).1
  have e2 : "(".toList = ['('] := by decide
  have hsp : ' ' ∉ cname := ident_lacks hcn (by decide)
  obtain ⟨ps, h1, h2⟩ := readParams_plain (static := static) hc h
  have hit := items_commas (params_plain (static := static) h)
  have hb : ∀ l : Str, between [] ");".toList (l ++ ");".toList) = some l := fun l => between_append [] _ l
  cases static with
  | true =>
    have e : declaration fake true name cname ts ret = ("static ".toList ++ (cppRet fake ret ++ " ".toList ++ name)) ++
        '(' :: (commas (implicit fake true "jnivm::ENV* env".toList ++ ts.map (cppType fake)) ++ ");".toList) := by
      unfold declaration
      rw [if_neg hinit, e2]
      simp only [if_true, List.append_assoc, List.cons_append, List.nil_append]
    have hno : '(' ∉ "static ".toList ++ (cppRet fake ret ++ " ".toList ++ name) := by
      have a1 : '(' ∉ "static ".toList ∧ '(' ∉ " ".toList := by decide
      simp only [List.mem_append, not_or]
      exact ⟨a1.1, ⟨ret_lacks fake hw (by decide), a1.2⟩, ident_lacks hx (by decide)⟩
    have hhead : "static ".toList ++ (cppRet fake ret ++ " ".toList ++ name) ≠ cname := by
      intro e'
      rw [← e'] at hsp
      exact hsp (List.mem_append_left _ (by decide))
    unfold readMember
    rw [e, between_none (by rw [List.append_assoc]; exact static_head _), splitFirst_append hno]
    simp only [hb, Option.bind_some, hit, h1, if_neg hhead, after_append,
      readTyped_ok (ret_lacks fake hw (by decide)) (readType_ret hret) hx, if_neg hne, h2, if_true]
  | false =>
    have e : declaration fake false name cname ts ret = (cppRet fake ret ++ " ".toList ++ name) ++
        '(' :: (commas (implicit fake false "jnivm::ENV* env".toList ++ ts.map (cppType fake)) ++ ");".toList) := by
      unfold declaration
      rw [if_neg hinit, e2]
      simp only [Bool.false_eq_true, if_false, List.append_assoc, List.cons_append, List.nil_append]
    have hno : '(' ∉ cppRet fake ret ++ " ".toList ++ name := by
      have a1 : '(' ∉ " ".toList := by decide
      simp only [List.mem_append, not_or]
      exact ⟨⟨ret_lacks fake hw (by decide), a1⟩, ident_lacks hx (by decide)⟩
    have hhead : cppRet fake ret ++ " ".toList ++ name ≠ cname := by
      intro e'
      rw [← e', List.append_assoc] at hsp
      exact hsp (List.mem_append_right _ (List.mem_append_left _ (by decide)))
    unfold readMember
    rw [e, between_none (by rw [List.append_assoc]; exact (ret_head fake hw _).1), splitFirst_append hno]
    simp only [hb, Option.bind_some, hit, h1, if_neg hhead, (ret_head fake hw name).2,
      readTyped_ok (ret_lacks fake hw (by decide)) (readType_ret hret) hx, if_neg hne, h2, Bool.false_eq_true, if_false]

theorem readMember_ctor {N : CppNames} {fake static : Bool} {num : Str → Nat} {clazz : Nat} {ts : List Ty}
    {ret : Option Ty} {cname : Str} (hc : N.cls "jnivm::Class".toList = some clazz)
    (h : ∀ t ∈ ts, Known fake N num t) (hcn : isIdent cname = true) :
    readMember N cname (declaration fake static "<init>".toList cname ts ret) =
      some (.ctor (implicitOf N clazz fake static ++ ts.map (typeOf num))) := by
  have e2 : "(".toList = ['('] := by decide
  obtain ⟨ps, h1, h2⟩ := readParams_plain (static := static) hc h
  have hit := items_commas (params_plain (static := static) h)
  have hb : ∀ l : Str, between [] ");".toList (l ++ ");".toList) = some l := fun l => between_append [] _ l
  have e : declaration fake static "<init>".toList cname ts ret = cname ++
      '(' :: (commas (implicit fake static "jnivm::ENV* env".toList ++ ts.map (cppType fake)) ++ ");".toList) := by
    unfold declaration
    rw [if_pos rfl, e2]
    simp only [List.append_assoc, List.cons_append, List.nil_append]
  unfold readMember
  rw [e, between_none (after_early (by decide) (by decide) (ident_lacks hcn (by decide)) _),
    splitFirst_append (ident_lacks hcn (by decide))]
  simp only [hb, Option.bind_some, hit, h1, if_true, h2]

theorem readMember_field {N : CppNames} {fake static : Bool} {num : Str → Nat} {t : Ty} {name cname : Str}
    (h : Known fake N num t) (hx : isIdent name = true) (hne : name ≠ cname) :
    readMember N cname (fieldDeclaration fake static name t) =
      some (.named name ⟨if static then .variable else .dataMember, typeOf num t, []⟩) := by
  have hw : ∀ u, some t = some u → ∀ n ∈ u.classNames, WordName n := by
    rintro u ⟨⟩ n hn
    exact (h n hn).1
  have hret : cppRet fake (some t) = cppType fake t := rfl
  have hb : ∀ l : Str, between [] ";".toList (l ++ ";".toList) = some l := fun l => between_append [] _ l
  have a1 : '(' ∉ "static ".toList ∧ '(' ∉ " ".toList ∧ '(' ∉ ";".toList := by decide
  cases static with
  | true =>
    have e : fieldDeclaration fake true name t = ("static ".toList ++ (cppType fake t ++ " ".toList ++ name)) ++ ";".toList := by
      unfold fieldDeclaration
      simp only [if_true, List.append_assoc]
    have hno : '(' ∉ ("static ".toList ++ (cppType fake t ++ " ".toList ++ name)) ++ ";".toList := by
      simp only [List.mem_append, not_or]
      exact ⟨⟨a1.1, ⟨ret_lacks fake hw (by decide), a1.2.1⟩, ident_lacks hx (by decide)⟩, a1.2.2⟩
    unfold readMember
    rw [e, between_none (by rw [List.append_assoc]; exact static_head _), splitFirst_none hno]
    simp only [hb, Option.bind_some, after_append, readTyped_ok (type_lacks fake (hw t rfl) (c := ' ') (by decide)) (readType_cpp h) hx,
      if_neg hne, if_true]
  | false =>
    have e : fieldDeclaration fake false name t = (cppType fake t ++ " ".toList ++ name) ++ ";".toList := by
      unfold fieldDeclaration
      simp only [Bool.false_eq_true, if_false, List.nil_append]
    have hno : '(' ∉ (cppType fake t ++ " ".toList ++ name) ++ ";".toList := by
      simp only [List.mem_append, not_or]
      exact ⟨⟨⟨ret_lacks fake hw (by decide), a1.2.1⟩, ident_lacks hx (by decide)⟩, a1.2.2⟩
    have hh := ret_head fake hw
    rw [hret] at hh
    unfold readMember
    rw [e, between_none (by rw [List.append_assoc (cppType fake t ++ " ".toList)]; exact (hh _).1), splitFirst_none hno]
    simp only [hb, Option.bind_some, (hh name).2, readTyped_ok (type_lacks fake (hw t rfl) (c := ' ') (by decide)) (readType_cpp h) hx,
      if_neg hne, Bool.false_eq_true, if_false]

/-! ### Bindings -/

/-- The name of a member. -/
def memberName : CppMember → Option Str
  | .named x _ => some x
  | _ => none

theorem memberNamed_of {ms : List CppMember} {x : Str} {f : CppFn} (h : .named x f ∈ ms)
    (hn : (ms.filterMap memberName).Nodup) : memberNamed ms x = some f := by
  have key : ∀ ms : List CppMember, (ms.filterMap memberName).Nodup →
      (x ∉ ms.filterMap memberName → (ms.filterMap fun m => match m with
        | .named y f => if y = x then some f else none
        | _ => none) = []) ∧
      (.named x f ∈ ms → (ms.filterMap fun m => match m with
        | .named y f => if y = x then some f else none
        | _ => none) = [f]) := by
    intro ms
    induction ms with
    | nil => exact fun _ => ⟨fun _ => rfl, fun h => nomatch h⟩
    | cons m ms ih =>
      intro hn
      cases m with
      | inner k =>
        obtain ⟨h1, h2⟩ := ih hn
        refine ⟨h1, fun h => h2 ?_⟩
        rcases List.mem_cons.1 h with h | h
        · cases h
        · exact h
      | ctor ps =>
        obtain ⟨h1, h2⟩ := ih hn
        refine ⟨h1, fun h => h2 ?_⟩
        rcases List.mem_cons.1 h with h | h
        · cases h
        · exact h
      | named y g =>
        have e : (CppMember.named y g :: ms).filterMap memberName = y :: ms.filterMap memberName := rfl
        rw [e] at hn ⊢
        obtain ⟨hy, hn⟩ := List.nodup_cons.1 hn
        obtain ⟨h1, h2⟩ := ih hn
        constructor
        · intro hx
          simp only [List.mem_cons, not_or] at hx
          rw [List.filterMap_cons]
          simp only [if_neg (Ne.symm hx.1)]
          exact h1 hx.2
        · intro h
          rw [List.filterMap_cons]
          rcases List.mem_cons.1 h with h | h
          · cases h
            simp only [if_true, h1 hy]
          · have hyx : y ≠ x := by
              rintro rfl
              exact hy (List.mem_filterMap.2 ⟨_, h, rfl⟩)
            simp only [if_neg hyx]
            exact h2 h
  exact congrArg (fun l : List CppFn => match l with
    | [f] => some f
    | _ => none) ((key ms hn).2 h)

theorem memberNamed_none {ms : List CppMember} {x : Str} (h : 2 ≤ (ms.filterMap memberName).count x) :
    memberNamed ms x = none := by
  have key : ∀ ms : List CppMember, (ms.filterMap fun m => match m with
        | .named y f => if y = x then some f else none
        | _ => none).length = (ms.filterMap memberName).count x := by
    intro ms
    induction ms with
    | nil => rfl
    | cons m ms ih =>
      cases m with
      | inner k => exact ih
      | ctor ps => exact ih
      | named y g =>
        have e : (CppMember.named y g :: ms).filterMap memberName = y :: ms.filterMap memberName := rfl
        rw [e, List.filterMap_cons, List.count_cons]
        by_cases hy : y = x
        · simp only [hy, if_true, List.length_cons, ih, beq_self_eq_true]
        · simp only [if_neg hy, ih, beq_eq_false_iff_ne.2 hy, Bool.false_eq_true, if_false, Nat.add_zero]
  unfold memberNamed
  split
  · rename_i hs
    have := (congrArg List.length hs).symm.trans (key ms)
    simp only [List.length_cons, List.length_nil] at this
    omega
  · rfl

theorem readHook_map {N : CppNames} {D : CppDecl} {x : Str} (fn : Nat → Nat) (hx : isIdent x = true) :
    readHook N D fn (methodHook D.scope x) = (memberNamed D.members x).map fun f => hookEntry f x fn := by
  have e : methodHook D.scope x = "c->Hook(env, \"".toList ++ (x ++ '"' :: (", ".toList ++
      (("&".toList ++ D.scope ++ "::".toList) ++ x))) ++ ");\n".toList := by
    have e1 : "\", &".toList = '"' :: (", ".toList ++ "&".toList) := by decide
    unfold methodHook
    rw [e1]
    simp only [List.append_assoc, List.cons_append]
  unfold readHook
  rw [e, between_append]
  simp only [Option.bind_some, splitFirst_append (ident_lacks hx (c := '"') (by decide)), after_append]

theorem readHook_named {N : CppNames} {D : CppDecl} {f : CppFn} {x : Str} (fn : Nat → Nat) (hx : isIdent x = true)
    (h : memberNamed D.members x = some f) : readHook N D fn (methodHook D.scope x) = some (hookEntry f x fn) := by
  rw [readHook_map fn hx, h, Option.map_some]

theorem named_read {N : CppNames} {fake : Bool} {num : Str → Nat} {ts : List Ty} (h : ∀ t ∈ ts, Known fake N num t) : ∀ k,
    ∃ ps, readAllOf (readParam N) (namedFrom fake k ts) = some ps ∧ ps.map (·.1) = ts.map (typeOf num) ∧
      ps.map (·.2) = namesFrom k ts.length := by
  induction ts with
  | nil => exact fun k => ⟨[], rfl, rfl, rfl⟩
  | cons t ts ih =>
    intro k
    obtain ⟨ps, h1, h2, h3⟩ := ih (fun u hu => h u (by simp [hu])) (k + 1)
    refine ⟨(typeOf num t, argName k) :: ps, ?_, ?_, ?_⟩
    · simp only [namedFrom, readAllOf, readParam_named (h t (by simp)) k, h1, Option.bind_some, Option.map_some]
    · simp only [List.map_cons, h2]
    · simp only [List.map_cons, h3, List.length_cons, namesFrom]

theorem argName_chars (i : Nat) : argName i ≠ [] ∧ ∀ c ∈ argName i, wordChar c = true := by
  have h1 : ∀ c ∈ "arg".toList, wordChar c = true := by decide
  refine ⟨?_, fun c hc => ?_⟩
  · simp [argName]
  · rcases List.mem_append.1 hc with hc | hc
    · exact h1 c hc
    · have := Nat.isDigit_of_mem_toDigits (b := 10) (n := i) (by decide) (by decide)
        (c := c) (by simpa [Nat.repr] using hc)
      simp [wordChar, Char.isAlphanum, this]

theorem argName_lacks (i : Nat) {c : Char} (hc : wordChar c = false) : c ∉ argName i := fun hx => by
  rw [(argName_chars i).2 c hx] at hc
  cases hc

theorem namedFrom_mem {fake : Bool} {ts : List Ty} : ∀ {k : Nat} {p : Str}, p ∈ namedFrom fake k ts →
    ∃ t ∈ ts, ∃ i, p = cppType fake t ++ " ".toList ++ argName i := by
  induction ts with
  | nil => intro k p h; cases h
  | cons t ts ih =>
    intro k p h
    rcases List.mem_cons.1 h with rfl | h
    · exact ⟨t, by simp, k, rfl⟩
    · obtain ⟨u, hu, i, e⟩ := ih h
      exact ⟨u, by simp [hu], i, e⟩

theorem namesFrom_mem {n : Nat} : ∀ {k : Nat} {p : Str}, p ∈ namesFrom k n → ∃ i, p = argName i := by
  induction n with
  | zero => intro k p h; cases h
  | succ n ih =>
    intro k p h
    rcases List.mem_cons.1 h with rfl | h
    · exact ⟨k, rfl⟩
    · exact ih h

theorem commas_lacks {c : Char} {l : List Str} (h : ∀ p ∈ l, c ∉ p) (h1 : c ≠ ',') (h2 : c ≠ ' ') : c ∉ commas l := by
  have e : ∀ x ∈ ", ".toList, x = ',' ∨ x = ' ' := by decide
  induction l with
  | nil => intro hx; cases hx
  | cons p l ih =>
    cases l with
    | nil => exact h p (by simp)
    | cons q l =>
      intro hx
      simp only [commas, List.mem_append] at hx
      rcases hx with (hx | hx) | hx
      · exact h p (by simp) hx
      · rcases e c hx with hx | hx
        · exact h1 hx
        · exact h2 hx
      · exact ih (fun r hr => h r (by simp [hr])) hx

theorem readHook_ctor {N : CppNames} {D : CppDecl} {num : Str → Nat} {clazz : Nat} {ts : List Ty} (fn : Nat → Nat)
    (hc : N.cls "jnivm::Class".toList = some clazz) (h : ∀ t ∈ ts, Known false N num t)
    (hm : .ctor (implicitOf N clazz false true ++ ts.map (typeOf num)) ∈ D.members) :
    readHook N D fn (constructorBinding D.scope ts) = some (hookEntry ⟨.plain, .data .shared (.cls D.type),
      implicitOf N clazz false true ++ ts.map (typeOf num)⟩ "<init>".toList fn) := by
  generalize hP : "jnivm::ENV *env".toList :: "jnivm::Class* cl".toList :: namedFrom false 0 ts = P
  generalize hA : "env".toList :: "cl".toList :: namesFrom 0 ts.length = A
  have hlit : ∀ q ∈ ["jnivm::ENV *env".toList, "jnivm::Class* cl".toList], (q ≠ [] ∧ ',' ∉ q) ∧ ')' ∉ q := by decide +kernel
  have hP1 : ∀ p ∈ P, (p ≠ [] ∧ ',' ∉ p) ∧ ')' ∉ p := by
    intro p hp
    rw [← hP] at hp
    rcases List.mem_cons.1 hp with rfl | hp
    · exact hlit _ List.mem_cons_self
    · rcases List.mem_cons.1 hp with rfl | hp
      · exact hlit _ (List.mem_cons_of_mem _ List.mem_cons_self)
      · obtain ⟨t, ht, i, rfl⟩ := namedFrom_mem hp
        have hw : ∀ n ∈ t.classNames, WordName n := fun n hn => (h t ht n hn).1
        have hb : ',' ∉ " ".toList ∧ ')' ∉ " ".toList := by decide
        refine ⟨⟨?_, ?_⟩, ?_⟩
        · simp [cppType_ne]
        · simp only [List.mem_append, not_or]
          exact ⟨⟨type_lacks false hw (by decide), hb.1⟩, argName_lacks i (by decide)⟩
        · simp only [List.mem_append, not_or]
          exact ⟨⟨type_lacks false hw (by decide), hb.2⟩, argName_lacks i (by decide)⟩
  have hA1 : ∀ p ∈ A, p ≠ [] ∧ ',' ∉ p := by
    have hl : ∀ q ∈ ["env".toList, "cl".toList], q ≠ [] ∧ ',' ∉ q := by decide
    intro p hp
    rw [← hA] at hp
    rcases List.mem_cons.1 hp with rfl | hp
    · exact hl _ List.mem_cons_self
    · rcases List.mem_cons.1 hp with rfl | hp
      · exact hl _ (List.mem_cons_of_mem _ List.mem_cons_self)
      · obtain ⟨i, rfl⟩ := namesFrom_mem hp
        exact ⟨(argName_chars i).1, argName_lacks i (by decide)⟩
  obtain ⟨qs, r1, r2, r3⟩ := named_read h 0
  have hread : readAllOf (readParam N) P =
      some ((.env N.env, "env".toList) :: (.data .pointer (.cls clazz), "cl".toList) :: qs) := by
    rw [← hP]
    simp only [readAllOf, (readParam_env N).2, readParam_class hc, r1, Option.bind_some, Option.map_some]
  have hnames : A.Nodup := by
    have hl : ∀ q ∈ ["env".toList, "cl".toList], q.head? ≠ some 'a' := by decide
    have ha : ∀ p ∈ namesFrom 0 ts.length, p.head? = some 'a' := by
      intro p hp
      obtain ⟨i, rfl⟩ := namesFrom_mem hp
      have : "arg".toList = 'a' :: "rg".toList := by decide
      simp only [argName, this, List.cons_append, List.head?_cons]
    rw [← hA]
    refine List.nodup_cons.2 ⟨?_, List.nodup_cons.2 ⟨?_, codegen_names_distinct 0 _⟩⟩
    · intro hx
      rcases List.mem_cons.1 hx with hx | hx
      · revert hx; decide
      · exact hl _ List.mem_cons_self (ha _ hx)
    · exact fun hx => hl _ (List.mem_cons_of_mem _ List.mem_cons_self) (ha _ hx)
  have htypes : ((CppTy.env N.env, "env".toList) :: (.data .pointer (.cls clazz), "cl".toList) :: qs).map (·.1) =
      implicitOf N clazz false true ++ ts.map (typeOf num) := by
    simp only [List.map_cons, r2]
    rfl
  have hargs : ((CppTy.env N.env, "env".toList) :: (.data .pointer (.cls clazz), "cl".toList) :: qs).map (·.2) = A := by
    simp only [List.map_cons, r3]
    exact hA
  have e : constructorBinding D.scope ts = "c->Hook(env, \"".toList ++ ("<init>".toList ++ '"' :: (", ".toList ++
      ("[](".toList ++ (commas P ++ ')' :: ((" {   return std::make_shared<".toList ++ D.scope ++ ">".toList) ++
        ("(".toList ++ commas A ++ ")".toList))) ++ ";}".toList))) ++ ");\n".toList := by
    have e1 : "c->Hook(env, \"<init>\", [](".toList = "c->Hook(env, \"".toList ++ ("<init>".toList ++ '"' :: (", ".toList ++
        "[](".toList)) := by decide +kernel
    have e2 : ") {   return std::make_shared<".toList = ')' :: " {   return std::make_shared<".toList := by decide +kernel
    have e3 : ">(".toList = ">".toList ++ "(".toList := by decide
    have e4 : ");});\n".toList = ")".toList ++ (";}".toList ++ ");\n".toList) := by decide
    unfold constructorBinding
    rw [hP, hA, e1, e2, e3, e4]
    simp only [List.append_assoc, List.cons_append]
  have hq : '"' ∉ "<init>".toList := by decide
  have hl : ∀ s : Str, after ("&".toList ++ D.scope ++ "::".toList) ("[](".toList ++ s ++ ";}".toList) = none := by
    intro s
    have e1 : "&".toList = ['&'] := by decide
    have e2 : "[](".toList = ['[', ']', '('] := by decide
    rw [e1, e2]
    rfl
  unfold readHook
  rw [e, between_append]
  simp only [Option.bind_some, splitFirst_append hq, after_append, hl]
  unfold readLambda
  rw [between_append]
  simp only [Option.bind_some, splitFirst_append (commas_lacks (fun p hp => (hP1 p hp).2) (by decide) (by decide)),
    items_commas (fun p hp => (hP1 p hp).1), hread, after_append, between_append, items_commas hA1]
  rw [htypes, hargs, if_pos ⟨rfl, hnames, hm⟩]
  rfl

/-- The flags of a member in the fake-jni syntax. -/
def flagsOf (static : Bool) : BitVec 32 := if static then publicFlag ||| staticFlag else publicFlag

theorem readFlags_ok (kind : Str) (static : Bool) : readFlags kind
    (kind ++ "::PUBLIC".toList ++ (if static then " | ".toList ++ kind ++ "::STATIC".toList else [])) = some (flagsOf static) := by
  cases static with
  | false =>
    unfold readFlags
    rw [if_pos (by simp)]
    rfl
  | true =>
    have e : "::PUBLIC | ".toList = "::PUBLIC".toList ++ " | ".toList := by decide +kernel
    unfold readFlags
    rw [if_neg, if_pos]
    · rfl
    · rw [e]
      simp only [if_true, List.append_assoc]
    · intro h
      have := congrArg List.length h
      have l1 : " | ".toList.length = 3 := by decide
      simp only [if_true, List.length_append, l1] at this
      omega

theorem readNamed_map {D : CppDecl} {x : Str} (fn : Nat → Nat) (kind : Str) (static : Bool) (hx : isIdent x = true) :
    readNamed D fn kind ((D.cname ++ "::".toList) ++ (x ++ '>' :: ("{}, \"".toList ++ (x ++ '"' :: (", ".toList ++
      (kind ++ "::PUBLIC".toList ++ (if static then " | ".toList ++ kind ++ "::STATIC".toList else [])) ++ " ".toList))))) =
      (memberNamed D.members x).map fun f => .named f x (some (flagsOf static)) fn := by
  unfold readNamed
  rw [after_append]
  simp only [Option.bind_some, splitFirst_append (ident_lacks hx (c := '>') (by decide)), after_append,
    splitFirst_append (ident_lacks hx (c := '"') (by decide)), between_append, readFlags_ok]

theorem readEntry_fn_map {N : CppNames} {D : CppDecl} {x : Str} (fn : Nat → Nat) (static : Bool) (hx : isIdent x = true) :
    readEntry N D fn (fakeFunction static D.cname x) =
      (memberNamed D.members x).map fun f => .named f x (some (flagsOf static)) fn := by
  have e : fakeFunction static D.cname x = "{FakeJni::".toList ++ ("Function<&".toList ++ ((D.cname ++ "::".toList) ++
      (x ++ '>' :: ("{}, \"".toList ++ (x ++ '"' :: (", ".toList ++ ("FakeJni::JMethodID".toList ++ "::PUBLIC".toList ++
        (if static then " | ".toList ++ "FakeJni::JMethodID".toList ++ "::STATIC".toList else [])) ++ " ".toList)))))) ++
      "},\n".toList := by
    have e1 : "{FakeJni::Function<&".toList = "{FakeJni::".toList ++ "Function<&".toList := by decide +kernel
    have e2 : ">{}, \"".toList = '>' :: "{}, \"".toList := by decide
    have e3 : "\", FakeJni::JMethodID::PUBLIC".toList = '"' :: (", ".toList ++ ("FakeJni::JMethodID".toList ++ "::PUBLIC".toList)) := by
      decide +kernel
    have e4 : " | FakeJni::JMethodID::STATIC".toList = " | ".toList ++ "FakeJni::JMethodID".toList ++ "::STATIC".toList := by
      decide +kernel
    have e5 : " },\n".toList = " ".toList ++ "},\n".toList := by decide
    unfold fakeFunction
    rw [e1, e2, e3, e4, e5]
    simp only [List.append_assoc, List.cons_append]
  unfold readEntry
  rw [e, between_append]
  simp only [Option.bind_some, after_append]
  exact readNamed_map fn _ static hx

theorem readEntry_fn {N : CppNames} {D : CppDecl} {f : CppFn} {x : Str} (fn : Nat → Nat) (static : Bool)
    (hx : isIdent x = true) (h : memberNamed D.members x = some f) :
    readEntry N D fn (fakeFunction static D.cname x) = some (.named f x (some (flagsOf static)) fn) := by
  rw [readEntry_fn_map fn static hx, h, Option.map_some]

theorem readEntry_field_map {N : CppNames} {D : CppDecl} {x : Str} (fn : Nat → Nat) (static : Bool) (hx : isIdent x = true) :
    readEntry N D fn (fakeField static D.cname x) =
      (memberNamed D.members x).map fun f => .named f x (some (flagsOf static)) fn := by
  have e : fakeField static D.cname x = "{FakeJni::".toList ++ ("Field<&".toList ++ ((D.cname ++ "::".toList) ++
      (x ++ '>' :: ("{}, \"".toList ++ (x ++ '"' :: (", ".toList ++ ("FakeJni::JFieldID".toList ++ "::PUBLIC".toList ++
        (if static then " | ".toList ++ "FakeJni::JFieldID".toList ++ "::STATIC".toList else [])) ++ " ".toList)))))) ++
      "},\n".toList := by
    have e1 : "{FakeJni::Field<&".toList = "{FakeJni::".toList ++ "Field<&".toList := by decide +kernel
    have e2 : ">{}, \"".toList = '>' :: "{}, \"".toList := by decide
    have e3 : "\", FakeJni::JFieldID::PUBLIC".toList = '"' :: (", ".toList ++ ("FakeJni::JFieldID".toList ++ "::PUBLIC".toList)) := by
      decide +kernel
    have e4 : " | FakeJni::JFieldID::STATIC".toList = " | ".toList ++ "FakeJni::JFieldID".toList ++ "::STATIC".toList := by
      decide +kernel
    have e5 : " },\n".toList = " ".toList ++ "},\n".toList := by decide
    unfold fakeField
    rw [e1, e2, e3, e4, e5]
    simp only [List.append_assoc, List.cons_append]
  have hF : ∀ s : Str, after "Function<&".toList ("Field<&".toList ++ s) = none := by
    intro s
    have e1 : "Function<&".toList = 'F' :: 'u' :: "nction<&".toList := by decide
    have e2 : "Field<&".toList = 'F' :: 'i' :: "eld<&".toList := by decide
    rw [e1, e2]
    rfl
  unfold readEntry
  rw [e, between_append]
  simp only [Option.bind_some, hF, after_append]
  exact readNamed_map fn _ static hx

theorem readEntry_field {N : CppNames} {D : CppDecl} {f : CppFn} {x : Str} (fn : Nat → Nat) (static : Bool)
    (hx : isIdent x = true) (h : memberNamed D.members x = some f) :
    readEntry N D fn (fakeField static D.cname x) = some (.named f x (some (flagsOf static)) fn) := by
  rw [readEntry_field_map fn static hx, h, Option.map_some]

theorem readEntry_ctor {N : CppNames} {D : CppDecl} {num : Str → Nat} {ts : List Ty} (fn : Nat → Nat)
    (h : ∀ t ∈ ts, Known true N num t) (hc : isIdent D.cname = true) (hm : .ctor (ts.map (typeOf num)) ∈ D.members) :
    readEntry N D fn (fakeConstructor D.cname ts) = some (.ctor D.type (ts.map (typeOf num)) fn) := by
  have e : fakeConstructor D.cname ts = "{FakeJni::".toList ++ ("Constructor<".toList ++
      commas (D.cname :: ts.map (cppType true)) ++ ">{}".toList) ++ "},\n".toList := by
    have e1 : "{FakeJni::Constructor<".toList = "{FakeJni::".toList ++ "Constructor<".toList := by decide +kernel
    have e2 : ">{}},\n".toList = ">{}".toList ++ "},\n".toList := by decide
    unfold fakeConstructor
    rw [e1, e2]
    simp only [List.append_assoc]
  have hF : ∀ s : Str, after "Function<&".toList ("Constructor<".toList ++ s) = none ∧
      after "Field<&".toList ("Constructor<".toList ++ s) = none := by
    intro s
    have e1 : "Function<&".toList = 'F' :: "unction<&".toList := by decide
    have e2 : "Field<&".toList = 'F' :: "ield<&".toList := by decide
    have e3 : "Constructor<".toList = 'C' :: "onstructor<".toList := by decide
    rw [e1, e2, e3]
    exact ⟨rfl, rfl⟩
  have hit : items (commas (D.cname :: ts.map (cppType true))) = D.cname :: ts.map (cppType true) := by
    refine items_commas fun p hp => ?_
    rcases List.mem_cons.1 hp with rfl | hp
    · exact ⟨(ident_word hc).1, ident_lacks hc (by decide)⟩
    · obtain ⟨t, ht, rfl⟩ := List.mem_map.1 hp
      exact ⟨cppType_ne true t, type_lacks true (fun n hn => (h t ht n hn).1) (by decide)⟩
  have hr : readAllOf (fun p => readType N p) (ts.map (cppType true)) = some (ts.map (typeOf num)) :=
    readAllOf_map fun t ht => readType_cpp (h t ht)
  unfold readEntry
  rw [e, between_append]
  simp only [Option.bind_some, List.append_assoc, (hF _).1, (hF _).2]
  rw [← List.append_assoc, between_append]
  simp only [Option.bind_some, hit, if_true, hr, if_pos hm]

end Jnivm
