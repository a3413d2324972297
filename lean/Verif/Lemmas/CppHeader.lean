import Verif.Lemmas.CppScope
import Verif.Props.Regenerate
/-! Lemmas about reading the declarations of classes. -/
namespace Jnivm
open Spec

/-- A character that no part of a declaration has. -/
def Alien (c : Char) : Prop := typeChar c = false ∧ wordChar c = false ∧ c ≠ ' ' ∧ c ≠ ',' ∧ c ≠ '(' ∧ c ≠ ')' ∧ c ≠ ';' ∧ c ≠ '*' ∧ c ≠ ':'

instance (c : Char) : Decidable (Alien c) := inferInstanceAs (Decidable (_ ∧ _))

theorem alien_lit {c : Char} (h : Alien c) {s : Str} (hs : ∀ x ∈ s, wordChar x = true ∨ x ∈ [' ', ',', '(', ')', ';', '*', ':']) : c ∉ s := by
  intro hx
  obtain ⟨_, h1, h2, h3, h4, h5, h6, h7, h8⟩ := h
  rcases hs c hx with h | h
  · rw [h1] at h; cases h
  · simp only [List.mem_cons, List.not_mem_nil, or_false] at h
    rcases h with h | h | h | h | h | h | h
    · exact h2 h
    · exact h3 h
    · exact h4 h
    · exact h5 h
    · exact h6 h
    · exact h7 h
    · exact h8 h

variable {fake : Bool} {N : CppNames} {num : Str → Nat} {clazz : Nat} {T : Typing} {n cname : Str}
  {fs : List FieldRec} {ms : List MethodRec}

theorem known_words {t : Ty} (h : Known fake N num t) : ∀ n ∈ t.classNames, WordName n := fun n hn => (h n hn).1

theorem declaration_lacks {c : Char} (hc : Alien c) {static : Bool} {name : Str} {ts : List Ty} {ret : Option Ty}
    (h : ∀ t ∈ ts, Known fake N num t) (hret : ∀ t, ret = some t → Known fake N num t)
    (hx : name ≠ "<init>".toList → isIdent name = true) (hcn : isIdent cname = true) :
    c ∉ declaration fake static name cname ts ret := by
  have l : ∀ s ∈ ["static ".toList, " ".toList, "(".toList, ");".toList, "jnivm::ENV* env".toList, "jnivm::Class* cl".toList],
      ∀ x ∈ s, wordChar x = true ∨ x ∈ [' ', ',', '(', ')', ';', '*', ':'] := by decide +kernel
  have hl : ∀ s ∈ ["static ".toList, " ".toList, "(".toList, ");".toList, "jnivm::ENV* env".toList, "jnivm::Class* cl".toList],
      c ∉ s := fun s hs => alien_lit hc (l s hs)
  have hps : c ∉ commas (implicit fake static "jnivm::ENV* env".toList ++ ts.map (cppType fake)) := by
    refine commas_lacks (fun p hp => ?_) hc.2.2.2.1 hc.2.2.1
    rcases List.mem_append.1 hp with hp | hp
    · rcases implicit_mem hp with rfl | rfl
      · exact hl _ (.tail _ (.tail _ (.tail _ (.tail _ (.head _)))))
      · exact hl _ (.tail _ (.tail _ (.tail _ (.tail _ (.tail _ (.head _))))))
    · obtain ⟨t, ht, rfl⟩ := List.mem_map.1 hp
      exact type_lacks fake (known_words (h t ht)) hc.1
  have hhead : c ∉ (if name = "<init>".toList then cname
    else (if static then "static ".toList else []) ++ cppRet fake ret ++ " ".toList ++ name) := by
    by_cases hi : name = "<init>".toList
    · rw [if_pos hi]
      exact ident_lacks hcn hc.2.1
    · rw [if_neg hi]
      have hs : c ∉ (if static then "static ".toList else []) := by
        cases static
        · exact fun h => (nomatch h)
        · exact hl _ (.head _)
      intro hm
      rcases List.mem_append.1 hm with hm | hm
      · rcases List.mem_append.1 hm with hm | hm
        · rcases List.mem_append.1 hm with hm | hm
          · exact hs hm
          · exact ret_lacks fake (fun t ht => known_words (hret t ht)) hc.1 hm
        · exact hl _ (.tail _ (.head _)) hm
      · exact ident_lacks (hx hi) hc.2.1 hm
  unfold declaration
  intro hm
  rcases List.mem_append.1 hm with hm | hm
  · rcases List.mem_append.1 hm with hm | hm
    · rcases List.mem_append.1 hm with hm | hm
      · exact hhead hm
      · exact hl _ (.tail _ (.tail _ (.head _))) hm
    · exact hps hm
  · exact hl _ (.tail _ (.tail _ (.tail _ (.head _)))) hm

theorem fieldDeclaration_lacks {c : Char} (hc : Alien c) {static : Bool} {name : Str} {t : Ty} (h : Known fake N num t)
    (hx : isIdent name = true) : c ∉ fieldDeclaration fake static name t := by
  have l : ∀ s ∈ ["static ".toList, " ".toList, ";".toList],
      ∀ x ∈ s, wordChar x = true ∨ x ∈ [' ', ',', '(', ')', ';', '*', ':'] := by decide +kernel
  have hl : ∀ s ∈ ["static ".toList, " ".toList, ";".toList], c ∉ s := fun s hs => alien_lit hc (l s hs)
  have hs : c ∉ (if static then "static ".toList else []) := by
    cases static
    · exact fun h => (nomatch h)
    · exact hl _ (.head _)
  unfold fieldDeclaration
  intro hm
  rcases List.mem_append.1 hm with hm | hm
  · rcases List.mem_append.1 hm with hm | hm
    · rcases List.mem_append.1 hm with hm | hm
      · rcases List.mem_append.1 hm with hm | hm
        · exact hs hm
        · exact type_lacks fake (known_words h) hc.1 hm
      · exact hl _ (.tail _ (.head _)) hm
    · exact ident_lacks hx hc.2.1 hm
  · exact hl _ (.tail _ (.tail _ (.head _))) hm

theorem innerDeclaration_lacks {c : Char} (hc : Alien c) {k : Str} (hx : isIdent k = true) : c ∉ innerDeclaration k := by
  have l : ∀ s ∈ ["class ".toList, ";".toList],
      ∀ x ∈ s, wordChar x = true ∨ x ∈ [' ', ',', '(', ')', ';', '*', ':'] := by decide +kernel
  have hl : ∀ s ∈ ["class ".toList, ";".toList], c ∉ s := fun s hs => alien_lit hc (l s hs)
  unfold innerDeclaration
  intro hm
  rcases List.mem_append.1 hm with hm | hm
  · rcases List.mem_append.1 hm with hm | hm
    · exact hl _ (.head _) hm
    · exact ident_lacks hx hc.2.1 hm
  · exact hl _ (.tail _ (.head _)) hm

theorem classBody_lacks {c : Char} (hc : Alien c) (h : Declarable fake N num clazz T n cname fs ms) {inner : List Str}
    (hi : ∀ k ∈ inner, isIdent k = true) : ∀ l ∈ classBody fake T inner cname fs ms, c ∉ l := by
  intro l hl
  unfold classBody at hl
  rcases List.mem_append.1 hl with hl | hl
  · rcases List.mem_append.1 hl with hl | hl
    · obtain ⟨k, hk, rfl⟩ := List.mem_map.1 hl
      exact innerDeclaration_lacks hc (hi k hk)
    · obtain ⟨f, hf, rfl⟩ := List.mem_map.1 hl
      obtain ⟨_, h2, h3, _⟩ := h.fields f hf
      exact fieldDeclaration_lacks hc h2 h3
  · obtain ⟨m, hm, rfl⟩ := List.mem_map.1 hl
    obtain ⟨_, h2, h3⟩ := h.methods m hm
    exact declaration_lacks hc h2 h3 (fun hi => (h.named m hm hi).1) h.ident

/-! ### Reading the body -/

variable {R : CppReader}

theorem readMember_end (N : CppNames) (cname : Str) : readMember N cname "};".toList = none := rfl

/-- A line that is a member. -/
theorem readBody_member {t : CppText} {scope l : Str} {java : Option Str} {l0 : List CppMember} {m : CppMember}
    (hq : '"' ∉ l) (h : readMember (t.known R) (lastName scope) l = some m)
    (hn : ∀ x f, m = .named x f → x ∉ reservedNames R.fake) (hi : ∀ k, m ≠ .inner k) :
    t.readBody R scope java l0 l = some { t with place := .body scope java (l0 ++ [m]) } := by
  have h1 : l ≠ "};".toList := by
    rintro rfl
    rw [readMember_end] at h
    cases h
  have h2 : between "DEFINE_CLASS_NAME(\"".toList "\")".toList l = none :=
    between_none (after_lacks (c := '"') (by decide +kernel) hq)
  unfold CppText.readBody
  rw [if_neg h1, h2]
  simp only [h, Option.bind_some]
  cases m with
  | inner k => exact absurd rfl (hi k)
  | ctor ps => rfl
  | named x f => exact if_neg (hn x f rfl)

theorem readBody_inner {t : CppText} {scope k : Str} {java : Option Str} {l0 : List CppMember} (hk : isIdent k = true)
    (hs : k ∉ scopelessNames) (hp : scope ++ "::".toList ++ k ∉ t.packages) (hb : R.base.cls (scope ++ "::".toList ++ k) = none) :
    t.readBody R scope java l0 (innerDeclaration k) =
      some { t with place := .body scope java (l0 ++ [.inner k]), names := t.names ++ [scope ++ "::".toList ++ k] } := by
  have h := readMember_inner (t.known R) (lastName scope) k
  have h1 : innerDeclaration k ≠ "};".toList := fun e => nomatch e
  have h2 : between "DEFINE_CLASS_NAME(\"".toList "\")".toList (innerDeclaration k) = none :=
    between_none (after_lacks (c := '"') (by decide +kernel) (innerDeclaration_lacks (by decide) hk))
  unfold CppText.readBody
  rw [if_neg h1, h2]
  simp only [h, Option.bind_some]
  unfold CppText.declare
  rw [if_pos ⟨hk, hs, hp, hb⟩]
  rfl

/-- Blanks in front of a line of the body. -/
def indented (l : Str) : Str := "    ".toList ++ l

theorem strip_indented {l : Str} (h : l.head? ≠ some ' ') : stripBlanks (indented l) = l := by
  have e : indented l = List.replicate 4 ' ' ++ l := rfl
  rw [e, stripBlanks_replicate]
  cases l with
  | nil => rfl
  | cons c l => exact stripBlanks_cons (fun e => h (by simp [e])) l

theorem readLine_body {t : CppText} {scope : Str} {java : Option Str} {l0 : List CppMember}
    (ht : t.place = .body scope java l0) (l : Str) : t.readLine R l = t.readBody R scope java l0 l := by
  unfold CppText.readLine
  rw [ht]

theorem readInners {scope : Str} {java : Option Str} (ks : List Str) : ∀ (t : CppText) (l0 : List CppMember),
    t.place = .body scope java l0 →
    (∀ k ∈ ks, isIdent k = true ∧ k ∉ scopelessNames ∧ scope ++ "::".toList ++ k ∉ t.packages ∧
      R.base.cls (scope ++ "::".toList ++ k) = none) →
    t.readLines R (ks.map fun k => indented (innerDeclaration k)) =
      some { t with place := .body scope java (l0 ++ ks.map .inner), names := t.names ++ ks.map (scope ++ "::".toList ++ ·) } := by
  induction ks with
  | nil =>
    intro t l0 ht _
    cases t
    simp only at ht
    subst ht
    simp [CppText.readLines]
  | cons k ks ih =>
    intro t l0 ht h
    obtain ⟨h1, h2, h3, h4⟩ := h k (by simp)
    have hstep : t.readLine R (stripBlanks (indented (innerDeclaration k))) =
        some { t with place := .body scope java (l0 ++ [.inner k]), names := t.names ++ [scope ++ "::".toList ++ k] } := by
      rw [strip_indented (l := innerDeclaration k) (show some 'c' ≠ some ' ' by decide), readLine_body ht, readBody_inner h1 h2 h3 h4]
    rw [List.map_cons, readLines_step hstep]
    rw [ih { t with place := .body scope java (l0 ++ [.inner k]), names := t.names ++ [scope ++ "::".toList ++ k] } _ rfl
      (fun k hk => h k (by simp [hk]))]
    simp

/-- Lines that are members. -/
theorem readMembers {α : Type} {scope : Str} {java : Option Str} {f : α → Str} {g : α → CppMember} (xs : List α) :
    ∀ (t : CppText) (l0 : List CppMember), t.place = .body scope java l0 →
    (∀ x ∈ xs, '"' ∉ f x ∧ (f x).head? ≠ some ' ' ∧ readMember (t.known R) (lastName scope) (f x) = some (g x) ∧
      (∀ y k, g x = .named y k → y ∉ reservedNames R.fake) ∧ ∀ k, g x ≠ .inner k) →
    t.readLines R (xs.map fun x => indented (f x)) = some { t with place := .body scope java (l0 ++ xs.map g) } := by
  induction xs with
  | nil =>
    intro t l0 ht _
    cases t
    simp only at ht
    subst ht
    simp [CppText.readLines]
  | cons x xs ih =>
    intro t l0 ht h
    obtain ⟨h1, h2, h3, h4, h5⟩ := h x (by simp)
    have hstep : t.readLine R (stripBlanks (indented (f x))) = some { t with place := .body scope java (l0 ++ [g x]) } := by
      rw [strip_indented h2, readLine_body ht, readBody_member h1 h3 h4 h5]
    rw [List.map_cons, readLines_step hstep]
    rw [ih { t with place := .body scope java (l0 ++ [g x]) } _ rfl (fun y hy => h y (by simp [hy]))]
    simp

/-! ### The whole class -/

/-- The first line of a class. -/
def classHeading (fake : Bool) (scope : Str) : Str :=
  "class ".toList ++ (scope ++ ' ' :: baseClause fake)

/-- The lines of a class. -/
def headLines (fake : Bool) (scope n : Str) (body : List Str) : List Str :=
  [classHeading fake scope, "public:".toList] ++
    (if fake then [indented ("DEFINE_CLASS_NAME(\"".toList ++ n ++ "\")".toList)] else []) ++ body.map indented ++ ["};".toList, []]

theorem isLines_header {scope : Str} {body : List Str} (hs : '\n' ∉ scope) (hn : '\n' ∉ n) (hb : ∀ l ∈ body, '\n' ∉ l) :
    IsLines (classDeclaration fake scope n body) (headLines fake scope n body) := by
  have hbody : IsLines (bodyLines body) (body.map indented) := by
    have e : body.map indented = body.flatMap fun l => [indented l] := by
      induction body with
      | nil => rfl
      | cons l body ih => rw [List.map_cons, List.flatMap_cons, ih fun x hx => hb x (by simp [hx])]; rfl
    rw [e]
    refine isLines_flatMap fun l hl => isLines_line ?_
    have h4 : '\n' ∉ "    ".toList := by decide
    simp only [List.mem_append, not_or]
    exact ⟨h4, hb l hl⟩
  have hc : ∀ fake, '\n' ∉ classHeading fake scope := by
    have h1 : '\n' ∉ "class ".toList ∧ ∀ fake, '\n' ∉ baseClause fake := by decide +kernel
    intro fake
    unfold classHeading
    simp only [List.mem_append, List.mem_cons, not_or]
    exact ⟨h1.1, hs, by decide, h1.2 fake⟩
  have hpub : IsLines "public:\n".toList ["public:".toList] := isLines_line (l := "public:".toList) (by decide)
  have hend : IsLines "};\n\n".toList ["};".toList, []] :=
    (isLines_line (l := "};".toList) (by decide)).append (isLines_line (l := []) (by decide))
  cases fake with
  | false =>
    have e : classDeclaration false scope n body = (classHeading false scope ++ "\n".toList) ++ "public:\n".toList ++
        bodyLines body ++ "};\n\n".toList := by
      have e1 : " : public jnivm::Object {\npublic:\n".toList = ' ' :: (baseClause false ++ ("\n".toList ++ "public:\n".toList)) := by
        decide +kernel
      unfold classDeclaration classHeading
      rw [if_neg (by decide), e1]
      simp only [List.append_assoc, List.cons_append]
    rw [e]
    exact (((isLines_line (hc false)).append hpub).append hbody).append hend
  | true =>
    have e : classDeclaration true scope n body = (classHeading true scope ++ "\n".toList) ++ "public:\n".toList ++
        (indented ("DEFINE_CLASS_NAME(\"".toList ++ n ++ "\")".toList) ++ "\n".toList) ++ bodyLines body ++ "};\n\n".toList := by
      have e1 : " : public FakeJni::JObject {\npublic:\n    DEFINE_CLASS_NAME(\"".toList =
          ' ' :: (baseClause true ++ ("\n".toList ++ ("public:\n".toList ++ ("    ".toList ++ "DEFINE_CLASS_NAME(\"".toList)))) := by
        decide +kernel
      have e2 : "\")\n".toList = "\")".toList ++ "\n".toList := by decide
      unfold classDeclaration classHeading indented
      rw [if_pos rfl, e1, e2]
      simp only [List.append_assoc, List.cons_append]
    have hd : '\n' ∉ indented ("DEFINE_CLASS_NAME(\"".toList ++ n ++ "\")".toList) := by
      have h1 : '\n' ∉ "    ".toList ∧ '\n' ∉ "DEFINE_CLASS_NAME(\"".toList ∧ '\n' ∉ "\")".toList := by decide +kernel
      unfold indented
      simp only [List.mem_append, not_or]
      exact ⟨h1.1, ⟨h1.2.1, hn⟩, h1.2.2⟩
    rw [e]
    exact ((((isLines_line (hc true)).append hpub).append (isLines_line hd)).append hbody).append hend

theorem readTop_heading_iff {t : CppText} {scope : Str} (ht : t.place = .top) (hsp : t.spaces = []) (hs : ' ' ∉ scope) :
    t.readLine R (stripBlanks (classHeading R.fake scope)) =
      if scope ∈ t.names ∧ scope ∉ t.classes.map (·.1.scope) then some { t with place := .heading scope } else none := by
  have e0 : stripBlanks (classHeading R.fake scope) = classHeading R.fake scope := stripBlanks_cons (c := 'c') (by decide) _
  have e1 : classHeading R.fake scope ≠ [] := fun e => nomatch e
  have e2 : classHeading R.fake scope ≠ "}".toList := fun e => nomatch e
  have e3 : after "#include <".toList (classHeading R.fake scope) = none := rfl
  have e4 : between "namespace ".toList " {".toList (classHeading R.fake scope) = none := between_none rfl
  have e5 : between "class ".toList ";".toList (classHeading R.fake scope) = none := by
    unfold between classHeading
    rw [after_append, Option.bind_some]
    have e : ∃ s, baseClause R.fake = s ++ ['{'] := by
      cases R.fake
      · exact ⟨": public jnivm::Object ".toList, by decide +kernel⟩
      · exact ⟨": public FakeJni::JObject ".toList, by decide +kernel⟩
    obtain ⟨s, e⟩ := e
    unfold before
    rw [e]
    simp only [List.reverse_append, List.reverse_cons, List.reverse_nil, List.nil_append, List.cons_append, List.append_assoc]
    rfl
  rw [e0, readLine_top ht]
  unfold CppText.readTop
  rw [if_neg e1, if_neg e2, e3]
  simp only
  rw [e4]
  simp only
  rw [e5]
  simp only
  rw [if_pos hsp]
  have e6 : after "class ".toList (classHeading R.fake scope) = some (scope ++ ' ' :: baseClause R.fake) := after_append _ _
  rw [e6]
  simp only
  unfold CppText.startClass
  rw [splitFirst_append hs]
  simp only [Option.bind_some, true_and]

theorem readTop_heading {t : CppText} {scope : Str} (ht : t.place = .top) (hsp : t.spaces = []) (hs : ' ' ∉ scope)
    (h1 : scope ∈ t.names) (h2 : scope ∉ t.classes.map (·.1.scope)) :
    t.readLine R (stripBlanks (classHeading R.fake scope)) = some { t with place := .heading scope } := by
  rw [readTop_heading_iff ht hsp hs, if_pos ⟨h1, h2⟩]

/-- The names with those of inner classes. -/
def namesWith (t : CppText) (scope : Str) (inner : List Str) : List Str := t.names ++ inner.map (scope ++ "::".toList ++ ·)

/-- A class, read. -/
def declOf (R : CppReader) (num : Str → Nat) (clazz : Nat) (T : Typing) (n cname : Str) (inner : List Str) (fs : List FieldRec) (ms : List MethodRec) :
    CppDecl × Option Str :=
  (⟨R.fresh (cppScope n), cppScope n, cname, membersOf R.fake R.base num clazz T inner fs ms⟩, if R.fake then some n else none)

theorem membersOf_env (fake : Bool) {N N' : CppNames} (h : N.env = N'.env) (num : Str → Nat) (clazz : Nat) (T : Typing) (inner : List Str) (fs : List FieldRec)
    (ms : List MethodRec) : membersOf fake N num clazz T inner fs ms = membersOf fake N' num clazz T inner fs ms := by
  unfold membersOf implicitOf
  rw [h]

theorem header_read {t : CppText} (ht : t.place = .top) (hsp : t.spaces = []) {inner : List Str}
    (h1 : cppScope n ∈ t.names) (h2 : cppScope n ∉ t.classes.map (·.1.scope)) (hs : ' ' ∉ cppScope n) (hln : lastName (cppScope n) = cname)
    (hD : Declarable R.fake ({ t with names := namesWith t (cppScope n) inner }.known R) num clazz T n cname fs ms)
    (hi : ∀ k ∈ inner, isIdent k = true ∧ k ∉ scopelessNames ∧ cppScope n ++ "::".toList ++ k ∉ t.packages ∧
      R.base.cls (cppScope n ++ "::".toList ++ k) = none)
    (hres : ∀ x ∈ fs.map (·.name) ++ (ms.filter (·.name ≠ "<init>".toList)).map (·.name), x ∉ reservedNames R.fake)
    (hap : membersApart (membersOf R.fake R.base num clazz T inner fs ms) = true) :
    t.readLines R (headLines R.fake (cppScope n) n (classBody R.fake T inner cname fs ms)) =
      some { t with names := namesWith t (cppScope n) inner, classes := t.classes ++ [declOf R num clazz T n cname inner fs ms] } := by
  generalize hjava : (if R.fake then some n else none : Option Str) = java
  -- the first lines
  have hhead : t.readLines R ([classHeading R.fake (cppScope n), "public:".toList] ++
      (if R.fake then [indented ("DEFINE_CLASS_NAME(\"".toList ++ n ++ "\")".toList)] else [])) =
      some { t with place := .body (cppScope n) java [] } := by
    have hpub : CppText.readLine R { t with place := .heading (cppScope n) } (stripBlanks "public:".toList) =
        some { t with place := .body (cppScope n) none [] } := rfl
    rw [List.cons_append, readLines_step (readTop_heading ht hsp hs h1 h2), List.cons_append, readLines_step hpub, ← hjava]
    cases hf : R.fake with
    | false => rfl
    | true =>
      have hname : CppText.readLine R { t with place := .body (cppScope n) none [] }
          (stripBlanks (indented ("DEFINE_CLASS_NAME(\"".toList ++ n ++ "\")".toList))) =
          some { t with place := .body (cppScope n) (some n) [] } := by
        rw [strip_indented (l := "DEFINE_CLASS_NAME(\"".toList ++ n ++ "\")".toList) (show some 'D' ≠ some ' ' by decide)]
        have e1 : "DEFINE_CLASS_NAME(\"".toList ++ n ++ "\")".toList ≠ "};".toList := fun e => nomatch e
        simp only [CppText.readLine]
        unfold CppText.readBody
        rw [if_neg e1, between_append]
        simp only
        exact if_pos ⟨hf, trivial, trivial⟩
      rw [if_pos rfl, List.nil_append, readLines_step hname]
      rfl
  -- the inner classes
  have hinner := readInners (R := R) (scope := cppScope n) (java := java) inner { t with place := .body (cppScope n) java [] } [] rfl hi
  -- the fields
  have hq : Alien '"' := by decide
  have hfields := readMembers (R := R) (scope := cppScope n) (java := java)
    (f := fun f : FieldRec => fieldDeclaration R.fake f.static f.name (T.field f))
    (g := fun f => CppMember.named f.name ⟨if f.static then .variable else .dataMember, typeOf num (T.field f), []⟩) fs
    { t with place := .body (cppScope n) java ([] ++ inner.map .inner), names := namesWith t (cppScope n) inner } _ rfl (by
      intro f hf
      obtain ⟨_, a2, a3, a4⟩ := hD.fields f hf
      refine ⟨fieldDeclaration_lacks hq a2 a3, ?_, ?_, ?_, fun k e => nomatch e⟩
      · have key : ' ' ∉ cppType R.fake (T.field f) := type_lacks R.fake (known_words a2) (by decide)
        unfold fieldDeclaration
        cases hst : f.static with
        | true => exact (show some 's' ≠ some ' ' by decide)
        | false =>
          cases hty : cppType R.fake (T.field f) with
          | nil => exact absurd hty (cppType_ne _ _)
          | cons c s =>
            rw [hty] at key
            simp only [List.mem_cons, not_or] at key
            simpa using fun e => key.1 e.symm
      · rw [hln]
        exact readMember_field a2 a3 a4
      · intro y k e
        cases e
        exact hres f.name (List.mem_append_left _ (List.mem_map_of_mem hf)))
  -- the methods
  have hmethods := readMembers (R := R) (scope := cppScope n) (java := java)
    (f := fun m : MethodRec => declaration R.fake m.static m.name cname (T.params m) (T.result m))
    (g := fun m => if m.name = "<init>".toList then
        CppMember.ctor (implicitOf R.base clazz R.fake m.static ++ (T.params m).map (typeOf num))
      else .named m.name ⟨if m.static then .plain else .member, retOf num (T.result m),
        implicitOf R.base clazz R.fake m.static ++ (T.params m).map (typeOf num)⟩) ms
    { t with place := .body (cppScope n) java (([] ++ inner.map .inner) ++ fs.map fun f => CppMember.named f.name ⟨if f.static then .variable else .dataMember, typeOf num (T.field f), []⟩), names := namesWith t (cppScope n) inner } _ rfl (by
      intro m hm
      obtain ⟨_, a2, a3⟩ := hD.methods m hm
      refine ⟨declaration_lacks hq a2 a3 (fun hi => (hD.named m hm hi).1) hD.ident, ?_, ?_, ?_, ?_⟩
      · unfold declaration
        by_cases hi : m.name = "<init>".toList
        · rw [if_pos hi]
          have key : ' ' ∉ cname := ident_lacks hD.ident (by decide)
          cases hc : cname with
          | nil => exact absurd hc (ident_word hD.ident).1
          | cons c s =>
            rw [hc] at key
            simp only [List.mem_cons, not_or] at key
            simpa using fun e => key.1 e.symm
        · rw [if_neg hi]
          cases hst : m.static with
          | true => exact (show some 's' ≠ some ' ' by decide)
          | false =>
            have key : ' ' ∉ cppRet R.fake (T.result m) := ret_lacks R.fake (fun t ht => known_words (a3 t ht)) (by decide)
            cases hty : cppRet R.fake (T.result m) with
            | nil =>
              cases hr : T.result m with
              | none => rw [hr] at hty; cases hty
              | some u => rw [hr] at hty; exact absurd hty (cppType_ne _ _)
            | cons c s =>
              rw [hty] at key
              simp only [List.mem_cons, not_or] at key
              simpa using fun e => key.1 e.symm
      · rw [hln]
        by_cases hi : m.name = "<init>".toList
        · rw [if_pos hi, hi]
          exact readMember_ctor hD.clazzName a2 hD.ident
        · rw [if_neg hi]
          exact readMember_method hD.clazzName a2 a3 (hD.named m hm hi).1 hD.ident (hD.named m hm hi).2
      · intro y k e
        by_cases hi : m.name = "<init>".toList
        · rw [if_pos hi] at e; cases e
        · rw [if_neg hi] at e
          cases e
          exact hres m.name (List.mem_append_right _ (List.mem_map_of_mem (List.mem_filter.2 ⟨hm, by simpa using hi⟩)))
      · intro k
        by_cases hi : m.name = "<init>".toList
        · rw [if_pos hi]; exact fun e => nomatch e
        · rw [if_neg hi]; exact fun e => nomatch e)
  -- the last lines
  have hmem : ([] ++ inner.map CppMember.inner) ++ fs.map (fun f => CppMember.named f.name ⟨if f.static then .variable else .dataMember, typeOf num (T.field f), []⟩) ++
      ms.map (fun m => if m.name = "<init>".toList then
        CppMember.ctor (implicitOf R.base clazz R.fake m.static ++ (T.params m).map (typeOf num))
      else .named m.name ⟨if m.static then .plain else .member, retOf num (T.result m),
        implicitOf R.base clazz R.fake m.static ++ (T.params m).map (typeOf num)⟩) = membersOf R.fake R.base num clazz T inner fs ms := rfl
  rw [hmem] at hmethods
  have hend : CppText.readLines R { t with place := .body (cppScope n) java (membersOf R.fake R.base num clazz T inner fs ms), names := namesWith t (cppScope n) inner }
      ["};".toList, []] = some { t with names := namesWith t (cppScope n) inner, classes := t.classes ++ [declOf R num clazz T n cname inner fs ms] } := by
    have hstep : CppText.readLine R { t with place := .body (cppScope n) java (membersOf R.fake R.base num clazz T inner fs ms), names := namesWith t (cppScope n) inner }
        (stripBlanks "};".toList) = some { t with place := .top, names := namesWith t (cppScope n) inner, classes := t.classes ++ [declOf R num clazz T n cname inner fs ms] } := by
      have e0 : stripBlanks "};".toList = "};".toList := by decide
      rw [e0]
      simp only [CppText.readLine]
      unfold CppText.readBody
      rw [if_pos rfl, if_pos ⟨hap, fun hf => by rw [← hjava, if_pos hf]; rfl⟩, hln, ← hjava]
      rfl
    rw [readLines_step hstep]
    have hblank : CppText.readLine R { t with place := .top, names := namesWith t (cppScope n) inner, classes := t.classes ++ [declOf R num clazz T n cname inner fs ms] }
        (stripBlanks []) = some { t with place := .top, names := namesWith t (cppScope n) inner, classes := t.classes ++ [declOf R num clazz T n cname inner fs ms] } := rfl
    rw [readLines_step hblank]
    cases t
    simp only at ht
    subst ht
    rfl
  unfold headLines
  rw [List.append_assoc, readLines_then hhead]
  unfold classBody
  simp only [List.map_append, List.map_map, List.append_assoc, Function.comp_def]
  rw [readLines_then hinner]
  refine (readLines_then hfields _).trans ?_
  refine (readLines_then hmethods _).trans ?_
  exact hend

end Jnivm
