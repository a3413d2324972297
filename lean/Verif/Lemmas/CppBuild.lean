import Verif.Lemmas.CppInit
/-! Lemmas about reading all declarations and all definitions of a program. -/
namespace Jnivm
open Spec

variable {R : CppReader} {num : Str → Nat} {clazz : Nat} {T : Typing} {ws : World}

/-- The names a program knows. -/
def namesKnown (R : CppReader) (N : List Str) : CppNames := ⟨fun s => if s ∈ N then some (R.fresh s) else R.base.cls s, R.base.env⟩

theorem known_names (R : CppReader) (t : CppText) : t.known R = namesKnown R t.names := rfl

/-- The class of an entry, read. -/
def entryDecl (R : CppReader) (num : Str → Nat) (clazz : Nat) (T : Typing) (ws : World) (e : DumpEntry) : CppDecl × Option Str :=
  declOf R num clazz T e.name e.simple e.inner (ws.mem e.cls).fields (dumpedMethods ws e.cls)

/-- The names of its inner classes. -/
def innerScopes (e : DumpEntry) : List Str := e.inner.map (cppScope e.name ++ "::".toList ++ ·)

/-- The lines of its declaration. -/
def entryHead (fake : Bool) (T : Typing) (ws : World) (e : DumpEntry) : List Str :=
  headLines fake (cppScope e.name) e.name (classBody fake T e.inner e.simple (ws.mem e.cls).fields (dumpedMethods ws e.cls))

/-- A scope of generated classes. -/
structure GoodScope (scope cname : Str) : Prop where
  start : DefStart scope
  chars : ∀ c ∈ [' ', '(', '>', '\n'], c ∉ scope
  last : lastName scope = cname

/-- The class can be declared if the names `N` are known. -/
structure HeaderOk (R : CppReader) (num : Str → Nat) (clazz : Nat) (T : Typing) (ws : World) (pk N : List Str) (e : DumpEntry) : Prop where
  scope : GoodScope (cppScope e.name) e.simple
  named : cppScope e.name ∈ N
  decl : Declarable R.fake (namesKnown R (N ++ innerScopes e)) num clazz T e.name e.simple (ws.mem e.cls).fields (dumpedMethods ws e.cls)
  inner : ∀ k ∈ e.inner, isIdent k = true ∧ k ∉ scopelessNames ∧ cppScope e.name ++ "::".toList ++ k ∉ pk ∧
      R.base.cls (cppScope e.name ++ "::".toList ++ k) = none
  reserved : ∀ x ∈ (ws.mem e.cls).fields.map (·.name) ++ ((dumpedMethods ws e.cls).filter (·.name ≠ "<init>".toList)).map (·.name), x ∉ reservedNames R.fake
  apart : membersApart (entryDecl R num clazz T ws e).1.members = true

theorem headers_read (L : List DumpEntry) : ∀ t : CppText, t.place = .top → t.spaces = [] →
    (∀ a e b, L = a ++ e :: b → HeaderOk R num clazz T ws t.packages (t.names ++ a.flatMap innerScopes) e) →
    (t.classes.map (·.1.scope) ++ L.map fun e => cppScope e.name).Nodup →
    t.readLines R (L.flatMap (entryHead R.fake T ws)) =
      some { t with names := t.names ++ L.flatMap innerScopes, classes := t.classes ++ L.map (entryDecl R num clazz T ws) } := by
  induction L with
  | nil =>
    intro t _ _ _ _
    simp [CppText.readLines]
  | cons e L ih =>
    intro t ht hsp h hnd
    have he := h [] e L rfl
    simp only [List.flatMap_nil, List.append_nil] at he
    have hstep := header_read (R := R) (num := num) (clazz := clazz) (T := T) (inner := e.inner) ht hsp he.named (by
      intro hx
      exact (List.nodup_append.1 hnd).2.2 _ hx _ (by simp) rfl) (he.scope.chars _ (by simp)) he.scope.last he.decl he.inner he.reserved he.apart
    rw [List.flatMap_cons]
    refine (readLines_then hstep _).trans ?_
    have := ih { t with names := namesWith t (cppScope e.name) e.inner, classes := t.classes ++ [entryDecl R num clazz T ws e] } ht hsp (by
      intro a e' b hL
      have := h (e :: a) e' b (by rw [hL]; rfl)
      rw [List.flatMap_cons, ← List.append_assoc] at this
      exact this) (by
      rw [List.map_append, List.append_assoc]
      exact hnd)
    refine this.trans ?_
    simp [namesWith, innerScopes]

/-! ### Definitions -/

/-- Definitions one after the other. -/
theorem items_read {α : Type} {lines : α → List Str} {d : α → Str × CppMember} (xs : List α) : ∀ t : CppText,
    (∀ x ∈ xs, ∀ D, d x ∉ D → CppText.readLines R { t with defs := D } (lines x) = some { t with defs := D ++ [d x] }) →
    (t.defs ++ xs.map d).Nodup →
    t.readLines R (xs.flatMap lines) = some { t with defs := t.defs ++ xs.map d } := by
  induction xs with
  | nil =>
    intro t _ _
    simp [CppText.readLines]
  | cons x xs ih =>
    intro t h hnd
    have hx : d x ∉ t.defs := fun hm => (List.nodup_append.1 hnd).2.2 _ hm _ (by simp) rfl
    have hstep := h x (by simp) t.defs hx
    rw [List.flatMap_cons]
    refine (readLines_then hstep _).trans ?_
    refine (ih { t with defs := t.defs ++ [d x] } (fun y hy D hD => h y (by simp [hy]) D hD) (by
      rw [List.append_assoc]
      exact hnd)).trans ?_
    simp

/-- A field or method of a class. -/
abbrev Item := FieldRec ⊕ MethodRec

/-- The lines that define it. -/
def itemLines (fake : Bool) (T : Typing) (scope cname : Str) : Item → List Str
  | .inl f => [cppType fake (T.field f) ++ " ".toList ++ scope ++ "::".toList ++ f.name ++ " = {};".toList, []]
  | .inr m => [defHeading fake m.static m.name scope cname (T.params m) (T.result m) ++ " {".toList, indented (defBody m.name (T.result m)), "}".toList, []]

/-- The member. -/
def itemMember (R : CppReader) (num : Str → Nat) (clazz : Nat) (T : Typing) : Item → CppMember
  | .inl f => .named f.name ⟨.variable, typeOf num (T.field f), []⟩
  | .inr m => if m.name = "<init>".toList then .ctor (implicitOf R.base clazz R.fake m.static ++ (T.params m).map (typeOf num))
      else .named m.name ⟨if m.static then .plain else .member, retOf num (T.result m),
        implicitOf R.base clazz R.fake m.static ++ (T.params m).map (typeOf num)⟩

/-- What has to be defined. -/
def itemsOf (fs : List FieldRec) (ms : List MethodRec) : List Item := (fs.filter (·.static)).map .inl ++ ms.map .inr

theorem items_members (inner : List Str) (fs : List FieldRec) (ms : List MethodRec) :
    (itemsOf fs ms).map (itemMember R num clazz T) =
      (membersOf R.fake R.base num clazz T inner fs ms).filter (·.needsDefinition) := by
  unfold itemsOf membersOf
  rw [List.filter_append, List.filter_append, List.map_append, List.map_map, List.map_map]
  have e1 : (inner.map CppMember.inner).filter (·.needsDefinition) = [] := by
    rw [List.filter_eq_nil_iff]
    intro m hm
    obtain ⟨k, _, rfl⟩ := List.mem_map.1 hm
    simp [CppMember.needsDefinition]
  have e2 : (fs.map (fun f => CppMember.named f.name ⟨if f.static then .variable else .dataMember, typeOf num (T.field f), []⟩)).filter (·.needsDefinition) =
      (fs.filter (·.static)).map (itemMember R num clazz T ∘ Sum.inl) := by
    induction fs with
    | nil => rfl
    | cons f fs ih =>
      rw [List.map_cons]
      cases hs : f.static with
      | true =>
        rw [List.filter_cons_of_pos (by simp [CppMember.needsDefinition]), List.filter_cons_of_pos hs, List.map_cons, ih]
        rfl
      | false =>
        rw [List.filter_cons_of_neg (by simp [CppMember.needsDefinition]), List.filter_cons_of_neg (by simp [hs]), ih]
  have e3 : (ms.map (fun m => if m.name = "<init>".toList then
        CppMember.ctor (implicitOf R.base clazz R.fake m.static ++ (T.params m).map (typeOf num))
      else .named m.name ⟨if m.static then .plain else .member, retOf num (T.result m),
        implicitOf R.base clazz R.fake m.static ++ (T.params m).map (typeOf num)⟩)).filter (·.needsDefinition) =
      ms.map (itemMember R num clazz T ∘ Sum.inr) := by
    rw [List.filter_eq_self.2]
    · rfl
    · intro x hx
      obtain ⟨m, _, rfl⟩ := List.mem_map.1 hx
      by_cases hi : m.name = "<init>".toList
      · rw [if_pos hi]; rfl
      · rw [if_neg hi]; cases m.static <;> rfl
  rw [e1, e2, e3, List.nil_append]

/-- The definitions of a class. -/
def entryDefs (R : CppReader) (num : Str → Nat) (clazz : Nat) (T : Typing) (ws : World) (e : DumpEntry) : List (Str × CppMember) :=
  ((entryDecl R num clazz T ws e).1.members.filter (·.needsDefinition)).map fun m => (cppScope e.name, m)

/-- Their lines. -/
def entryDefLines (fake : Bool) (T : Typing) (ws : World) (e : DumpEntry) : List Str :=
  (itemsOf (ws.mem e.cls).fields (dumpedMethods ws e.cls)).flatMap (itemLines fake T (cppScope e.name) e.simple)

theorem entry_defs_read {t : CppText} (ht : t.place = .top) (hsp : t.spaces = []) {e : DumpEntry}
    (hC : Compiles R.fake (t.known R) num clazz T e.name e.simple (ws.mem e.cls).fields (dumpedMethods ws e.cls))
    (hs : GoodScope (cppScope e.name) e.simple) (hc : t.complete (cppScope e.name) = some (entryDecl R num clazz T ws e).1)
    (hnd : (t.defs ++ entryDefs R num clazz T ws e).Nodup) :
    t.readLines R (entryDefLines R.fake T ws e) = some { t with defs := t.defs ++ entryDefs R num clazz T ws e } := by
  have heq : entryDefs R num clazz T ws e = (itemsOf (ws.mem e.cls).fields (dumpedMethods ws e.cls)).map
      fun x => (cppScope e.name, itemMember R num clazz T x) := by
    unfold entryDefs entryDecl declOf
    simp only
    rw [← items_members, List.map_map]
    rfl
  have hmem : ∀ x ∈ itemsOf (ws.mem e.cls).fields (dumpedMethods ws e.cls), itemMember R num clazz T x ∈ (entryDecl R num clazz T ws e).1.members := by
    intro x hx
    have : itemMember R num clazz T x ∈ (itemsOf (ws.mem e.cls).fields (dumpedMethods ws e.cls)).map (itemMember R num clazz T) := List.mem_map_of_mem hx
    rw [items_members e.inner] at this
    exact (List.mem_filter.1 this).1
  have hnames : ((entryDecl R num clazz T ws e).1.members.filterMap memberName).Nodup := by
    have := (members_read hC.toDeclarable e.inner).2
    unfold entryDecl declOf
    simp only
    rw [membersOf_env R.fake (N := R.base) (N' := t.known R) rfl, this]
    exact hC.distinct
  rw [heq] at hnd ⊢
  refine items_read (d := fun x => (cppScope e.name, itemMember R num clazz T x)) _ t (fun x hx D hD => ?_) hnd
  have hm := hmem x hx
  cases x with
  | inl f =>
    have hf : f ∈ (ws.mem e.cls).fields := by
      unfold itemsOf at hx
      rcases List.mem_append.1 hx with hx | hx
      · obtain ⟨g, hg, e⟩ := List.mem_map.1 hx
        cases e
        exact (List.mem_filter.1 hg).1
      · obtain ⟨g, _, e⟩ := List.mem_map.1 hx
        cases e
    obtain ⟨_, h2, h3, _⟩ := hC.fields f hf
    exact variable_read (t := { t with defs := D }) ht hsp hc h2 (ident_lacks h3 (by decide)) hm hD
  | inr m =>
    have hf : m ∈ dumpedMethods ws e.cls := by
      unfold itemsOf at hx
      rcases List.mem_append.1 hx with hx | hx
      · obtain ⟨g, hg, e⟩ := List.mem_map.1 hx
        cases e
      · obtain ⟨g, hg, e⟩ := List.mem_map.1 hx
        cases e
        exact hg
    obtain ⟨_, h2, h3⟩ := hC.methods m hf
    exact function_read (t := { t with defs := D }) ht hsp hc rfl (hs.chars _ (by simp)) (hs.chars _ (by simp)) hs.start hC.clazzName h2 h3 hC.ident
      (fun hi => (hC.named m hf hi).1) rfl hm hnames hD

theorem defs_read (post : List DumpEntry) : ∀ t : CppText, t.place = .top → t.spaces = [] →
    (∀ e ∈ post, Compiles R.fake (t.known R) num clazz T e.name e.simple (ws.mem e.cls).fields (dumpedMethods ws e.cls) ∧
      GoodScope (cppScope e.name) e.simple ∧ t.complete (cppScope e.name) = some (entryDecl R num clazz T ws e).1) →
    (t.defs ++ post.flatMap (entryDefs R num clazz T ws)).Nodup →
    t.readLines R (post.flatMap (entryDefLines R.fake T ws)) = some { t with defs := t.defs ++ post.flatMap (entryDefs R num clazz T ws) } := by
  induction post with
  | nil =>
    intro t _ _ _ _
    simp [CppText.readLines]
  | cons e post ih =>
    intro t ht hsp h hnd
    obtain ⟨h1, h2, h3⟩ := h e (by simp)
    rw [List.flatMap_cons, ← List.append_assoc] at hnd
    have hstep := entry_defs_read ht hsp h1 h2 h3 (List.nodup_append.1 hnd).1
    rw [List.flatMap_cons]
    refine (readLines_then hstep _).trans ?_
    refine (ih { t with defs := t.defs ++ entryDefs R num clazz T ws e } ht hsp (fun e he => h e (by simp [he])) hnd).trans ?_
    simp

/-- The definitions of distinct classes are distinct. -/
theorem defs_nodup {post : List DumpEntry} (hs : (post.map fun e => cppScope e.name).Nodup)
    (hm : ∀ e ∈ post, (entryDecl R num clazz T ws e).1.members.Nodup) : (post.flatMap (entryDefs R num clazz T ws)).Nodup := by
  induction post with
  | nil => exact .nil
  | cons e post ih =>
    rw [List.map_cons, List.nodup_cons] at hs
    rw [List.flatMap_cons]
    refine List.nodup_append.2 ⟨?_, ih hs.2 fun x hx => hm x (by simp [hx]), ?_⟩
    · unfold entryDefs
      refine List.pairwise_map.2 ?_
      exact ((hm e (by simp)).filter _).imp fun h e => h (congrArg Prod.snd e)
    · intro a ha b hb hab
      subst hab
      obtain ⟨x, _, rfl⟩ := List.mem_map.1 ha
      obtain ⟨e', he', hb⟩ := List.mem_flatMap.1 hb
      obtain ⟨y, _, hy⟩ := List.mem_map.1 hb
      exact hs.1 (List.mem_map.2 ⟨e', he', congrArg Prod.fst hy⟩)

/-! ### The texts as lines -/

theorem isLines_entry {fake : Bool} {N : CppNames} {e : DumpEntry} (hs : '\n' ∉ cppScope e.name) (hn : '\n' ∉ e.name)
    (hD : Declarable fake N num clazz T e.name e.simple (ws.mem e.cls).fields (dumpedMethods ws e.cls))
    (hi : ∀ k ∈ e.inner, isIdent k = true) :
    IsLines (headerText fake ws T e) (entryHead fake T ws e) := by
  rw [(regenerate_lines ws T e).1]
  exact isLines_header hs hn (classBody_lacks (by decide) hD hi)

theorem isLines_defs {fake : Bool} {N : CppNames} {e : DumpEntry} (hs : '\n' ∉ cppScope e.name)
    (hD : Declarable fake N num clazz T e.name e.simple (ws.mem e.cls).fields (dumpedMethods ws e.cls)) :
    IsLines (definitionText fake ws T e) (entryDefLines fake T ws e) := by
  unfold definitionText entryDefLines itemsOf
  rw [List.flatMap_append, List.flatMap_map, List.flatMap_map]
  refine IsLines.append ?_ (isLines_flatMap fun m hm => ?_)
  · have key : ∀ l : List FieldRec, (∀ f ∈ l, f ∈ (ws.mem e.cls).fields) → IsLines (l.flatMap fun f => fieldDefinition fake f.static (cppScope e.name) f.name (T.field f))
        ((l.filter (·.static)).flatMap fun f => itemLines fake T (cppScope e.name) e.simple (.inl f)) := by
      intro l
      induction l with
      | nil => intro _; exact isLines_nil
      | cons f l ih =>
        intro h
        have ih := ih fun g hg => h g (by simp [hg])
        obtain ⟨_, h2, h3, _⟩ := hD.fields f (h f (by simp))
        rw [List.flatMap_cons]
        unfold fieldDefinition
        cases hst : f.static with
        | false =>
          rw [List.filter_cons_of_neg (by simp [hst]), if_neg (by decide), List.nil_append]
          exact ih
        | true =>
          rw [List.filter_cons_of_pos hst, if_pos rfl, List.flatMap_cons]
          refine IsLines.append ?_ ih
          have e1 : " = {};\n\n".toList = " = {};".toList ++ ("\n".toList ++ ([] ++ "\n".toList)) := by decide
          have hb : '\n' ∉ cppType fake (T.field f) ++ " ".toList ++ cppScope e.name ++ "::".toList ++ f.name ++ " = {};".toList := by
            simp only [List.mem_append, not_or]
            exact ⟨⟨⟨⟨⟨type_lacks fake (known_words h2) (by decide), by decide⟩, hs⟩, by decide⟩, ident_lacks h3 (by decide)⟩, by decide⟩
          have := (isLines_line hb).append (isLines_line (l := []) (by simp))
          rw [e1]
          unfold itemLines
          simp only [List.append_assoc] at this ⊢
          exact this
    exact key _ fun _ h => h
  · obtain ⟨_, h2, h3⟩ := hD.methods m hm
    have e1 : definition fake m.static m.name (cppScope e.name) e.simple (T.params m) (T.result m) =
        (defHeading fake m.static m.name (cppScope e.name) e.simple (T.params m) (T.result m) ++ " {".toList ++ "\n".toList) ++
        ((indented (defBody m.name (T.result m)) ++ "\n".toList) ++ (("}".toList ++ "\n".toList) ++ ([] ++ "\n".toList))) := by
      have e1 : ") {\n    ".toList = ")".toList ++ (" {".toList ++ ("\n".toList ++ "    ".toList)) := by decide
      have e2 : "\n}\n\n".toList = "\n".toList ++ ("}".toList ++ ("\n".toList ++ "\n".toList)) := by decide
      have e3 : "(".toList = ['('] := rfl
      unfold definition defHeading indented defBody
      rw [e1, e2, e3]
      simp only [List.append_assoc, List.cons_append, List.nil_append]
    rw [e1]
    have hh : '\n' ∉ defHeading fake m.static m.name (cppScope e.name) e.simple (T.params m) (T.result m) ++ " {".toList := by
      have hp : '\n' ∉ commas (implicit fake m.static "jnivm::ENV *".toList ++ namedFrom fake 0 (T.params m)) := by
        refine commas_lacks (fun p hp => ?_) (by decide) (by decide)
        exact ((params_read (static := m.static) hD.clazzName h2).1 p hp).2.2.2
      unfold defHeading
      simp only [List.mem_append, List.mem_cons, not_or]
      refine ⟨⟨?_, by decide, hp, by decide⟩, by decide⟩
      by_cases hi : m.name = "<init>".toList
      · rw [if_pos hi]
        simp only [List.mem_append, not_or]
        exact ⟨⟨hs, by decide⟩, ident_lacks hD.ident (by decide)⟩
      · rw [if_neg hi]
        simp only [List.mem_append, not_or]
        exact ⟨⟨⟨⟨ret_lacks fake (fun u hu => known_words (h3 u hu)) (by decide), by decide⟩, hs⟩, by decide⟩, ident_lacks (hD.named m hm hi).1 (by decide)⟩
    have hb : '\n' ∉ indented (defBody m.name (T.result m)) := by
      unfold indented defBody
      split <;> decide
    exact (isLines_line hh).append ((isLines_line hb).append ((isLines_line (l := "}".toList) (by decide)).append (isLines_line (l := []) (by simp))))

end Jnivm
