import Verif.Lemmas.CodegenPre
import Verif.Lemmas.CodegenOrder
import Verif.Props.Codegen
import Verif.Props.Baron
/-! C50: the whole class dump. -/
namespace Jnivm
open Spec

/-! ### Which classes are dumped -/

/-- C50. With enough recursion depth the dump is the concatenation of the texts of all classes that are not
arrays and not built in: each exactly once and in the scope of its name, outer classes first (in the
definitions: inner classes first).  It succeeds exactly if the signature of every method of these classes that
the application does not implement ends outside of a type; otherwise a signature is read past its end. -/
theorem dump_total (fake : Bool) {w : World} (hr : MemReachable w) : ∃ d0, ∀ d, d0 ≤ d →
    ((∀ n c, w.IsClass n c → Dumped n → ∀ m ∈ (w.mem c).methods, m.native = none →
      cutOff .outside m.signature = false) → ∃ s, w.classDump fake d = .ok s) ∧
    ((∃ n c, w.IsClass n c ∧ Dumped n ∧ ∃ m ∈ (w.mem c).methods, m.native = none ∧
      cutOff .outside m.signature = true) → w.classDump fake d = .ub .outOfBounds) := by
  obtain ⟨d1, h1⟩ := classDump_outcome fake hr.inv.reg
  obtain ⟨d2, h2⟩ := nsList_spec hr.inv.reg
  refine ⟨max d1 d2, fun d hd => ?_⟩
  obtain ⟨_, _, _, ho⟩ := h1 d (by omega)
  obtain ⟨hl, _⟩ := h2 d (by omega)
  constructor
  · intro h
    apply ho.1
    rintro ⟨s, c⟩ hx
    obtain ⟨n, hn, hD, _⟩ := (hl s c).1 hx
    exact h n c ((isClass_iff hr.inv).2 hn) hD
  · rintro ⟨n, c, hc, hD, m, hm, hn, hcut⟩
    apply ho.2
    intro hall
    have := hall (cppScope n, c) ((hl _ c).2 ⟨n, (isClass_iff hr.inv).1 hc, hD, rfl⟩) m hm hn
    rw [hcut] at this
    cases this

/-- A class in the dump: its name, its record, its simple name and the simple names of its inner classes. -/
structure DumpEntry where
  name : Str
  cls : Nat
  simple : Str
  inner : List Str

/-- The entry describes a class that has to be dumped. -/
structure DumpEntry.Describes (w : World) (e : DumpEntry) : Prop where
  isClass : w.IsClass e.name e.cls
  dumped : Dumped e.name
  simple : SimpleName e.name e.simple
  nodup : e.inner.Nodup
  inner : ∀ k, k ∈ e.inner ↔ '/' ∉ k ∧ '$' ∉ k ∧ ∃ j, w.IsClass (e.name ++ '$' :: k) j

/-- Types of all methods and fields. -/
structure Typing where
  params : MethodRec → List Ty
  result : MethodRec → Option Ty
  field : FieldRec → Ty

/-- All methods (that the application does not implement) and fields of the classes to be dumped are well-formed
and no name contains a newline. -/
structure WellTyped (w : World) (T : Typing) : Prop where
  methods : ∀ n c, w.IsClass n c → Dumped n → ∀ m ∈ (w.mem c).methods, m.native = none →
    Typed m (T.params m) (T.result m) ∧ '\n' ∉ m.signature ∧ '\n' ∉ m.name
  fields : ∀ n c, w.IsClass n c → Dumped n → ∀ f ∈ (w.mem c).fields,
    (T.field f).Valid ∧ f.type = (T.field f).render ∧ '\n' ∉ f.type ∧ '\n' ∉ f.name
  names : ∀ n c, w.IsClass n c → '\n' ∉ n

/-- The methods that are dumped. -/
def dumpedMethods (w : World) (c : Nat) : List MethodRec := (w.mem c).methods.filter (·.native.isNone)

/-- Declarations. -/
def headerText (fake : Bool) (w : World) (T : Typing) (e : DumpEntry) : Str :=
  classDeclaration fake (cppScope e.name) e.name
    (e.inner.map innerDeclaration ++
      (w.mem e.cls).fields.map (fun f => fieldDeclaration fake f.static f.name (T.field f)) ++
      (dumpedMethods w e.cls).map fun m => declaration fake m.static m.name e.simple (T.params m) (T.result m))

/-- Definitions. -/
def definitionText (fake : Bool) (w : World) (T : Typing) (e : DumpEntry) : Str :=
  (w.mem e.cls).fields.flatMap (fun f => fieldDefinition fake f.static (cppScope e.name) f.name (T.field f)) ++
  (dumpedMethods w e.cls).flatMap fun m =>
    definition fake m.static m.name (cppScope e.name) e.simple (T.params m) (T.result m)

/-- Bindings: a block in which `c` is the class. -/
def blockText (w : World) (T : Typing) (x : Bool × DumpEntry) : Str :=
  if x.1 then "{\nauto c = env->GetClass(\"".toList ++ x.2.name ++ "\");\n".toList
  else (w.mem x.2.cls).fields.flatMap (fun f => methodHook (cppScope x.2.name) f.name) ++
    (dumpedMethods w x.2.cls).flatMap (fun m =>
      if m.name = "<init>".toList then constructorBinding (cppScope x.2.name) (T.params m)
      else methodHook (cppScope x.2.name) m.name) ++ "}\n".toList

/-- Bindings in the fake-jni syntax. -/
def descriptorText (w : World) (T : Typing) (e : DumpEntry) : Str :=
  "BEGIN_NATIVE_DESCRIPTOR(".toList ++ cppScope e.name ++ ")\n".toList ++
  (w.mem e.cls).fields.flatMap (fun f => fakeField f.static e.simple f.name) ++
  (dumpedMethods w e.cls).flatMap (fun m =>
    if m.name = "<init>".toList then fakeConstructor e.simple (T.params m)
    else fakeFunction m.static e.simple m.name) ++ "END_NATIVE_DESCRIPTOR\n".toList

/-- Forward declarations: exactly the classes to be dumped that are not inner classes, each once and in the
namespaces of its packages (packages without name have none), all in the namespace `jnivm`.  No namespace is
opened in vain. -/
def ForwardDeclares (w : World) (pre : Str) : Prop :=
  ∃ (N : List (List Str × Str)) (E : List PreLine), N.Nodup ∧
    (∀ ps s, (ps, s) ∈ N ↔ (∀ p ∈ ps, '/' ∉ p) ∧ '/' ∉ s ∧ '$' ∉ s ∧
      ∃ c, w.IsClass (inPackages ps s) c ∧ Dumped (inPackages ps s)) ∧
    track [] E = some ([], N.map fun x => ("jnivm".toList :: x.1.filter (· ≠ []), x.2)) ∧
    (∀ q ∈ opened [] E, ∃ x ∈ N, q <+: "jnivm".toList :: x.1.filter (· ≠ [])) ∧
    pre = joinLines (preLines 0 E)

/-- Outer classes come before their inner classes. -/
def OuterFirst (L : List DumpEntry) : Prop :=
  ∀ a e b, L = a ++ e :: b → ∀ o k, e.name = o ++ '$' :: k → '/' ∉ k → '$' ∉ k → ∃ e' ∈ a, e'.name = o

/-! ### Lemmas -/

/-- The entry of a class. -/
def entryOf (w : World) (c : Nat) : DumpEntry :=
  match w.reg.cls[c]? with
  | none => ⟨[], c, [], []⟩
  | some cd => ⟨cd.nativeprefix, c, cd.name, cd.classes.filterMap fun k => (w.reg.cls[k]?).map (·.name)⟩

variable {w : World} {T : Typing}

theorem entryOf_some {c : Nat} {cd : ClassNode} (h : w.reg.cls[c]? = some cd) :
    entryOf w c = ⟨cd.nativeprefix, c, cd.name, cd.classes.filterMap fun k => (w.reg.cls[k]?).map (·.name)⟩ := by
  unfold entryOf; rw [h]

theorem entryOf_cls (w : World) (c : Nat) : (entryOf w c).cls = c := by
  unfold entryOf
  cases w.reg.cls[c]? <;> rfl

theorem entryOf_name (inv : MemInv w) {n : Str} {c : Nat} (h : w.IsClass n c) : (entryOf w c).name = n := by
  obtain ⟨cd, h1, h2⟩ := isClass_record inv h
  rw [entryOf_some h1]
  exact h2

theorem entryOf_describes (hr : MemReachable w) {n : Str} {c : Nat} (h : w.IsClass n c) (hD : Dumped n) :
    (entryOf w c).Describes w := by
  have inv := hr.inv
  have hl := (isClass_iff inv).1 h
  obtain ⟨cd, hc, hn, hs⟩ := lookup_simple inv.reg hl
  obtain ⟨π, σ, hT⟩ := inv.reg.tree
  have hkid : ∀ k ∈ cd.classes, ∃ kd, w.reg.cls[k]? = some kd := fun k hk =>
    (hT.clsKids c cd hc k hk).imp fun _ h => h.1
  rw [entryOf_some hc, hn]
  refine ⟨h, hD, hs, ?_, fun k => ?_⟩
  · have hnd := (inv.reg.sib.clsKids c cd hc).1
    have hsib := (inv.reg.sib.clsKids c cd hc).2
    show (cd.classes.filterMap fun k => (w.reg.cls[k]?).map (·.name)).Nodup
    unfold List.Nodup
    rw [List.pairwise_filterMap]
    refine List.Pairwise.imp_of_mem ?_ hnd
    intro a b ha hb hab x hx y hy hxy
    obtain ⟨ad, ea, ea'⟩ := Option.map_eq_some_iff.1 hx
    obtain ⟨bd, eb, eb'⟩ := Option.map_eq_some_iff.1 hy
    have h1 := (hsib a ha ad ea).1
    have h2 := (hsib b hb bd eb).1
    rw [ea', hxy, ← eb', h2] at h1
    cases h1
    exact hab rfl
  · show k ∈ (cd.classes.filterMap fun k => (w.reg.cls[k]?).map (·.name)) ↔ _
    rw [List.mem_filterMap]
    constructor
    · rintro ⟨j, hj, hk⟩
      obtain ⟨kd, e1, e2⟩ := Option.map_eq_some_iff.1 hk
      obtain ⟨a, b, c'⟩ := (inner_classes inv.reg hl hD.1 hc k j).1 ⟨kd, e1, hj, e2⟩
      exact ⟨a, b, j, (isClass_iff inv).2 c'⟩
    · rintro ⟨a, b, j, hj⟩
      obtain ⟨kd, e1, hj, e2⟩ := (inner_classes inv.reg hl hD.1 hc k j).2 ⟨a, b, (isClass_iff inv).1 hj⟩
      exact ⟨j, hj, by rw [e1, ← e2]; rfl⟩

theorem simple_plain {n s : Str} (h : SimpleName n s) (hn : '\n' ∉ n) : '\n' ∉ s := by
  obtain ⟨_, h⟩ := h
  split at h
  · rcases h with rfl | ⟨pre, rfl⟩
    · exact hn
    · exact fun hc => hn (by simp [hc])
  · rcases h.2 with rfl | ⟨pre, rfl⟩ | ⟨pre, rfl⟩
    · exact hn
    · exact fun hc => hn (by simp [hc])
    · exact fun hc => hn (by simp [hc])

/-- One indented line for each element that has a text. -/
theorem catMap_lines {α : Type} {f : α → Res Str} {g : α → Str} {l : List α}
    (h : ∀ x ∈ l, f x = .ok (g x) ∧ '\n' ∉ g x ∧ g x ≠ []) :
    catMap (fun x => (f x).bind fun s => .ok (indentLine s)) l = .ok (bodyLines (l.map g)) := by
  rw [catMap_ok (g := fun x => "    ".toList ++ g x ++ "\n".toList)]
  · unfold bodyLines
    rw [List.flatMap_map]
  · intro x hx
    obtain ⟨h1, h2, h3⟩ := h x hx
    rw [h1, Res.bind_ok, indentLine_plain h2 h3]

theorem bodyLines_append (a b : List Str) : bodyLines (a ++ b) = bodyLines a ++ bodyLines b := by
  simp [bodyLines]

/-- The same for methods: those the application implements have no text. -/
theorem catMap_method_lines {f : MethodRec → Res Str} {g : MethodRec → Str} {l : List MethodRec}
    (hn : ∀ m ∈ l, m.native ≠ none → f m = .ok [])
    (h : ∀ m ∈ l, m.native = none → f m = .ok (g m) ∧ '\n' ∉ g m ∧ g m ≠ []) :
    catMap (fun x => (f x).bind fun s => .ok (indentLine s)) l =
      .ok (bodyLines ((l.filter (·.native.isNone)).map g)) := by
  induction l with
  | nil => rfl
  | cons m l ih =>
    have ih := ih (fun x hx => hn x (by simp [hx])) (fun x hx => h x (by simp [hx]))
    rw [catMap, ih]
    cases hm : m.native with
    | none =>
      obtain ⟨h1, h2, h3⟩ := h m (by simp) hm
      rw [h1, Res.bind_ok, indentLine_plain h2 h3, List.filter_cons_of_pos (by simp [hm])]
      rfl
    | some v =>
      rw [hn m (by simp) (by simp [hm]), List.filter_cons_of_neg (by simp [hm])]
      rfl

theorem catMap_method_texts {f : MethodRec → Res Str} {g : MethodRec → Str} {l : List MethodRec}
    (hn : ∀ m ∈ l, m.native ≠ none → f m = .ok [])
    (h : ∀ m ∈ l, m.native = none → f m = .ok (g m)) :
    catMap f l = .ok ((l.filter (·.native.isNone)).flatMap g) := by
  induction l with
  | nil => rfl
  | cons m l ih =>
    have ih := ih (fun x hx => hn x (by simp [hx])) (fun x hx => h x (by simp [hx]))
    rw [catMap, ih]
    cases hm : m.native with
    | none =>
      rw [h m (by simp) hm, List.filter_cons_of_pos (by simp [hm])]
      rfl
    | some v =>
      rw [hn m (by simp) (by simp [hm]), List.filter_cons_of_neg (by simp [hm])]
      rfl

theorem implicit_plain (fake static : Bool) (x : Str) (hx : x ∈ implicit fake static "jnivm::ENV* env".toList) :
    '\n' ∉ x := by
  cases fake with
  | true => cases hx
  | false =>
    cases static with
    | true =>
      simp only [implicit, Bool.false_eq_true, if_false, if_true, List.mem_cons, List.not_mem_nil, or_false] at hx
      rcases hx with rfl | rfl <;> decide
    | false =>
      simp only [implicit, Bool.false_eq_true, if_false, List.mem_cons, List.not_mem_nil, or_false] at hx
      rw [hx]; decide

theorem render_sub {ts : List Ty} {ret : Option Ty} {t : Ty} (h : t ∈ ts ∨ ret = some t) :
    ∀ c ∈ t.render, c ∈ renderSig ts ret := by
  intro c hc
  unfold renderSig
  rcases h with h | rfl
  · exact List.mem_cons_of_mem _ (List.mem_append_left _ (List.mem_flatMap.2 ⟨t, h, hc⟩))
  · exact List.mem_cons_of_mem _ (List.mem_append_right _ (List.mem_cons_of_mem _ hc))

theorem declaration_plain (fake : Bool) {m : MethodRec} {ts : List Ty} {ret : Option Ty} (h : Typed m ts ret)
    {cname : Str} (h1 : '\n' ∉ m.signature) (h2 : '\n' ∉ m.name) (h3 : '\n' ∉ cname) :
    '\n' ∉ declaration fake m.static m.name cname ts ret ∧ declaration fake m.static m.name cname ts ret ≠ [] := by
  rw [h.signature] at h1
  have hr : '\n' ∉ cppRet fake ret := by
    cases ret with
    | none => show '\n' ∉ "void".toList; decide
    | some t => exact cppType_plain fake t fun hc => h1 (render_sub (.inr rfl) _ hc)
  have hne : ∀ a b c d : Str, c ≠ [] → a ++ b ++ d ++ c ≠ [] := by
    intro a b c d h e
    exact h (List.append_eq_nil_iff.1 e).2
  unfold declaration
  refine ⟨?_, hne _ _ _ _ (by decide)⟩
  have hd : '\n' ∉ "(".toList ∧ '\n' ∉ ");".toList ∧ '\n' ∉ " ".toList ∧ '\n' ∉ "static ".toList := by decide
  simp only [List.mem_append, not_or]
  refine ⟨⟨⟨?_, hd.1⟩, ?_⟩, hd.2.1⟩
  · split
    · exact h3
    · simp only [List.mem_append, not_or]
      refine ⟨⟨⟨?_, hr⟩, hd.2.2.1⟩, h2⟩
      split
      · exact hd.2.2.2
      · simp
  · apply commas_plain
    intro x hx
    rcases List.mem_append.1 hx with hx | hx
    · exact implicit_plain fake _ x hx
    · obtain ⟨t, ht, rfl⟩ := List.mem_map.1 hx
      exact cppType_plain fake t fun hc => h1 (render_sub (.inl ht) _ hc)

theorem fieldDeclaration_plain (fake static : Bool) {name : Str} {t : Ty} (h1 : '\n' ∉ name) (h2 : '\n' ∉ t.render) :
    '\n' ∉ fieldDeclaration fake static name t ∧ fieldDeclaration fake static name t ≠ [] := by
  have hd : '\n' ∉ ";".toList ∧ '\n' ∉ " ".toList ∧ '\n' ∉ "static ".toList := by decide
  unfold fieldDeclaration
  refine ⟨?_, by simp⟩
  simp only [List.mem_append, not_or]
  refine ⟨⟨⟨⟨?_, cppType_plain fake t h2⟩, hd.2.1⟩, h1⟩, hd.1⟩
  split
  · exact hd.2.2
  · simp

/-- The built-in classes have no inner classes among the dumped ones: no name of theirs contains `$`. -/
theorem builtin_no_dollar : ∀ n ∈ blacklisted, '$' ∉ n := by decide +kernel

theorem headerOf_text (fake : Bool) (hr : MemReachable w) (hT : WellTyped w T) {n : Str} {c : Nat}
    (h : w.IsClass n c) (hD : Dumped n) :
    headerOf fake w (cppScope n, c) = .ok (headerText fake w T (entryOf w c)) := by
  have inv := hr.inv
  have hl := (isClass_iff inv).1 h
  obtain ⟨cd, hc, hn, hs⟩ := lookup_simple inv.reg hl
  have hE := entryOf_describes hr h hD
  rw [entryOf_some hc, hn] at hE
  have hplain := simple_plain hs (hT.names n c h)
  unfold headerOf headerText
  rw [entryOf_some hc, hn]
  simp only [hc]
  unfold classText classDeclaration
  have e1 : catMap (fun k => (classPre w k).bind fun s => .ok (indentLine s)) cd.classes =
      .ok (bodyLines ((cd.classes.filterMap fun k => (w.reg.cls[k]?).map (·.name)).map innerDeclaration)) := by
    obtain ⟨π, σ, hTr⟩ := inv.reg.tree
    have hkid : ∀ k ∈ cd.classes, ∃ kd, w.reg.cls[k]? = some kd ∧ kd.nativeprefix ∉ blacklisted ∧ '\n' ∉ kd.name := by
      intro k hk
      obtain ⟨kd, hkd, _⟩ := hTr.clsKids c cd hc k hk
      obtain ⟨_, _, h3⟩ := (inner_classes inv.reg hl hD.1 hc kd.name k).1 ⟨kd, hkd, hk, rfl⟩
      have hcls := (isClass_iff inv).2 h3
      obtain ⟨kd', e1, e2⟩ := isClass_record inv hcls
      rw [hkd] at e1; cases e1
      refine ⟨kd, hkd, fun hb => ?_, fun hb => ?_⟩
      · exact builtin_no_dollar _ hb (by rw [e2]; simp)
      · exact hT.names _ k hcls (by simp [hb])
    have key : ∀ l : List Nat, (∀ k ∈ l, ∃ kd, w.reg.cls[k]? = some kd ∧ kd.nativeprefix ∉ blacklisted ∧ '\n' ∉ kd.name) →
        catMap (fun k => (classPre w k).bind fun s => .ok (indentLine s)) l =
          .ok (bodyLines ((l.filterMap fun k => (w.reg.cls[k]?).map (·.name)).map innerDeclaration)) := by
      intro l
      induction l with
      | nil => intro _; rfl
      | cons k l ih =>
        intro hall
        obtain ⟨kd, h1, h2, h3⟩ := hall k (by simp)
        rw [catMap, ih fun x hx => hall x (by simp [hx])]
        have hp : classPre w k = .ok (innerDeclaration kd.name) := by
          unfold classPre
          rw [withClass_some h1, if_neg h2]
          rfl
        have hi : '\n' ∉ innerDeclaration kd.name := by
          have hd : '\n' ∉ ";".toList ∧ '\n' ∉ "class ".toList := by decide
          unfold innerDeclaration
          simp only [List.mem_append, not_or]
          exact ⟨⟨hd.2, h3⟩, hd.1⟩
        rw [hp, Res.bind_ok, indentLine_plain hi (by simp [innerDeclaration]), Res.bind_ok, Res.bind_ok,
          List.filterMap_cons, h1]
        rfl
    exact key _ hkid
  have e2 : catMap (fun f => (fieldHeader fake f).bind fun s => .ok (indentLine s)) (w.mem c).fields =
      .ok (bodyLines ((w.mem c).fields.map fun f => fieldDeclaration fake f.static f.name (T.field f))) := by
    apply catMap_lines
    intro f hf
    obtain ⟨h1, h2, h3, h4⟩ := hT.fields n c h hD f hf
    refine ⟨(codegen_field fake h1 h2 [] []).1, ?_⟩
    exact fieldDeclaration_plain fake f.static h4 (by rw [← h2]; exact h3)
  have e3 : catMap (fun m => (methodHeader fake m cd.name).bind fun s => .ok (indentLine s)) (w.mem c).methods =
      .ok (bodyLines ((dumpedMethods w c).map fun m =>
        declaration fake m.static m.name cd.name (T.params m) (T.result m))) := by
    apply catMap_method_lines
    · intro m _ hm; exact (codegen_native_skipped fake hm [] cd.name).1
    · intro m hm hmn
      obtain ⟨h1, h2, h3⟩ := hT.methods n c h hD m hm hmn
      exact ⟨codegen_declaration fake h1 cd.name, declaration_plain fake h1 h2 h3 hplain⟩
  rw [e1, e2, e3, Res.bind_ok, Res.bind_ok, Res.bind_ok, bodyLines_append, bodyLines_append]
  refine congrArg Res.ok ?_
  rw [hn]
  cases fake
  · have e : " : public jnivm::Object {\npublic:\n".toList =
        " : ".toList ++ "public jnivm::Object".toList ++ " {\npublic:\n".toList := by decide +kernel
    simp only [Bool.false_eq_true, if_false, Bool.not_false, if_true, e, List.append_assoc, List.nil_append]
  · have e : " : public FakeJni::JObject {\npublic:\n    DEFINE_CLASS_NAME(\"".toList =
        " : ".toList ++ "public FakeJni::JObject".toList ++ " {\npublic:\n".toList ++
          "    DEFINE_CLASS_NAME(\"".toList := by decide +kernel
    simp only [Bool.false_eq_true, if_false, Bool.not_true, if_true, e, List.append_assoc]

theorem flatten_map {α : Type} (f : α → Str) (l : List α) : (l.map f).flatten = l.flatMap f := by
  induction l with
  | nil => rfl
  | cons x l ih => rw [List.map_cons, List.flatten_cons, ih, List.flatMap_cons]

theorem stubsOf_text (fake : Bool) (hr : MemReachable w) (hT : WellTyped w T) {n : Str} {c : Nat}
    (h : w.IsClass n c) (hD : Dumped n) :
    stubsOf fake w (cppScope n, c) = .ok (definitionText fake w T (entryOf w c)) := by
  obtain ⟨cd, hc, hn⟩ := isClass_record hr.inv h
  unfold stubsOf definitionText
  rw [entryOf_some hc, hn]
  simp only [hc]
  unfold stubText
  have e1 : catMap (fun f => fieldStubs fake f (cppScope n)) (w.mem c).fields =
      .ok ((w.mem c).fields.flatMap fun f => fieldDefinition fake f.static (cppScope n) f.name (T.field f)) := by
    apply catMap_ok
    intro f hf
    obtain ⟨h1, h2, _⟩ := hT.fields n c h hD f hf
    exact (codegen_field fake h1 h2 (cppScope n) []).2.1
  have e2 : catMap (fun m => methodStubs fake m (cppScope n) cd.name) (w.mem c).methods =
      .ok ((dumpedMethods w c).flatMap fun m =>
        definition fake m.static m.name (cppScope n) cd.name (T.params m) (T.result m)) := by
    apply catMap_method_texts
    · intro m _ hm; exact (codegen_native_skipped fake hm _ _).2.1
    · intro m hm hmn
      exact codegen_definition fake (hT.methods n c h hD m hm hmn).1 _ _
  rw [e1, e2]
  rfl

theorem registerOf_text (fake : Bool) (inv : MemInv w) {n : Str} {c : Nat} (h : w.IsClass n c) :
    registerOf fake w (cppScope n, c) = .ok (registration fake n) := by
  obtain ⟨cd, hc, hn⟩ := isClass_record inv h
  unfold registerOf
  simp only [hc]
  unfold registerText registration
  rw [hn, scopeName_eq]
  cases fake <;> rfl

theorem eventText_text (hr : MemReachable w) (hT : WellTyped w T) {n : Str} {c : Nat}
    (h : w.IsClass n c) (hD : Dumped n) (b : Bool) :
    eventText w (b, cppScope n, c) = .ok (blockText w T (b, entryOf w c)) := by
  obtain ⟨cd, hc, hn⟩ := isClass_record hr.inv h
  unfold eventText blockText
  rw [entryOf_some hc, hn]
  simp only [hc, hn]
  cases b with
  | true => simp only [if_true]
  | false =>
    simp only [Bool.false_eq_true, if_false]
    have e2 : catMap (fun m => methodBinding false m (cppScope n) cd.name) (w.mem c).methods =
        .ok ((dumpedMethods w c).flatMap fun m =>
          if m.name = "<init>".toList then constructorBinding (cppScope n) (T.params m)
          else methodHook (cppScope n) m.name) := by
      apply catMap_method_texts
      · intro m _ hm; exact (codegen_native_skipped false hm _ _).2.2
      · intro m hm hmn
        have ht := (hT.methods n c h hD m hm hmn).1
        by_cases hi : m.name = "<init>".toList
        · rw [if_pos hi]; exact codegen_constructor_binding ht hi _ _
        · rw [if_neg hi]; exact codegen_method_binding ht hi _ _
    have e1 : ((w.mem c).fields.map fun f => fieldBinding false f (cppScope n) cd.name).flatten =
        (w.mem c).fields.flatMap (fun f => methodHook (cppScope n) f.name) := by
      rw [flatten_map]
      apply flatMap_eq
      intro f hf
      obtain ⟨h1, h2, _⟩ := hT.fields n c h hD f hf
      exact (codegen_field false h1 h2 (cppScope n) cd.name).2.2
    rw [e1, e2, Res.bind_ok]

theorem descriptorOf_text (hr : MemReachable w) (hT : WellTyped w T) {n : Str} {c : Nat}
    (h : w.IsClass n c) (hD : Dumped n) :
    descriptorOf w (cppScope n, c) = .ok (descriptorText w T (entryOf w c)) := by
  obtain ⟨cd, hc, hn⟩ := isClass_record hr.inv h
  unfold descriptorOf descriptorText
  rw [entryOf_some hc, hn]
  simp only [hc]
  have e2 : catMap (fun m => methodBinding true m (cppScope n) cd.name) (w.mem c).methods =
      .ok ((dumpedMethods w c).flatMap fun m =>
        if m.name = "<init>".toList then fakeConstructor cd.name (T.params m)
        else fakeFunction m.static cd.name m.name) := by
    apply catMap_method_texts
    · intro m _ hm; exact (codegen_native_skipped true hm _ _).2.2
    · intro m hm hmn
      exact codegen_fake_binding (hT.methods n c h hD m hm hmn).1 _ _
  have e1 : ((w.mem c).fields.map fun f => fieldBinding true f (cppScope n) cd.name).flatten =
      (w.mem c).fields.flatMap (fun f => fakeField f.static cd.name f.name) := by
    rw [flatten_map]
    apply flatMap_eq
    intro f hf
    obtain ⟨h1, h2, _⟩ := hT.fields n c h hD f hf
    exact (codegen_field true h1 h2 (cppScope n) cd.name).2.2
  rw [e1, e2, Res.bind_ok]

theorem flatMap_entries {α : Type} (f : α → DumpEntry) (g : DumpEntry → Str) (l : List α) :
    l.flatMap (fun x => g (f x)) = (l.map f).flatMap g := by
  rw [List.flatMap_map]

theorem side_map {α β : Type} (f : α → β) (b : Bool) (l : List (Bool × α)) :
    side b (l.map fun x => (x.1, f x.2)) = (side b l).map f := by
  unfold side
  rw [List.filter_map, List.map_map, List.map_map]
  rfl

theorem balanced_map {α β : Type} (f : α → β) : ∀ (l : List (Bool × α)) (st : List α), Balanced st l →
    Balanced (st.map f) (l.map fun x => (x.1, f x.2)) := by
  intro l
  induction l with
  | nil =>
    intro st h
    cases st with
    | nil => trivial
    | cons x st => exact h
  | cons y l ih =>
    intro st h
    obtain ⟨b, y⟩ := y
    cases b with
    | true =>
      have h' : Balanced (y :: st) l := by cases st <;> exact h
      have := ih _ h'
      cases st <;> exact this
    | false =>
      cases st with
      | nil => exact h
      | cons x st =>
        obtain ⟨rfl, h⟩ := h
        exact ⟨rfl, ih _ h⟩

/-- C50. The text of the class dump: every class that is not an array and not built in occurs exactly once among
the declarations, definitions, registrations and bindings, with all its fields, methods and inner classes; all
parameters are in the order of the signature, and outer classes are declared first.  The bindings of a class are in a block in which `c` is that class
and are not inside the block of an inner class.  Before all this the classes are declared in their namespaces. -/
theorem dump_text (hr : MemReachable w) (hT : WellTyped w T) : ∃ d0, ∀ d, d0 ≤ d →
    ∃ (pre : Str) (L : List DumpEntry) (B : List (Bool × DumpEntry)), ForwardDeclares w pre ∧
      (∀ e ∈ L, e.Describes w) ∧ (∀ n c, w.IsClass n c → Dumped n → ∃ e ∈ L, e.name = n) ∧
      (L.map DumpEntry.name).Nodup ∧ OuterFirst L ∧ side true B = L ∧ (side false B).Perm L ∧ Balanced [] B ∧
      w.classDump false d = .ok ("#include <jnivm.h>\n".toList ++ pre ++ "\n".toList ++
        L.flatMap (headerText false w T) ++ (side false B).flatMap (definitionText false w T) ++
        "void InitJNIBinding(jnivm::ENV* env) {\n".toList ++ L.flatMap (fun e => registration false e.name) ++
        B.flatMap (blockText w T) ++ "\n}".toList) ∧
      w.classDump true d = .ok ("#include <fake-jni/fake-jni.h>\n".toList ++ pre ++ "\n".toList ++
        L.flatMap (headerText true w T) ++ (side false B).flatMap (definitionText true w T) ++
        L.flatMap (descriptorText w T) ++ "\nvoid InitJNIBinding(FakeJni::Jvm* vm) {\n".toList ++
        L.flatMap (fun e => registration true e.name) ++ "\n}".toList) := by
  have inv := hr.inv
  obtain ⟨d1, h1⟩ := classDump_outcome false (w := w) inv.reg
  obtain ⟨d1', h1'⟩ := classDump_outcome true (w := w) inv.reg
  obtain ⟨d2, h2⟩ := nsList_spec inv.reg
  obtain ⟨d3, h3⟩ := nsBinding_root (w := w) inv.reg
  obtain ⟨d4, h4⟩ := nsPre_root (w := w) inv.reg fun n c h => hT.names n c ((isClass_iff inv).2 h)
  refine ⟨max d4 (max (max d1 d1') (max d2 d3)), fun d hd => ?_⟩
  obtain ⟨a1, a2, a3, ao⟩ := h1 d (by omega)
  obtain ⟨b1, b2, b3, _⟩ := h1' d (by omega)
  obtain ⟨hl, hnd⟩ := h2 d (by omega)
  obtain ⟨c1, c2⟩ := h3 d (by omega)
  have hside := nsEvents_side w.reg d [] 0
  have hbal := nsEvents_balanced w.reg d [] 0
  have hperm := nsListPost_perm w.reg d [] 0
  -- everything in the lists is a class to be dumped
  have mem : ∀ x ∈ nsList w.reg d [] 0, ∃ n, w.IsClass n x.2 ∧ Dumped n ∧ x.1 = cppScope n := by
    rintro ⟨s, c⟩ hx
    obtain ⟨n, hn, hD, hs⟩ := (hl s c).1 hx
    exact ⟨n, (isClass_iff inv).2 hn, hD, hs⟩
  have memP : ∀ x ∈ nsListPost w.reg d [] 0, ∃ n, w.IsClass n x.2 ∧ Dumped n ∧ x.1 = cppScope n :=
    fun x hx => mem x (hperm.mem_iff.1 hx)
  have memE : ∀ x ∈ nsEvents w.reg d [] 0, ∃ n, w.IsClass n x.2.2 ∧ Dumped n ∧ x.2.1 = cppScope n := by
    rintro ⟨b, x⟩ hx
    cases b with
    | true =>
      apply mem
      rw [← hside.1]
      unfold side
      exact List.mem_map.2 ⟨_, List.mem_filter.2 ⟨hx, rfl⟩, rfl⟩
    | false =>
      apply memP
      rw [← hside.2]
      unfold side
      exact List.mem_map.2 ⟨_, List.mem_filter.2 ⟨hx, rfl⟩, rfl⟩
  -- the texts
  have header : ∀ fake, catMap (headerOf fake w) (nsList w.reg d [] 0) =
      .ok (((nsList w.reg d [] 0).map fun x => entryOf w x.2).flatMap (headerText fake w T)) := by
    intro fake
    rw [← flatMap_entries]
    apply catMap_ok
    rintro ⟨s, c⟩ hx
    obtain ⟨n, hn, hD, rfl⟩ := mem _ hx
    exact headerOf_text fake hr hT hn hD
  have stubs : ∀ fake, catMap (stubsOf fake w) (nsListPost w.reg d [] 0) =
      .ok (((nsListPost w.reg d [] 0).map fun x => entryOf w x.2).flatMap (definitionText fake w T)) := by
    intro fake
    rw [← flatMap_entries]
    apply catMap_ok
    rintro ⟨s, c⟩ hx
    obtain ⟨n, hn, hD, rfl⟩ := memP _ hx
    exact stubsOf_text fake hr hT hn hD
  have reg : ∀ fake, catMap (registerOf fake w) (nsList w.reg d [] 0) =
      .ok (((nsList w.reg d [] 0).map fun x => entryOf w x.2).flatMap fun e => registration fake e.name) := by
    intro fake
    rw [← flatMap_entries (fun x : Str × Nat => entryOf w x.2) (fun e => registration fake e.name)]
    apply catMap_ok
    rintro ⟨s, c⟩ hx
    obtain ⟨n, hn, hD, rfl⟩ := mem _ hx
    rw [registerOf_text fake inv hn, entryOf_name inv hn]
  have blocks : catMap (eventText w) (nsEvents w.reg d [] 0) =
      .ok (((nsEvents w.reg d [] 0).map fun x => (x.1, entryOf w x.2.2)).flatMap (blockText w T)) := by
    rw [List.flatMap_map]
    apply catMap_ok
    rintro ⟨b, s, c⟩ hx
    obtain ⟨n, hn, hD, rfl⟩ := memE _ hx
    exact eventText_text hr hT hn hD b
  have descr : catMap (descriptorOf w) (nsList w.reg d [] 0) =
      .ok (((nsList w.reg d [] 0).map fun x => entryOf w x.2).flatMap (descriptorText w T)) := by
    rw [← flatMap_entries]
    apply catMap_ok
    rintro ⟨s, c⟩ hx
    obtain ⟨n, hn, hD, rfl⟩ := mem _ hx
    exact descriptorOf_text hr hT hn hD
  -- the forward declarations
  obtain ⟨N, E, f1, f2, f3, f4, hp⟩ := h4 d (by omega)
  have hF : ForwardDeclares w (joinLines (preLines 0 E)) := by
    refine ⟨N, E, f1, fun ps s => ?_, f3, f4, rfl⟩
    rw [f2]
    simp only [isClass_iff inv]
  have s1 : side true ((nsEvents w.reg d [] 0).map fun x => (x.1, entryOf w x.2.2)) =
      (nsList w.reg d [] 0).map fun x => entryOf w x.2 := by
    rw [← hside.1]
    exact side_map (fun x : Str × Nat => entryOf w x.2) true _
  have s2 : side false ((nsEvents w.reg d [] 0).map fun x => (x.1, entryOf w x.2.2)) =
      (nsListPost w.reg d [] 0).map fun x => entryOf w x.2 := by
    rw [← hside.2]
    exact side_map (fun x : Str × Nat => entryOf w x.2) false _
  refine ⟨_, (nsList w.reg d [] 0).map fun x => entryOf w x.2,
    (nsEvents w.reg d [] 0).map fun x => (x.1, entryOf w x.2.2), hF, ?_, ?_, ?_, ?_, s1, ?_, ?_, ?_, ?_⟩
  · intro e he
    obtain ⟨x, hx, rfl⟩ := List.mem_map.1 he
    obtain ⟨n, hn, hD, _⟩ := mem x hx
    exact entryOf_describes hr hn hD
  · intro n c hn hD
    refine ⟨entryOf w c, List.mem_map.2 ⟨(cppScope n, c), (hl _ _).2 ⟨n, (isClass_iff inv).1 hn, hD, rfl⟩, rfl⟩, ?_⟩
    exact entryOf_name inv hn
  · rw [List.map_map]
    unfold List.Nodup at hnd ⊢
    rw [List.pairwise_map] at hnd ⊢
    refine List.Pairwise.imp_of_mem ?_ hnd
    intro a b ha hb hab he
    obtain ⟨n, hn, _⟩ := mem a ha
    obtain ⟨n', hn', _⟩ := mem b hb
    have he : (entryOf w a.2).name = (entryOf w b.2).name := he
    rw [entryOf_name inv hn, entryOf_name inv hn'] at he
    subst he
    have e1 := (isClass_iff inv).1 hn
    rw [(isClass_iff inv).1 hn'] at e1
    exact hab (Option.some.inj e1).symm
  · intro a e b hL o k he hk1 hk2
    obtain ⟨a', b', e1, rfl, e3⟩ := List.map_eq_append_iff.1 hL
    obtain ⟨x, b'', rfl, rfl, rfl⟩ := List.map_eq_cons_iff.1 e3
    have hord := nsList_ord w.reg d [] 0 []
    rw [e1, List.map_append, List.map_cons] at hord
    obtain ⟨n, hn, hD, _⟩ := mem x (by rw [e1]; simp)
    rw [entryOf_name inv hn] at he
    obtain ⟨cd, hcd, hcn⟩ := isClass_record inv hn
    rcases ordFrom_split _ _ _ _ hord with ht | ⟨y, hy, pd, hpd, hkid⟩
    · exact (topClass_name inv.reg ht hcd hk1 (by rw [hcn, he])).elim
    · rcases hy with hy | hy
      · cases hy
      · obtain ⟨y, hy', rfl⟩ := List.mem_map.1 hy
        obtain ⟨p, hp, hpD, _⟩ := mem y (by rw [e1]; simp [hy'])
        obtain ⟨_, g2, g3⟩ := (inner_classes inv.reg ((isClass_iff inv).1 hp) hpD.1 hpd cd.name x.2).1 ⟨cd, hcd, hkid, rfl⟩
        obtain ⟨cd', q1, q2⟩ := isClass_record inv ((isClass_iff inv).2 g3)
        rw [hcd] at q1; cases q1
        rw [hcn, he] at q2
        refine ⟨entryOf w y.2, List.mem_map.2 ⟨y, hy', rfl⟩, ?_⟩
        rw [entryOf_name inv hp]
        exact (split_dollar hk2 g2 q2).symm
  · rw [s2]
    exact hperm.map _
  · exact balanced_map (fun x : Str × Nat => entryOf w x.2) _ _ hbal
  · rw [s2]
    unfold World.classDump
    rw [hp, a1, a2, a3, c1, header, stubs, reg, blocks]
    rfl
  · rw [s2]
    unfold World.classDump
    rw [hp, b1, b2, b3, c2, header, stubs, reg, descr]
    rfl

/-- The forward declaration of the class "a/B". -/
example : joinLines (preLines 0 [.opens "jnivm".toList, .opens "a".toList, .declares "B".toList, .closes, .closes]) =
      "namespace jnivm {\n    namespace a {\n        class B;\n    }\n}".toList ∧
    track [] [.opens "jnivm".toList, .opens "a".toList, .declares "B".toList, .closes, .closes] =
      some ([], [(["jnivm".toList, "a".toList], "B".toList)]) := by decide +kernel

/-! ### A VM with the classes "a/B" and "a/B$C" -/

/-- A VM in which "a/B$C" has one method "q" that the application asked for. -/
theorem sample_dump (sig : Str) (hsig : ∀ (w : World) b c, w.IsClass "a/B".toList b → w.IsClass "a/B$C".toList c → declare w.reg sig = .ok w.reg) :
    ∃ w c id, MemReachable w ∧ w.IsClass "a/B$C".toList c ∧ (∃ b, w.IsClass "a/B".toList b) ∧
    (w.mem c).methods = [⟨id, "q".toList, sig, false, none, none⟩] ∧
    (∀ d, d ≠ c → (w.mem d).methods = []) ∧ (∀ d, (w.mem d).fields = []) ∧
    ∀ m d, w.IsClass m d → (∃ n ∈ builtinClasses.map String.toList, Encloses m n) ∨ Encloses m "a/B$C".toList := by
  have i0 := initial_memInv
  obtain ⟨r', c, e, hl, hcr⟩ := findClass_create i0.reg "a/B$C".toList
  have hrun : (MemOp.bindType 0 "a/B$C".toList [none]).run World.initial = .ok ({ World.initial.setMem c
      { World.initial.mem c with bases := some [none] } with
      reg := r', types := fun u => if u = 0 then some c else World.initial.types u } : World) := by
    simp only [MemOp.run, World.bindType, e]
  have i1 := step_memInv i0 hrun
  generalize hw : ({ World.initial.setMem c { World.initial.mem c with bases := some [none] } with
      reg := r', types := fun u => if u = 0 then some c else World.initial.types u } : World) = w1 at hrun i1
  have hreg : w1.reg = r' := by rw [← hw]
  have hmem : ∀ d, w1.mem d = if d = c then { World.initial.mem c with bases := some [none] } else World.initial.mem d := by
    rw [← hw]; intro d; rfl
  have hmf : ∀ d, (w1.mem d).methods = [] ∧ (w1.mem d).fields = [] := by
    intro d
    rw [hmem]
    split <;> exact ⟨rfl, rfl⟩
  have hc1 : w1.IsClass "a/B$C".toList c := (isClass_iff i1).2 (by rw [hreg]; exact hl)
  have hb1 : ∃ b, w1.IsClass "a/B".toList b := by
    have : (r'.byName.lookup "a/B".toList).isSome := by
      rw [hcr.new]
      exact .inr (.inr ⟨by decide, "C".toList, by decide, by decide⟩)
    obtain ⟨b, hb⟩ := Option.isSome_iff_exists.1 this
    exact ⟨b, (isClass_iff i1).2 (by rw [hreg]; exact hb)⟩
  have hr1 : MemReachable w1 := MemReachable.step ⟨[], rfl⟩ hrun
  have hA : w1.getMethodID 1 false false false (some c) "q".toList sig =
      .ok (w1.addMethod c ⟨w1.next, "q".toList, sig, false, none, none⟩ w1.reg, some w1.next) := by
    rw [getMethodID_isClass hr1.inv hc1, effKey_plain (by decide)]
    unfold World.methodOf
    have hb : w1.bases c = some [none] := by unfold World.bases; rw [hmem, if_pos rfl]; rfl
    have : dfs w1.bases (w1.ownMethod ⟨false, false, "q".toList, sig⟩) 1 c = .ok none := by
      have hcore : ∀ c, w1.cores c = [] := fun c => by simp [World.cores, hmf c]
      simp only [dfs, ownMethod_cores, hcore, hb]; rfl
    rw [this]
    simp only [Res.bind_ok, Bool.false_eq_true, if_false, World.createMethod, hsig w1 _ c hb1.choose_spec hc1]
    rfl
  have hrunA := run_getMethodID (nat := false) (rn := false) (by simp) hA
  have keep := fun {n d} => isClass_step (n := n) (c := d) hr1.inv hrunA
  have i2 := step_memInv i1 hrunA
  refine ⟨_, c, w1.next, hr1.step hrunA, keep hc1, ?_, ?_, ?_, ?_, ?_⟩
  · obtain ⟨b, hb⟩ := hb1
    exact ⟨b, keep hb⟩
  · simp [World.addMethod, World.setMem, hmf]
  · intro d hd
    simp [World.addMethod, World.setMem, hmf, hd]
  · intro d
    by_cases hd : d = c
    · simp [World.addMethod, World.setMem, hmf, hd]
    · simp [World.addMethod, World.setMem, hmf, hd]
  · intro m d hm
    have hm := (isClass_iff i2).1 hm
    have hm : w1.reg.byName.lookup m = some d := hm
    rw [hreg] at hm
    rcases (hcr.new m).1 (by rw [hm]; rfl) with h | h
    · obtain ⟨d', hd'⟩ := Option.isSome_iff_exists.1 h
      exact .inl ((initial_classes m).1 ⟨d', (isClass_iff i0).2 hd'⟩)
    · exact .inr h

theorem sample_names {m : Str} (h : (∃ n ∈ builtinClasses.map String.toList, Encloses m n) ∨ Encloses m "a/B$C".toList) : '\n' ∉ m := by
  have key : ∀ n, '\n' ∉ n → Encloses m n → '\n' ∉ m := by
    rintro n hn (rfl | ⟨_, inner, rfl, _⟩)
    · exact hn
    · exact fun hm => hn (by simp [hm])
  rcases h with ⟨n, hn, h⟩ | h
  · have : ∀ m ∈ builtinClasses.map String.toList, '\n' ∉ m := by decide +kernel
    exact key n (this n hn) h
  · exact key _ (by decide) h

theorem sample_dumped : Dumped "a/B$C".toList := by
  refine ⟨by decide, fun m hm hb => ?_⟩
  have hlen : ∀ m ∈ builtin, 6 ≤ m.length := by decide +kernel
  have h6 := hlen m hb
  rcases hm with rfl | ⟨_, inner, e, _⟩
  · revert h6; decide
  · have := congrArg List.length e
    simp at this
    omega

example : ∃ (w : World) (T : Typing), MemReachable w ∧ WellTyped w T ∧ (∃ b c, b ≠ c ∧ w.IsClass "a/B".toList b ∧
    w.IsClass "a/B$C".toList c ∧ Dumped "a/B$C".toList ∧ dumpedMethods w c ≠ []) := by
  obtain ⟨w, c, id, hr, hc, ⟨b, hb⟩, hm, hm', hf, hn⟩ := sample_dump "()V".toList fun w _ _ _ _ => declare_unit w.reg
  refine ⟨w, ⟨fun _ => [], fun _ => none, fun _ => .prim .int⟩, hr, ⟨?_, ?_, ?_⟩, b, c, ?_, hb, hc, sample_dumped, ?_⟩
  · intro n d _ _ m hmm _
    by_cases hd : d = c
    · rw [hd, hm, List.mem_singleton] at hmm
      rw [hmm]
      exact ⟨⟨rfl, by simp, by simp, rfl⟩, show '\n' ∉ "()V".toList by decide, show '\n' ∉ "q".toList by decide⟩
    · rw [hm' d hd] at hmm; cases hmm
  · intro n d _ _ f hff
    rw [hf] at hff; cases hff
  · intro n d h
    exact sample_names (hn n d h)
  · exact isClass_ne hr.inv hb hc (by decide)
  · unfold dumpedMethods
    rw [hm]
    simp

theorem declare_cut (r : Registry) : declare r "([".toList = .ok r := by
  have h1 := declareLoop_other r [] "[".toList (c := '(') (by decide)
  have h2 := declareLoop_other r "(".toList [] (c := '[') (by decide)
  have h3 := declareLoop_end r "([".toList
  exact h1.trans (h2.trans h3)

/-- A method with the signature "([" can be looked up, but then the dump reads past the end of the signature. -/
theorem dump_cut_signature (fake : Bool) : ∃ w, MemReachable w ∧ ∃ d0, ∀ d, d0 ≤ d →
    w.classDump fake d = .ub .outOfBounds := by
  obtain ⟨w, c, id, hr, hc, _, hm, _⟩ := sample_dump "([".toList fun w _ _ _ _ => declare_cut w.reg
  obtain ⟨d0, h⟩ := dump_total fake hr
  refine ⟨w, hr, d0, fun d hd => (h d hd).2 ⟨_, c, hc, sample_dumped, ⟨id, "q".toList, "([".toList, false, none, none⟩,
    by rw [hm]; simp, rfl, show cutOff .outside "([".toList = true by decide⟩⟩

/-- C50. Unless a package is empty or contains `$`, a class is declared in the scope that types and registrations
use for it. -/
theorem dump_scope_agrees {n : Str} (h : PlainName n) : cppScope n = cppClass false n :=
  cppScope_plain h

example : PlainName "com/x/A$B".toList := by
  intro a b e
  have h1 : ∀ p ∈ (List.range 10).map (fun i => ("com/x/A$B".toList.take i, "com/x/A$B".toList.drop i)),
      p.2.head? = some '/' → p.1 ≠ [] ∧ p.1.getLast? ≠ some '/' ∧ '$' ∉ p.1 := by decide +kernel
  have hl := congrArg List.length e
  have ha : "com/x/A$B".toList.take a.length = a := by rw [e]; simp
  have hb : "com/x/A$B".toList.drop a.length = '/' :: b := by rw [e]; simp
  have := h1 (a, '/' :: b) (List.mem_map.2 ⟨a.length, List.mem_range.2 (by simp at hl; omega), by rw [ha, hb]⟩) rfl
  exact this

end Jnivm
