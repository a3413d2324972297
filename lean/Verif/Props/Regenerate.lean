import Verif.Lemmas.Rebind
import Verif.Props.ClassDump
/-!
C62: the C++ code of a class dump, read as C++ and run, installs the members from which it was generated.
-/
namespace Jnivm
open Spec

/-- The lines inside the declaration of a class. -/
def classBody (fake : Bool) (T : Typing) (inner : List Str) (cname : Str) (fs : List FieldRec) (ms : List MethodRec) : List Str :=
  inner.map innerDeclaration ++ fs.map (fun f => fieldDeclaration fake f.static f.name (T.field f)) ++
    ms.map fun m => declaration fake m.static m.name cname (T.params m) (T.result m)

/-- The line that binds a field. -/
def fieldLine (fake : Bool) (scope cname : Str) (f : FieldRec) : Str :=
  if fake then fakeField f.static cname f.name else methodHook scope f.name

/-- The line that binds a method. -/
def methodLine (fake : Bool) (T : Typing) (scope cname : Str) (m : MethodRec) : Str :=
  if m.name = "<init>".toList then
    if fake then fakeConstructor cname (T.params m) else constructorBinding scope (T.params m)
  else if fake then fakeFunction m.static cname m.name else methodHook scope m.name

/-- The lines that bind the members of a class. -/
def classLines (fake : Bool) (T : Typing) (scope cname : Str) (fs : List FieldRec) (ms : List MethodRec) : List Str :=
  fs.map (fieldLine fake scope cname) ++ ms.map (methodLine fake T scope cname)

/-- These are the lines of the class dump. -/
theorem regenerate_lines (w : World) (T : Typing) (e : DumpEntry) :
    (∀ fake, headerText fake w T e = classDeclaration fake (cppScope e.name) e.name
      (classBody fake T e.inner e.simple (w.mem e.cls).fields (dumpedMethods w e.cls))) ∧
    blockText w T (false, e) =
      (classLines false T (cppScope e.name) e.simple (w.mem e.cls).fields (dumpedMethods w e.cls)).flatten ++ "}\n".toList ∧
    descriptorText w T e = "BEGIN_NATIVE_DESCRIPTOR(".toList ++ cppScope e.name ++ ")\n".toList ++
      (classLines true T (cppScope e.name) e.simple (w.mem e.cls).fields (dumpedMethods w e.cls)).flatten ++
      "END_NATIVE_DESCRIPTOR\n".toList := by
  have hf : ∀ fake, (fun f => fieldLine fake (cppScope e.name) e.simple f) = fun f : FieldRec =>
      if fake then fakeField f.static e.simple f.name else methodHook (cppScope e.name) f.name := fun _ => rfl
  refine ⟨fun _ => rfl, ?_, ?_⟩
  · unfold blockText classLines
    rw [List.flatten_append, flatten_map, flatten_map]
    rfl
  · unfold descriptorText classLines
    rw [List.flatten_append, flatten_map, flatten_map]
    simp only [List.append_assoc]
    rfl

/-- The class `n` can be declared: its types are declared, and the names of its members are identifiers. -/
structure Declarable (fake : Bool) (N : CppNames) (num : Str → Nat) (clazz : Nat) (T : Typing) (n cname : Str)
    (fs : List FieldRec) (ms : List MethodRec) : Prop where
  own : N.cls (cppScope n) = some (num n)
  clazzName : N.cls "jnivm::Class".toList = some clazz
  ident : isIdent cname = true
  fields : ∀ f ∈ fs, f.type = (T.field f).render ∧ Known fake N num (T.field f) ∧ isIdent f.name = true ∧ f.name ≠ cname
  methods : ∀ m ∈ ms, Typed m (T.params m) (T.result m) ∧ (∀ t ∈ T.params m, Known fake N num t) ∧
    ∀ t, T.result m = some t → Known fake N num t
  named : ∀ m ∈ ms, m.name ≠ "<init>".toList → isIdent m.name = true ∧ m.name ≠ cname

/-- The class `n` compiles: moreover its members have distinct names, and constructors give objects of the class. -/
structure Compiles (fake : Bool) (N : CppNames) (num : Str → Nat) (clazz : Nat) (T : Typing) (n cname : Str)
    (fs : List FieldRec) (ms : List MethodRec) : Prop extends Declarable fake N num clazz T n cname fs ms where
  ctors : ∀ m ∈ ms, m.name = "<init>".toList → m.static = true ∧ T.result m = some (.cls n)
  distinct : (fs.map (·.name) ++ (ms.filter (·.name ≠ "<init>".toList)).map (·.name)).Nodup

/-- No constructor takes the parameters of another one after a `Class`. -/
def CtorsApart (T : Typing) (ms : List MethodRec) : Prop :=
  ∀ m ∈ ms, ∀ m' ∈ ms, m.name = "<init>".toList → m'.name = "<init>".toList →
    T.params m ≠ .cls "java/lang/Class".toList :: T.params m'

/-- The class names that the members of class `n` mention, with their C++ classes. -/
def UsesName (num : Str → Nat) (clazz : Nat) (T : Typing) (n : Str) (fs : List FieldRec) (ms : List MethodRec)
    (t : Nat) (k : Str) : Prop :=
  (t = clazz ∧ k = "java/lang/Class".toList) ∨ (t = num k ∧ (k = n ∨ (∃ f ∈ fs, k ∈ (T.field f).classNames) ∨
    ∃ m ∈ ms, (∃ u ∈ T.params m, k ∈ u.classNames) ∨ ∃ u, T.result m = some u ∧ k ∈ u.classNames))

/-- What the members of a class promise. -/
def classPromises (fake : Bool) (T : Typing) (scope cname : Str) (fs : List FieldRec) (ms : List MethodRec)
    (fn : Str → Nat → Nat) : List Promise :=
  fs.flatMap (fun f => fieldPromises f.static f.name (T.field f) (fn (fieldLine fake scope cname f))) ++
  ms.flatMap fun m => methodPromises fake m.static m.name (T.params m) (T.result m) (fn (methodLine fake T scope cname m))

variable {fake : Bool} {N : CppNames} {num : Str → Nat} {clazz : Nat} {T : Typing} {n cname : Str}
  {fs : List FieldRec} {ms : List MethodRec}

/-- The members of the class, read. -/
def membersOf (fake : Bool) (N : CppNames) (num : Str → Nat) (clazz : Nat) (T : Typing) (inner : List Str) (fs : List FieldRec)
    (ms : List MethodRec) : List CppMember :=
  inner.map CppMember.inner ++
    fs.map (fun f => CppMember.named f.name ⟨if f.static then .variable else .dataMember, typeOf num (T.field f), []⟩) ++
    ms.map (fun m => if m.name = "<init>".toList then
        CppMember.ctor (implicitOf N clazz fake m.static ++ (T.params m).map (typeOf num))
      else .named m.name ⟨if m.static then .plain else .member, retOf num (T.result m),
        implicitOf N clazz fake m.static ++ (T.params m).map (typeOf num)⟩)

theorem members_read (h : Declarable fake N num clazz T n cname fs ms) (inner : List Str) :
    readAllOf (readMember N cname) (classBody fake T inner cname fs ms) = some (membersOf fake N num clazz T inner fs ms) ∧
    (membersOf fake N num clazz T inner fs ms).filterMap memberName =
      fs.map (·.name) ++ (ms.filter (·.name ≠ "<init>".toList)).map (·.name) := by
  generalize hM : membersOf fake N num clazz T inner fs ms = M
  unfold membersOf at hM
  have hbody : readAllOf (readMember N cname) (classBody fake T inner cname fs ms) = some M := by
    rw [← hM]
    refine readAllOf_append (readAllOf_append (readAllOf_map fun k _ => readMember_inner N cname k)
      (readAllOf_map fun f hf => ?_)) (readAllOf_map fun m hm => ?_)
    · obtain ⟨_, h2, h3, h4⟩ := h.fields f hf
      exact readMember_field h2 h3 h4
    · obtain ⟨_, h2, h3⟩ := h.methods m hm
      by_cases hi : m.name = "<init>".toList
      · rw [if_pos hi, hi]
        exact readMember_ctor h.clazzName h2 h.ident
      · rw [if_neg hi]
        exact readMember_method h.clazzName h2 h3 (h.named m hm hi).1 h.ident (h.named m hm hi).2
  have hnames : M.filterMap memberName = fs.map (·.name) ++ (ms.filter (·.name ≠ "<init>".toList)).map (·.name) := by
    have e1 : ∀ l : List Str, (l.map CppMember.inner).filterMap memberName = [] := by
      intro l
      rw [List.filterMap_map]
      exact List.filterMap_eq_nil_iff.2 fun _ _ => rfl
    have e2 : ∀ l : List FieldRec, (l.map (fun f => CppMember.named f.name
        ⟨if f.static then .variable else .dataMember, typeOf num (T.field f), []⟩)).filterMap memberName = l.map (·.name) := by
      intro l
      rw [List.filterMap_map]
      exact List.filterMap_eq_map (f := fun f : FieldRec => f.name) ▸ rfl
    have e3 : ∀ l : List MethodRec, (l.map (fun m => if m.name = "<init>".toList then
        CppMember.ctor (implicitOf N clazz fake m.static ++ (T.params m).map (typeOf num))
      else .named m.name ⟨if m.static then .plain else .member, retOf num (T.result m),
        implicitOf N clazz fake m.static ++ (T.params m).map (typeOf num)⟩)).filterMap memberName =
        (l.filter (·.name ≠ "<init>".toList)).map (·.name) := by
      intro l
      induction l with
      | nil => rfl
      | cons m l ih =>
        rw [List.map_cons]
        by_cases hi : m.name = "<init>".toList
        · rw [if_pos hi, List.filterMap_cons_none rfl, List.filter_cons_of_neg (by simpa using hi), ih]
        · rw [if_neg hi, List.filterMap_cons_some (f := memberName) (b := m.name) rfl, List.filter_cons_of_pos (by simpa using hi), List.map_cons, ih]
    rw [← hM, List.filterMap_append, List.filterMap_append, e1, e2, e3, List.nil_append]
  exact ⟨hbody, hnames⟩

/-- C62, reading.  The generated class compiles, and its bindings promise each field and each method with its
name, type and staticness. -/
theorem regenerate_reads (h : Compiles fake N num clazz T n cname fs ms) (inner : List Str) (fn : Str → Nat → Nat) :
    ∃ es, readClass fake N (cppScope n) cname (classBody fake T inner cname fs ms)
        (classLines fake T (cppScope n) cname fs ms) fn = some es ∧
      ∀ compat ci w c, ci.clazz = clazz → NamesIn ci (UsesName num clazz T n fs ms) w →
        AllPromises compat ci w c es (classPromises fake T (cppScope n) cname fs ms fn) := by
  -- the members
  obtain ⟨hbody, hnames⟩ := members_read h.toDeclarable inner
  generalize hM : membersOf fake N num clazz T inner fs ms = M at hbody hnames
  unfold membersOf at hM
  have hnd : (M.filterMap memberName).Nodup := by rw [hnames]; exact h.distinct
  generalize hD : (⟨num n, cppScope n, cname, M⟩ : CppDecl) = D
  have hDM : D.members = M := by rw [← hD]
  have hDs : D.scope = cppScope n := by rw [← hD]
  have hDc : D.cname = cname := by rw [← hD]
  have hDt : D.type = num n := by rw [← hD]
  -- the bindings
  have hfield : ∀ f ∈ fs, (if fake then readEntry N D (fn (fieldLine fake (cppScope n) cname f)) (fieldLine fake (cppScope n) cname f)
      else readHook N D (fn (fieldLine fake (cppScope n) cname f)) (fieldLine fake (cppScope n) cname f)) =
      some (fieldEntry num f.static f.name (T.field f) (fn (fieldLine fake (cppScope n) cname f))) := by
    intro f hf
    obtain ⟨_, _, h3, _⟩ := h.fields f hf
    have hm : memberNamed D.members f.name =
        some ⟨if f.static then .variable else .dataMember, typeOf num (T.field f), []⟩ := by
      rw [hDM]
      refine memberNamed_of ?_ hnd
      rw [← hM]
      simp only [List.mem_append, List.mem_map]
      exact .inl (.inr ⟨f, hf, rfl⟩)
    generalize hF : fn (fieldLine fake (cppScope n) cname f) = F
    unfold fieldLine
    cases fake with
    | true =>
      simp only [if_true]
      rw [← hDc]
      exact readEntry_field F f.static h3 hm
    | false =>
      simp only [Bool.false_eq_true, if_false]
      rw [← hDs, readHook_named F h3 hm, hookEntry_field]
  have hmethod : ∀ m ∈ ms, (if fake then readEntry N D (fn (methodLine fake T (cppScope n) cname m)) (methodLine fake T (cppScope n) cname m)
      else readHook N D (fn (methodLine fake T (cppScope n) cname m)) (methodLine fake T (cppScope n) cname m)) =
      some (if m.name = "<init>".toList ∧ fake = true then
        .ctor (num n) ((T.params m).map (typeOf num)) (fn (methodLine fake T (cppScope n) cname m))
      else methodEntry N clazz num fake m.static m.name (T.params m) (T.result m) (fn (methodLine fake T (cppScope n) cname m))) := by
    intro m hm
    obtain ⟨h1, h2, h3⟩ := h.methods m hm
    generalize hF : fn (methodLine fake T (cppScope n) cname m) = F
    unfold methodLine
    by_cases hi : m.name = "<init>".toList
    · obtain ⟨hs, hres⟩ := h.ctors m hm hi
      have hmem : .ctor (implicitOf N clazz fake true ++ (T.params m).map (typeOf num)) ∈ D.members := by
        rw [hDM, ← hM]
        simp only [List.mem_append, List.mem_map]
        exact .inr ⟨m, hm, by rw [if_pos hi, hs]⟩
      rw [if_pos hi]
      cases fake with
      | true =>
        simp only [if_true, hi, and_self]
        rw [← hDc, ← hDt]
        exact readEntry_ctor F h2 (by rw [hDc]; exact h.ident) hmem
      | false =>
        simp only [Bool.false_eq_true, if_false, and_false]
        rw [← hDs, readHook_ctor F h.clazzName h2 hmem, hDt, hi, hs, hres]
        rfl
    · have hmem : memberNamed D.members m.name = some ⟨if m.static then .plain else .member, retOf num (T.result m),
          implicitOf N clazz fake m.static ++ (T.params m).map (typeOf num)⟩ := by
        rw [hDM]
        refine memberNamed_of ?_ hnd
        rw [← hM]
        simp only [List.mem_append, List.mem_map]
        exact .inr ⟨m, hm, by rw [if_neg hi]⟩
      have hno : ¬ (m.name = "<init>".toList ∧ fake = true) := fun h => hi h.1
      rw [if_neg hi]
      simp only [if_neg hno]
      have hx := (h.named m hm hi).1
      cases fake with
      | true =>
        simp only [if_true]
        rw [← hDc]
        exact readEntry_fn F m.static hx hmem
      | false =>
        simp only [Bool.false_eq_true, if_false]
        rw [← hDs, readHook_named F hx hmem, hookEntry_method]
        rfl
  refine ⟨fs.map (fun f => fieldEntry num f.static f.name (T.field f) (fn (fieldLine fake (cppScope n) cname f))) ++
    ms.map (fun m => if m.name = "<init>".toList ∧ fake = true then
        .ctor (num n) ((T.params m).map (typeOf num)) (fn (methodLine fake T (cppScope n) cname m))
      else methodEntry N clazz num fake m.static m.name (T.params m) (T.result m)
        (fn (methodLine fake T (cppScope n) cname m))), ?_, ?_⟩
  · unfold readClass
    rw [h.own, Option.bind_some, hbody, Option.bind_some, hD]
    exact readAllOf_append (readAllOf_map fun f hf => hfield f hf) (readAllOf_map fun m hm => hmethod m hm)
  · intro compat ci w c hcl hU
    rw [← hcl] at hU ⊢
    have hcl : JavaName ci w (.cls ci.clazz) "java/lang/Class".toList := hU _ _ (.inl ⟨rfl, rfl⟩)
    refine allPromises_append (allPromises_map fun f hf => ?_) (allPromises_map fun m hm => ?_)
    · exact field_promises c f.static f.name _ fun k hk => hU _ _ (.inr ⟨rfl, .inr (.inl ⟨f, hf, hk⟩)⟩)
    · have hps : ∀ t ∈ T.params m, ∀ k ∈ t.classNames, JavaName ci w (.cls (num k)) k :=
        fun t ht k hk => hU _ _ (.inr ⟨rfl, .inr (.inr ⟨m, hm, .inl ⟨t, ht, hk⟩⟩)⟩)
      have hrs : ∀ t, T.result m = some t → ∀ k ∈ t.classNames, JavaName ci w (.cls (num k)) k :=
        fun t ht k hk => hU _ _ (.inr ⟨rfl, .inr (.inr ⟨m, hm, .inr ⟨t, ht, hk⟩⟩)⟩)
      by_cases hi : m.name = "<init>".toList ∧ fake = true
      · obtain ⟨hi, rfl⟩ := hi
        obtain ⟨hs, hres⟩ := h.ctors m hm hi
        simp only [hi, and_self, if_true, hs, hres]
        exact ctor_promises c _ hcl hps (hU _ _ (.inr ⟨rfl, .inl rfl⟩))
      · simp only [if_neg hi]
        exact method_promises c fake m.static m.name _ hcl hps hrs

theorem mem_fieldPromises {st : Bool} {name : Str} {t : Ty} {fn : Nat → Nat} {q : Promise}
    (h : q ∈ fieldPromises st name t fn) : q.use ≠ .call ∧ q.name = name ∧ q.fn = fn 0 := by
  simp only [fieldPromises, List.mem_cons, List.not_mem_nil, or_false] at h
  rcases h with rfl | rfl
  · exact ⟨fun h => (nomatch h), rfl, rfl⟩
  · exact ⟨fun h => (nomatch h), rfl, rfl⟩

theorem mem_methodPromises {fake st : Bool} {name : Str} {ts : List Ty} {ret : Option Ty} {fn : Nat → Nat} {q : Promise}
    (h : q ∈ methodPromises fake st name ts ret fn) : q.use = .call ∧ q.name = name ∧
      ((q.type = renderSig ts ret ∧ q.fn = fn (if fake then 0 else if st then 2 else 1)) ∨
        (fake = false ∧ q.type = renderSig (.cls "java/lang/Class".toList :: ts) ret)) := by
  unfold methodPromises at h
  cases fake with
  | true =>
    simp only [if_true, List.mem_cons, List.not_mem_nil, or_false] at h
    subst h
    exact ⟨rfl, rfl, .inl ⟨rfl, rfl⟩⟩
  | false =>
    cases st with
    | true =>
      simp only [Bool.false_eq_true, if_false, if_true, List.mem_cons, List.not_mem_nil, or_false] at h
      rcases h with rfl | rfl
      · exact ⟨rfl, rfl, .inr ⟨rfl, rfl⟩⟩
      · exact ⟨rfl, rfl, .inl ⟨rfl, rfl⟩⟩
    | false =>
      simp only [Bool.false_eq_true, if_false, List.mem_cons, List.not_mem_nil, or_false] at h
      subst h
      exact ⟨rfl, rfl, .inl ⟨rfl, rfl⟩⟩

theorem methodPromise_mem (fake st : Bool) (name : Str) (ts : List Ty) (ret : Option Ty) (fn : Nat → Nat) :
    ⟨.call, st, name, renderSig ts ret, fn (if fake then 0 else if st then 2 else 1)⟩ ∈
      methodPromises fake st name ts ret fn := by
  unfold methodPromises
  cases fake <;> cases st <;> simp

theorem classPromises_field (h : Compiles fake N num clazz T n cname fs ms) (scope : Str) (fn : Str → Nat → Nat)
    {f : FieldRec} (hf : f ∈ fs) {use : Use} (hu : use ≠ .call) :
    let p : Promise := ⟨use, f.static, f.name, (T.field f).render, fn (fieldLine fake scope cname f) 0⟩
    p ∈ classPromises fake T scope cname fs ms fn ∧ LastIn p (classPromises fake T scope cname fs ms fn) := by
  have hm : (⟨use, f.static, f.name, (T.field f).render, fn (fieldLine fake scope cname f) 0⟩ : Promise) ∈
      classPromises fake T scope cname fs ms fn := by
    refine List.mem_append_left _ (List.mem_flatMap.2 ⟨f, hf, ?_⟩)
    cases use with
    | call => exact absurd rfl hu
    | get => simp [fieldPromises]
    | set => simp [fieldPromises]
  refine ⟨hm, lastPromise_of hm fun q hq hs => ?_⟩
  rcases List.mem_append.1 hq with hq | hq
  · obtain ⟨g, hg, hq⟩ := List.mem_flatMap.1 hq
    obtain ⟨_, h2, h3⟩ := mem_fieldPromises hq
    have : f = g := nodup_map_inj (List.nodup_append.1 h.distinct).1 hf hg (hs.2.2.1.trans h2)
    subst this
    exact h3
  · obtain ⟨g, hg, hq⟩ := List.mem_flatMap.1 hq
    exact absurd (hs.1.trans (mem_methodPromises hq).1) hu

theorem classPromises_method (h : Compiles fake N num clazz T n cname fs ms) (hA : fake = false → CtorsApart T ms) (scope : Str) (fn : Str → Nat → Nat)
    {m : MethodRec} (hm : m ∈ ms) :
    let p : Promise := ⟨.call, m.static, m.name, m.signature,
      fn (methodLine fake T scope cname m) (if fake then 0 else if m.static then 2 else 1)⟩
    p ∈ classPromises fake T scope cname fs ms fn ∧ LastIn p (classPromises fake T scope cname fs ms fn) := by
  obtain ⟨ht, _, _⟩ := h.methods m hm
  have hin : (⟨.call, m.static, m.name, m.signature,
      fn (methodLine fake T scope cname m) (if fake then 0 else if m.static then 2 else 1)⟩ : Promise) ∈
      classPromises fake T scope cname fs ms fn := by
    refine List.mem_append_right _ (List.mem_flatMap.2 ⟨m, hm, ?_⟩)
    rw [ht.signature]
    exact methodPromise_mem fake m.static m.name _ _ _
  refine ⟨hin, lastPromise_of hin fun q hq hs => ?_⟩
  have ⟨s1, s2, s3, s4⟩ := hs
  dsimp only at s1 s2 s3 s4
  rw [ht.signature] at s4
  rcases List.mem_append.1 hq with hq | hq
  · obtain ⟨g, hg, hq⟩ := List.mem_flatMap.1 hq
    exact absurd s1.symm (mem_fieldPromises hq).1
  · obtain ⟨m', hm', hq⟩ := List.mem_flatMap.1 hq
    obtain ⟨ht', _, _⟩ := h.methods m' hm'
    obtain ⟨_, h2, h3⟩ := mem_methodPromises hq
    have hname : m.name = m'.name := s3.trans h2
    have hcl : ∀ t ∈ (.cls "java/lang/Class".toList :: T.params m'), Ty.Valid t := by
      intro t ht
      rcases List.mem_cons.1 ht with rfl | ht
      · show ';' ∉ "java/lang/Class".toList
        decide
      · exact ht'.params t ht
    by_cases hi : m.name = "<init>".toList
    · have hi' : m'.name = "<init>".toList := hname ▸ hi
      rcases h3 with ⟨h3, h4⟩ | ⟨hfk, h3⟩
      · have hp := ((hook_overloads_apart ht.params ht'.params ht.result ht'.result).1 (s4.trans h3)).1
        rw [h4]
        simp only [methodLine, if_pos hi, if_pos hi', hp, (h.ctors m hm hi).1, (h.ctors m' hm' hi').1]
      · have hp := ((hook_overloads_apart ht.params hcl ht.result ht'.result).1 (s4.trans h3)).1
        exact absurd hp (hA hfk m hm m' hm' hi hi')
    · have hi' : m'.name ≠ "<init>".toList := hname ▸ hi
      have : m = m' := nodup_map_inj (List.nodup_append.1 h.distinct).2.1
        (List.mem_filter.2 ⟨hm, by simpa using hi⟩) (List.mem_filter.2 ⟨hm', by simpa using hi'⟩) hname
      subst this
      rcases h3 with ⟨h3, h4⟩ | ⟨_, h3⟩
      · exact h4
      · have hp := ((hook_overloads_apart ht.params hcl ht.result ht'.result).1 (s4.trans h3)).1
        have := congrArg List.length hp
        simp at this

/-- A field that `GetFieldID` finds in class `c` and that `fn` reads and writes. -/
def FieldAnswers (w : World) (c : Nat) (f : FieldRec) (fn : Nat) : Prop :=
  ∃ g, w.DeclaresField c f.static f.name f.type g ∧ g.getter = some fn ∧ g.setter = some fn ∧
    ∀ depth rn, w.getFieldID (depth + 1) f.static rn (some c) f.name f.type = .ok (w, some g.id)

/-- A method that `GetMethodID` finds in class `c` and that calls `fn`. -/
def MethodAnswers (w : World) (c : Nat) (m : MethodRec) (fn : Nat) : Prop :=
  ∃ g, w.Declares c m.static false m.name m.signature g ∧ g.handle = some fn ∧
    ∀ depth rn, w.getMethodID (depth + 1) m.static rn false (some c) m.name m.signature = .ok (w, some g.id)

theorem fieldAnswers_of {w : World} (hr : MemReachable w) {c : Nat} (hc : w.IsClass n c) {f : FieldRec} {fn : Nat}
    (hg : Promise.Kept ⟨.get, f.static, f.name, f.type, fn⟩ (w.mem c))
    (hs : Promise.Kept ⟨.set, f.static, f.name, f.type, fn⟩ (w.mem c)) : FieldAnswers w c f fn := by
  obtain ⟨g, h1, h2⟩ := hg
  obtain ⟨g', h1', h3⟩ := hs
  dsimp only at h1 h1' h2 h3
  rw [h1] at h1'
  cases h1'
  obtain ⟨a1, a2, a3⟩ := fhits_iff.1 (List.find?_some h1)
  refine ⟨g, ⟨List.mem_of_find?_eq_some h1, a1, a2, a3⟩, h2, h3, fun depth rn => ?_⟩
  rw [getFieldID_isClass hr.inv hc]
  have : w.ownField ⟨f.static, f.name, f.type⟩ c = some g.id := by
    unfold World.ownField
    rw [h1]
    rfl
  rw [dfs_own this]
  rfl

theorem methodAnswers_of {w : World} (hr : MemReachable w) {c : Nat} (hc : w.IsClass n c) (hn : NoNatives w c)
    {m : MethodRec} (hi : m.name = "<init>".toList → m.static = true) {fn : Nat}
    (hk : Promise.Kept ⟨.call, m.static, m.name, m.signature, fn⟩ (w.mem c)) : MethodAnswers w c m fn := by
  obtain ⟨g, h1, h2⟩ := hk
  dsimp only at h1 h2
  have hown := target_own h1 (hn g (List.mem_of_find?_eq_some h1))
  exact ⟨g, declares_of_own hown, h2, fun depth rn => lookup_of_own hr.inv hc hi hown depth rn⟩

/-- C62.  The generated `InitJNIBinding`, run in any VM in which the C++ classes have the Java names they had in the
dumped VM `ws`, installs each field and each method of each class under its name, type and staticness:
`GetFieldID` and `GetMethodID` find it, and it calls the generated function.  Partial: only if the classes
compile (see `Compiles`; not the case for overloaded methods, for example), only if no constructor hides
another one (see `regenerate_constructor_hidden`), and only for methods that the application does not implement. -/
theorem regenerate_partial {compat : Bool} {ci : CppInfo} {ws w : World} (hr : MemReachable w) {L post : List DumpEntry}
    (hL : (L.map (·.name)).Nodup) (hpost : post.Perm L)
    (hC : ∀ e ∈ L, Compiles fake N num ci.clazz T e.name e.simple (ws.mem e.cls).fields (dumpedMethods ws e.cls))
    (hA : fake = false → ∀ e ∈ L, CtorsApart T (dumpedMethods ws e.cls))
    (hnames : ∀ e ∈ L, ∀ t k, UsesName num ci.clazz T e.name (ws.mem e.cls).fields (dumpedMethods ws e.cls) t k →
      JavaName ci w (.cls t) k ∨ (fake = false ∧ ∃ e' ∈ L, ci.id (.cls t) = ci.id (.cls (num e'.name))))
    (hids : ∀ e ∈ L, ∀ t k, UsesName num ci.clazz T e.name (ws.mem e.cls).fields (dumpedMethods ws e.cls) t k →
      ∀ e' ∈ L, ci.id (.cls t) = ci.id (.cls (num e'.name)) → k = e'.name)
    (bases : DumpEntry → List (Option Nat)) (fn : Str → Str → Nat → Nat) :
    ∃ es : DumpEntry → List DescEntry,
      (∀ e ∈ L, readClass fake N (cppScope e.name) e.simple
        (classBody fake T e.inner e.simple (ws.mem e.cls).fields (dumpedMethods ws e.cls))
        (classLines fake T (cppScope e.name) e.simple (ws.mem e.cls).fields (dumpedMethods ws e.cls)) (fn e.name) =
          some (es e)) ∧
      ∃ w', initBinding fake compat ci w
          (L.map fun e => ⟨ci.id (.cls (num e.name)), e.name, bases e, true, es e⟩)
          (post.map fun e => ⟨ci.id (.cls (num e.name)), e.name, bases e, true, es e⟩) = .ok w' ∧
        MemReachable w' ∧ ∀ e ∈ L, ∃ c, w'.IsClass e.name c ∧
          (∀ f ∈ (ws.mem e.cls).fields, FieldAnswers w' c f (fn e.name (fieldLine fake (cppScope e.name) e.simple f) 0)) ∧
          ((∀ m ∈ (w.mem c).methods, m.native = none) → ∀ m ∈ dumpedMethods ws e.cls,
            MethodAnswers w' c m (fn e.name (methodLine fake T (cppScope e.name) e.simple m)
              (if fake then 0 else if m.static then 2 else 1))) := by
  -- one entry list for each class
  have read : ∀ e : DumpEntry, ∃ es, e ∈ L → readClass fake N (cppScope e.name) e.simple
        (classBody fake T e.inner e.simple (ws.mem e.cls).fields (dumpedMethods ws e.cls))
        (classLines fake T (cppScope e.name) e.simple (ws.mem e.cls).fields (dumpedMethods ws e.cls)) (fn e.name) = some es ∧
      ∀ compat ci' w c, ci'.clazz = ci.clazz →
        NamesIn ci' (UsesName num ci.clazz T e.name (ws.mem e.cls).fields (dumpedMethods ws e.cls)) w →
        AllPromises compat ci' w c es (classPromises fake T (cppScope e.name) e.simple (ws.mem e.cls).fields
          (dumpedMethods ws e.cls) (fn e.name)) := by
    intro e
    by_cases he : e ∈ L
    · obtain ⟨es, h⟩ := regenerate_reads (hC e he) e.inner (fn e.name)
      exact ⟨es, fun _ => h⟩
    · exact ⟨[], fun h => absurd h he⟩
  obtain ⟨es, hes⟩ := Classical.axiomOfChoice read
  refine ⟨es, fun e he => (hes e he).1, ?_⟩
  generalize hcls : (fun e : DumpEntry => (⟨ci.id (.cls (num e.name)), e.name, bases e, true, es e⟩ : DescClass)) = cls
  have cn : ∀ e, (cls e).name = e.name := fun e => by rw [← hcls]
  have ct : ∀ e, (cls e).type = ci.id (.cls (num e.name)) := fun e => by rw [← hcls]
  have ce : ∀ e, (cls e).entries = es e := fun e => by rw [← hcls]
  -- all names of the program
  generalize hU : (fun t k => ∃ e ∈ L, UsesName num ci.clazz T e.name (ws.mem e.cls).fields (dumpedMethods ws e.cls) t k) = U
  have hUi : ∀ e ∈ L, ∀ t k, UsesName num ci.clazz T e.name (ws.mem e.cls).fields (dumpedMethods ws e.cls) t k → U t k := by
    intro e he t k h
    rw [← hU]
    exact ⟨e, he, h⟩
  have hUe : ∀ t k, U t k → ∃ e ∈ L, UsesName num ci.clazz T e.name (ws.mem e.cls).fields (dumpedMethods ws e.cls) t k := by
    intro t k h
    rw [← hU] at h
    exact h
  have hbind : ∀ d ∈ L.map cls, ∀ t k, U t k → ci.id (.cls t) = d.type → k = d.name := by
    intro d hd t k h ht
    obtain ⟨e', he', rfl⟩ := List.mem_map.1 hd
    obtain ⟨e, he, h⟩ := hUe t k h
    rw [cn]
    exact hids e he t k h e' he' (ht.trans (ct e'))
  -- the promises of a class, found again by its name
  generalize hpr : (fun e : DumpEntry => classPromises fake T (cppScope e.name) e.simple (ws.mem e.cls).fields
    (dumpedMethods ws e.cls) (fn e.name)) = pe
  have key : ∀ pr : DescClass → List Promise, (∀ e ∈ L, pr (cls e) = pe e) →
      ∃ w', initBinding fake compat ci w (L.map cls) (post.map cls) = .ok w' ∧ MemReachable w' ∧
        (∀ e ∈ L, ∃ c, w'.IsClass e.name c ∧ KeptAll (w'.mem c) (pe e)) ∧ ∀ x, NoNatives w x → NoNatives w' x := by
    intro pr hpr'
    have hp : ∀ compat, ∀ e ∈ L, ∀ w c, NamesIn ci U w → AllPromises compat ci w c (cls e).entries (pr (cls e)) := by
      intro compat e he w c hN
      rw [hpr' e he, ce, ← hpr]
      exact (hes e he).2 compat ci w c rfl fun t k h => hN t k (hUi e he t k h)
    have fin : ∀ w' : World, ∀ l : List DumpEntry, l.Perm L →
        (∀ d ∈ l.map cls, ∃ c, w'.IsClass d.name c ∧ KeptAll (w'.mem c) (pr d)) →
        ∀ e ∈ L, ∃ c, w'.IsClass e.name c ∧ KeptAll (w'.mem c) (pe e) := by
      intro w' l hl h e he
      obtain ⟨c, h1, h2⟩ := h (cls e) (List.mem_map.2 ⟨e, hl.mem_iff.2 he, rfl⟩)
      rw [cn] at h1
      rw [hpr' e he] at h2
      exact ⟨c, h1, h2⟩
    have mapn : ∀ l : List DumpEntry, (l.map cls).map (·.name) = l.map (·.name) := by
      intro l
      rw [List.map_map]
      exact List.map_congr_left fun e _ => cn e
    unfold initBinding
    cases fake with
    | true =>
      rw [if_pos rfl]
      obtain ⟨w', e1, hr', _, k', _, n'⟩ := runRegisters_ok (compat := compat) (ci := ci) (U := U) (pr := pr) (ds := L.map cls)
        (by
          intro d hd
          obtain ⟨e, he, rfl⟩ := List.mem_map.1 hd
          exact hp compat e he)
        hbind (by rw [mapn]; exact hL) hr (by
          intro t k h
          obtain ⟨e, he, h⟩ := hUe t k h
          rcases hnames e he t k h with h | ⟨h, _⟩
          · exact h
          · cases h)
      exact ⟨w', e1, hr', fin w' L (.refl _) k', n'⟩
    | false =>
      rw [if_neg (by decide)]
      obtain ⟨hr1, _, c1, j1, m1⟩ := bindTypes_ok (ci := ci) (U := U) hbind hr
      have hN : NamesIn ci U (bindTypes w (L.map cls)) := by
        intro t k h
        refine j1 t k h ?_
        obtain ⟨e, he, h⟩ := hUe t k h
        rcases hnames e he t k h with h | ⟨_, e', he', h⟩
        · exact .inl h
        · exact .inr ⟨cls e', List.mem_map.2 ⟨e', he', rfl⟩, h.trans (ct e').symm⟩
      obtain ⟨w', e1, hr', _, k', _, n'⟩ := runBlocks_ok (ci := ci) (U := U) (pr := pr) (ds := post.map cls)
        (by
          intro d hd
          obtain ⟨e, he, rfl⟩ := List.mem_map.1 hd
          exact hp false e (hpost.mem_iff.1 he))
        (by rw [mapn]; exact (hpost.map _).nodup_iff.2 hL) hr1 hN (by
          intro d hd
          obtain ⟨e, he, rfl⟩ := List.mem_map.1 hd
          exact c1 _ (List.mem_map.2 ⟨e, hpost.mem_iff.1 he, rfl⟩))
      refine ⟨w', e1, hr', fin w' post hpost k', fun x hx => n' x ?_⟩
      unfold NoNatives
      rw [m1]
      exact hx
  have hpick : ∃ pr : DescClass → List Promise, ∀ e ∈ L, pr (cls e) = pe e := by
    have : ∀ d : DescClass, ∃ ps, ∀ e ∈ L, cls e = d → ps = pe e := by
      intro d
      by_cases h : ∃ e ∈ L, cls e = d
      · obtain ⟨e, he, rfl⟩ := h
        refine ⟨pe e, fun e' he' heq => ?_⟩
        have : e'.name = e.name := by rw [← cn e', heq, cn]
        rw [nodup_map_inj hL he' he this]
      · exact ⟨[], fun e he heq => absurd ⟨e, he, heq⟩ h⟩
    obtain ⟨pr, h⟩ := Classical.axiomOfChoice this
    exact ⟨pr, fun e he => h (cls e) e he rfl⟩
  obtain ⟨pr, hpr'⟩ := hpick
  obtain ⟨w', e1, hr', kept, nn⟩ := key pr hpr'
  refine ⟨w', e1, hr', fun e he => ?_⟩
  obtain ⟨c, hc, hk⟩ := kept e he
  rw [← hpr] at hk
  refine ⟨c, hc, fun f hf => ?_, fun hnat m hm => ?_⟩
  · have h1 := classPromises_field (hC e he) (cppScope e.name) (fn e.name) hf (use := .get) (by decide)
    have h2 := classPromises_field (hC e he) (cppScope e.name) (fn e.name) hf (use := .set) (by decide)
    have ht := ((hC e he).fields f hf).1
    exact fieldAnswers_of hr' hc (by rw [ht]; exact hk _ h1.1 h1.2) (by rw [ht]; exact hk _ h2.1 h2.2)
  · have h1 := classPromises_method (hC e he) (fun hf => hA hf e he) (cppScope e.name) (fn e.name) hm
    exact methodAnswers_of hr' hc (nn c hnat) (fun hi => ((hC e he).ctors m hm hi).1) (hk _ h1.1 h1.2)

/-- C62, registration.  The line that registers a class names its C++ class and, unless the class declares it
itself, its Java name. -/
theorem regenerate_registers (hp : PlainName n) (hw : WordName n) (h : N.cls (cppScope n) = some (num n)) :
    readRegister fake N (registration fake n) = some (num n, if fake then none else some n) := by
  rw [cppScope_plain hp] at h
  have hgt : '>' ∉ "jnivm::".toList ++ cppName n := by
    intro hx
    have := cppClass_chars false hw '>' hx
    revert this
    decide
  cases fake with
  | true =>
    have e : registration true n = "vm->registerClass<".toList ++ ("jnivm::".toList ++ cppName n) ++ ">();\n".toList := by
      have e1 : "vm->registerClass<jnivm::".toList = "vm->registerClass<".toList ++ "jnivm::".toList := by decide +kernel
      unfold registration
      rw [if_pos rfl, e1]
      simp only [List.append_assoc]
    unfold readRegister
    rw [if_pos rfl, e, between_append]
    simp only [Option.bind_some, h, Option.map_some, if_true]
  | false =>
    have e : registration false n = "env->GetClass<".toList ++ (("jnivm::".toList ++ cppName n) ++ '>' ::
        ("(\"".toList ++ n ++ "\");\n".toList)) := by
      have e1 : "env->GetClass<jnivm::".toList = "env->GetClass<".toList ++ "jnivm::".toList := by decide +kernel
      have e2 : ">(\"".toList = '>' :: "(\"".toList := by decide
      unfold registration
      rw [if_neg (by decide), e1, e2]
      simp only [List.append_assoc, List.cons_append]
    unfold readRegister
    rw [if_neg (by decide), e, after_append]
    simp only [Option.bind_some, splitFirst_append hgt, between_append, h, Option.map_some, Bool.false_eq_true, if_false]

/-- C62, constructors.  A constructor that answers is found with the signature `(..)V` of Java. -/
theorem regenerate_constructor {w : World} (hr : MemReachable w) {c : Nat} (hc : w.IsClass n c)
    (h : Compiles fake N num clazz T n cname fs ms) {m : MethodRec} (hm : m ∈ ms) (hi : m.name = "<init>".toList) {fn : Nat}
    (ha : MethodAnswers w c m fn) : ∃ g ∈ (w.mem c).methods, g.handle = some fn ∧
      ∀ depth rn, w.getMethodID (depth + 1) false rn false (some c) "<init>".toList (renderSig (T.params m) none) =
        .ok (w, some g.id) := by
  obtain ⟨g, hg, hh, hl⟩ := ha
  obtain ⟨ht, hk, _⟩ := h.methods m hm
  obtain ⟨hs, hres⟩ := h.ctors m hm hi
  refine ⟨g, hg.1, hh, fun depth rn => ?_⟩
  have hparen : ')' ∉ (T.params m).flatMap Ty.render := by
    intro hx
    obtain ⟨t, ht, hx⟩ := List.mem_flatMap.1 hx
    have key : ∀ t : Ty, (∀ n ∈ t.classNames, WordName n) → ')' ∉ t.render := by
      intro t
      induction t with
      | prim p => intro _; cases p <;> decide
      | cls k =>
        intro hw hx
        simp only [Ty.render, List.mem_cons, List.mem_append, List.not_mem_nil, or_false] at hx
        rcases hx with hx | hx | hx
        · revert hx; decide
        · have := hw k (by simp [Ty.classNames]) ')' hx
          revert this
          decide
        · revert hx; decide
      | arr t ih =>
        intro hw hx
        simp only [Ty.render, List.mem_cons] at hx
        rcases hx with hx | hx
        · revert hx; decide
        · exact ih hw hx
    exact key t (fun n hn => (hk t ht n hn).1) hx
  have := constructor_is_static_factory hr hc (depth + 1) rn false ((T.params m).flatMap Ty.render) "V".toList hparen
  have e1 : renderSig (T.params m) none = "(".toList ++ (T.params m).flatMap Ty.render ++ ")".toList ++ "V".toList := by
    simp [renderSig, renderRet]
  have e2 : m.signature = "(".toList ++ (T.params m).flatMap Ty.render ++ ")L".toList ++ n ++ ";".toList := by
    rw [ht.signature, hres]
    simp [renderSig, renderRet, Ty.render]
  have hl := hl depth rn
  rw [hs, hi, e2] at hl
  rw [e1, this, hl]

/-- C62, violated.  Without the fake-jni syntax a constructor is bound with the class as its first argument too.
If the last constructor takes some parameters and another one the same after a `Class`, then the other one is
replaced: calling it calls the last one. -/
theorem regenerate_constructor_hidden {ci : CppInfo} {w : World} (hr : MemReachable w) {c : Nat} (hc : w.IsClass n c)
    (h : Compiles false N num ci.clazz T n cname fs ms) (hU : NamesIn ci (UsesName num ci.clazz T n fs ms) w)
    (hnat : ∀ m ∈ (w.mem c).methods, m.native = none) {m m' : MethodRec} {pre : List MethodRec} (hms : ms = pre ++ [m'])
    (hm : m ∈ pre) (hi : m.name = "<init>".toList) (hi' : m'.name = "<init>".toList)
    (hp : T.params m = .cls "java/lang/Class".toList :: T.params m') (inner : List Str) (type : Nat) (bases : List (Option Nat))
    (fn : Str → Nat → Nat) :
    ∃ es w', readClass false N (cppScope n) cname (classBody false T inner cname fs ms)
        (classLines false T (cppScope n) cname fs ms) fn = some es ∧
      runBlock ci w ⟨type, n, bases, true, es⟩ = .ok w' ∧
      MethodAnswers w' c m (fn (methodLine false T (cppScope n) cname m') 1) := by
  obtain ⟨es, he, hall⟩ := regenerate_reads h inner fn
  obtain ⟨w', e1, hr', k, kept, _, nn⟩ := runBlock_ok (d := ⟨type, n, bases, true, es⟩) hr hc (hall false ci w c rfl hU)
  refine ⟨es, w', he, e1, methodAnswers_of hr' (k.keep _ _ hc) (nn c hnat) (fun _ => ?_) (kept _ ?_ ?_)⟩
  · exact (h.ctors m (by rw [hms]; simp [hm]) hi).1
  · have hsig : m.signature = renderSig (.cls "java/lang/Class".toList :: T.params m') (T.result m') := by
      rw [(h.methods m (by rw [hms]; simp [hm])).1.signature, hp, (h.ctors m (by rw [hms]; simp [hm]) hi).2,
        (h.ctors m' (by rw [hms]; simp) hi').2]
    refine List.mem_append_right _ (List.mem_flatMap.2 ⟨m', by rw [hms]; simp, ?_⟩)
    rw [(h.ctors m (by rw [hms]; simp [hm]) hi).1, (h.ctors m' (by rw [hms]; simp) hi').1, hi, hi', hsig]
    simp [methodPromises]
  · have hsig : m.signature = renderSig (.cls "java/lang/Class".toList :: T.params m') (T.result m') := by
      rw [(h.methods m (by rw [hms]; simp [hm])).1.signature, hp, (h.ctors m (by rw [hms]; simp [hm]) hi).2,
        (h.ctors m' (by rw [hms]; simp) hi').2]
    have e : ∀ qs : List Promise, ∀ F, lastPromise .call true "<init>".toList
        (renderSig (.cls "java/lang/Class".toList :: T.params m') (T.result m'))
        (qs ++ methodPromises false true "<init>".toList (T.params m') (T.result m') F) = some (F 1) := by
      intro qs F
      have e2 : qs ++ methodPromises false true "<init>".toList (T.params m') (T.result m') F =
          (qs ++ [⟨.call, true, "<init>".toList, renderSig (.cls "java/lang/Class".toList :: T.params m') (T.result m'), F 1⟩]) ++
            [⟨.call, true, "<init>".toList, renderSig (T.params m') (T.result m'), F 2⟩] := by
        simp [methodPromises]
      rw [e2, lastPromise_snoc, if_neg, lastPromise_snoc, if_pos ⟨rfl, rfl, rfl, rfl⟩]
      rintro ⟨_, _, _, hne⟩
      have := congrArg List.length hne
      simp [renderSig, Ty.render] at this
    unfold LastIn
    dsimp only
    have e3 : classPromises false T (cppScope n) cname fs ms fn =
        (fs.flatMap (fun f => fieldPromises f.static f.name (T.field f) (fn (fieldLine false (cppScope n) cname f))) ++
          pre.flatMap fun m => methodPromises false m.static m.name (T.params m) (T.result m)
            (fn (methodLine false T (cppScope n) cname m))) ++
        methodPromises false true "<init>".toList (T.params m') (T.result m') (fn (methodLine false T (cppScope n) cname m')) := by
      unfold classPromises
      rw [hms, List.flatMap_append, List.flatMap_singleton, (h.ctors m' (by rw [hms]; simp) hi').1, hi', List.append_assoc]
    rw [(h.ctors m (by rw [hms]; simp [hm]) hi).1, hi, hsig, e3, e]

/-- C62, violated.  A class with two members of the same name, for example overloaded methods, does not compile:
the bindings name their members without their types. -/
theorem regenerate_overloaded (h : Declarable fake N num clazz T n cname fs ms)
    (hd : ¬ (fs.map (·.name) ++ (ms.filter (·.name ≠ "<init>".toList)).map (·.name)).Nodup) (inner : List Str)
    (fn : Str → Nat → Nat) :
    readClass fake N (cppScope n) cname (classBody fake T inner cname fs ms)
      (classLines fake T (cppScope n) cname fs ms) fn = none := by
  obtain ⟨hbody, hnames⟩ := members_read h inner
  have hx : ∃ x, 2 ≤ (fs.map (·.name) ++ (ms.filter (·.name ≠ "<init>".toList)).map (·.name)).count x := by
    rw [List.nodup_iff_count] at hd
    simp only [Classical.not_forall] at hd
    obtain ⟨x, hx⟩ := hd
    exact ⟨x, by omega⟩
  obtain ⟨x, hx⟩ := hx
  have hmem : x ∈ fs.map (·.name) ++ (ms.filter (·.name ≠ "<init>".toList)).map (·.name) :=
    List.count_pos_iff.1 (by omega)
  rw [← hnames] at hx
  have hnone' := memberNamed_none hx
  unfold readClass
  rw [h.own, Option.bind_some, hbody, Option.bind_some]
  generalize hD : (⟨num n, cppScope n, cname, membersOf fake N num clazz T inner fs ms⟩ : CppDecl) = D
  have hDs : D.scope = cppScope n := by rw [← hD]
  have hDc : D.cname = cname := by rw [← hD]
  rw [← hDs, ← hDc]
  have hnone : memberNamed D.members x = none := by rw [← hD]; exact hnone'
  have stop : ∀ {α β : Type} (f : α → Option β) (l : List α) (a : α), a ∈ l → f a = none → readAllOf f l = none := by
    intro α β f l a ha hf
    induction l with
    | nil => cases ha
    | cons b l ih =>
      rcases List.mem_cons.1 ha with rfl | ha
      · simp only [readAllOf, hf, Option.bind_none]
      · simp only [readAllOf, ih ha, Option.map_none]
        cases f b <;> rfl
  unfold classLines
  rcases List.mem_append.1 hmem with hm | hm
  · obtain ⟨f, hf, rfl⟩ := List.mem_map.1 hm
    refine stop _ _ _ (List.mem_append_left _ (List.mem_map_of_mem hf)) ?_
    have hi := (h.fields f hf).2.2.1
    generalize fn (fieldLine fake D.scope D.cname f) = F
    unfold fieldLine
    cases fake with
    | true => rw [if_pos rfl, if_pos rfl, readEntry_field_map F f.static hi, hnone, Option.map_none]
    | false => rw [if_neg (by decide), if_neg (by decide), readHook_map F hi, hnone, Option.map_none]
  · obtain ⟨m, hm', rfl⟩ := List.mem_map.1 hm
    obtain ⟨hm, hne⟩ := List.mem_filter.1 hm'
    have hne : m.name ≠ "<init>".toList := by simpa using hne
    refine stop _ _ _ (List.mem_append_right _ (List.mem_map_of_mem hm)) ?_
    have hi := (h.named m hm hne).1
    generalize fn (methodLine fake T D.scope D.cname m) = F
    unfold methodLine
    rw [if_neg hne]
    cases fake with
    | true => rw [if_pos rfl, if_pos rfl, readEntry_fn_map F m.static hi, hnone, Option.map_none]
    | false => rw [if_neg (by decide), if_neg (by decide), readHook_map F hi, hnone, Option.map_none]

/-- C62, violated.  The only built-in class without an alias is the one of weak references: without the fake-jni
syntax, members that mention it do not compile.  Classes named like the alias of arrays or of weak references
are dumped and declared once more. -/
theorem regenerate_aliases : (∀ n ∈ builtin, cppClass false n ∈ aliases ↔ n ≠ "java/lang/ref/WeakReference".toList) ∧
    ∀ n ∈ ["java/lang/Array".toList, "internal/lang/Weak".toList], cppScope n ∈ aliases ∧ Dumped n := by
  refine ⟨by decide +kernel, ?_⟩
  have h1 : ∀ n ∈ ["java/lang/Array".toList, "internal/lang/Weak".toList], cppScope n ∈ aliases ∧ n.head? ≠ some '[' ∧
      n ∉ builtin ∧ '$' ∉ n := by decide +kernel
  intro n hn
  obtain ⟨a, b, c, d⟩ := h1 n hn
  refine ⟨a, b, fun m hm => ?_⟩
  rcases hm with rfl | ⟨_, inner, rfl, _⟩
  · exact c
  · exact absurd (by simp) d

/-! ### A dumped VM with the classes "p/Q", "p/Q$R" and "p/H" -/

/-- The program that declares the dumped classes. -/
def dumpNames : CppNames :=
  ⟨fun s => (["jnivm::Class", "jnivm::java::lang::Class", "jnivm::java::lang::String", "FakeJni::JString", "FakeJni::JClass", "jnivm::p::Q", "jnivm::p::Q::R",
    "jnivm::p::H"].map String.toList).zip [1, 1, 2, 2, 1, 7, 8, 9] |>.lookup s, 50⟩

/-- The C++ classes of the Java classes. -/
def dumpNum (n : Str) : Nat :=
  if n = "java/lang/Class".toList then 1 else if n = "java/lang/String".toList then 2 else if n = "p/Q".toList then 7
  else if n = "p/Q$R".toList then 8 else 9

def dumpInfo : CppInfo where
  id := fun c => match c with | .cls t => t | _ => 1000
  declared := fun c => match c with
    | .cls t => some (if t = 1 then "java/lang/Class".toList else if t = 2 then "java/lang/String".toList
        else if t = 7 then "p/Q".toList else if t = 8 then "p/Q$R".toList else "p/H".toList)
    | _ => none
  isObject := fun _ => true
  object := 0
  clazz := 1
  nulls := fun _ => false

/-- The types of the members by their addresses. -/
def dumpTyping : Typing where
  params := fun m => ([[], [.prim .int, .arr (.cls "p/Q".toList)], [.cls "java/lang/String".toList, .arr (.arr (.prim .long))],
    [.cls "p/Q$R".toList], [.cls "java/lang/Class".toList, .prim .int], [.prim .int]] : List (List Ty)).getD m.id []
  result := fun m => ([some (.cls "p/Q".toList), some (.cls "p/Q".toList), some (.cls "p/Q".toList), none,
    some (.cls "p/H".toList), some (.cls "p/H".toList)] : List (Option Ty)).getD m.id none
  field := fun f => ([.prim .int, .cls "java/lang/String".toList, .arr (.prim .char)] : List Ty).getD f.id (.prim .int)

def dumpFields (c : Nat) : List FieldRec :=
  if c = 7 then [⟨0, "count".toList, "I".toList, true, none, none⟩,
    ⟨1, "label".toList, "Ljava/lang/String;".toList, false, none, none⟩]
  else if c = 8 then [⟨2, "x".toList, "[C".toList, false, none, none⟩] else []

def dumpMethods (c : Nat) : List MethodRec :=
  if c = 7 then [⟨0, "<init>".toList, "()Lp/Q;".toList, true, none, none⟩,
    ⟨1, "<init>".toList, "(I[Lp/Q;)Lp/Q;".toList, true, none, none⟩,
    ⟨2, "f".toList, "(Ljava/lang/String;[[J)Lp/Q;".toList, false, none, none⟩,
    ⟨3, "g".toList, "(Lp/Q$R;)V".toList, true, none, none⟩]
  else []

/-- A class in which one constructor hides the other one. -/
def hiddenMethods : List MethodRec :=
  [⟨4, "<init>".toList, "(Ljava/lang/Class;I)Lp/H;".toList, true, none, none⟩,
   ⟨5, "<init>".toList, "(I)Lp/H;".toList, true, none, none⟩]

def dumpWorld : World := { World.initial with mem := fun c => ⟨dumpMethods c, dumpFields c, [], none⟩ }

def dumpEntries : List DumpEntry := [⟨"p/Q".toList, 7, "Q".toList, ["R".toList]⟩, ⟨"p/Q$R".toList, 8, "R".toList, []⟩]

/-- The hypotheses that are checked by computation. -/
def compilesBy (fake : Bool) (n cname : Str) (fs : List FieldRec) (ms : List MethodRec) : Bool :=
  decide (dumpNames.cls (cppScope n) = some (dumpNum n)) && isIdent cname &&
  fs.all (fun f => decide (f.type = (dumpTyping.field f).render ∧ Known fake dumpNames dumpNum (dumpTyping.field f) ∧
    isIdent f.name = true ∧ f.name ≠ cname)) &&
  ms.all (fun m => m.native.isNone && (dumpTyping.params m).all (fun t => decide (t.Valid ∧ Known fake dumpNames dumpNum t)) &&
    (dumpTyping.result m).all (fun t => decide (t.Valid ∧ Known fake dumpNames dumpNum t)) &&
    decide (m.signature = renderSig (dumpTyping.params m) (dumpTyping.result m)) &&
    decide (m.name ≠ "<init>".toList → isIdent m.name = true ∧ m.name ≠ cname) &&
    decide (m.name = "<init>".toList → m.static = true ∧ dumpTyping.result m = some (.cls n))) &&
  decide (fs.map (·.name) ++ (ms.filter (·.name ≠ "<init>".toList)).map (·.name)).Nodup

theorem compiles_of {fake : Bool} {n cname : Str} {fs : List FieldRec} {ms : List MethodRec}
    (h : compilesBy fake n cname fs ms = true) : Compiles fake dumpNames dumpNum 1 dumpTyping n cname fs ms := by
  simp only [compilesBy, Bool.and_eq_true, decide_eq_true_eq, List.all_eq_true, Option.all_eq_true, Option.isNone_iff_eq_none] at h
  obtain ⟨⟨⟨⟨h1, h2⟩, h3⟩, h4⟩, h5⟩ := h
  refine ⟨⟨h1, by decide +kernel, h2, h3, fun m hm => ?_, fun m hm => (h4 m hm).1.2⟩, fun m hm => (h4 m hm).2, h5⟩
  obtain ⟨⟨⟨⟨⟨a, b⟩, c⟩, d⟩, _⟩, _⟩ := h4 m hm
  exact ⟨⟨a, fun t ht => (b t ht).1, fun t ht => (c t ht).1, d⟩, fun t ht => (b t ht).2, fun t ht => (c t ht).2⟩

theorem dump_compiles (fake : Bool) : ∀ e ∈ dumpEntries,
    Compiles fake dumpNames dumpNum dumpInfo.clazz dumpTyping e.name e.simple (dumpWorld.mem e.cls).fields (dumpedMethods dumpWorld e.cls) := by
  have : ∀ fake : Bool, ∀ e ∈ dumpEntries, compilesBy fake e.name e.simple (dumpWorld.mem e.cls).fields (dumpedMethods dumpWorld e.cls) = true := by
    decide +kernel
  exact fun e he => compiles_of (this fake e he)

theorem hidden_compiles (fake : Bool) : Compiles fake dumpNames dumpNum dumpInfo.clazz dumpTyping "p/H".toList "H".toList [] hiddenMethods := by
  have : ∀ fake : Bool, compilesBy fake "p/H".toList "H".toList [] hiddenMethods = true := by decide +kernel
  exact compiles_of (this fake)

/-- The names that a class uses. -/
def usedNames (n : Str) (fs : List FieldRec) (ms : List MethodRec) : List Str :=
  n :: fs.flatMap (fun f => (dumpTyping.field f).classNames) ++
    ms.flatMap fun m => (dumpTyping.params m).flatMap Ty.classNames ++ ((dumpTyping.result m).map Ty.classNames).getD []

theorem used_names {n : Str} {fs : List FieldRec} {ms : List MethodRec} {t : Nat} {k : Str}
    (h : UsesName dumpNum 1 dumpTyping n fs ms t k) : t = dumpNum k ∧ k ∈ "java/lang/Class".toList :: usedNames n fs ms := by
  rcases h with ⟨rfl, rfl⟩ | ⟨rfl, h⟩
  · exact ⟨by decide +kernel, List.mem_cons_self⟩
  · refine ⟨rfl, List.mem_cons_of_mem _ ?_⟩
    unfold usedNames
    rcases h with rfl | ⟨f, hf, h⟩ | ⟨m, hm, h⟩
    · simp
    · exact List.mem_append_left _ (List.mem_cons_of_mem _ (List.mem_flatMap.2 ⟨f, hf, h⟩))
    · refine List.mem_append_right _ (List.mem_flatMap.2 ⟨m, hm, ?_⟩)
      rcases h with ⟨u, hu, h⟩ | ⟨u, hu, h⟩
      · exact List.mem_append_left _ (List.mem_flatMap.2 ⟨u, hu, h⟩)
      · refine List.mem_append_right _ ?_
        rw [hu]
        exact h

theorem dump_declared {n : Str} {fs : List FieldRec} {ms : List MethodRec}
    (h : ∀ k ∈ "java/lang/Class".toList :: usedNames n fs ms, dumpInfo.declared (.cls (dumpNum k)) = some k) :
    ∀ t k, UsesName dumpNum 1 dumpTyping n fs ms t k → JavaName dumpInfo World.initial (.cls t) k := by
  intro t k hu
  obtain ⟨rfl, hk⟩ := used_names hu
  exact .inr ⟨rfl, rfl, h k hk⟩

/-- The hypotheses of `regenerate_reads`. -/
example (fake : Bool) : Compiles fake dumpNames dumpNum dumpInfo.clazz dumpTyping "p/Q".toList "Q".toList
    (dumpFields 7) (dumpMethods 7) := compiles_of (by revert fake; decide +kernel)

/-- Two classes of a dumped VM in both syntaxes: both constructors, both methods and all fields answer. -/
theorem dump_regenerated (fake : Bool) (fn : Str → Str → Nat → Nat) : ∃ (es : DumpEntry → List DescEntry) (w' : World), initBinding fake false dumpInfo World.initial
      (dumpEntries.map fun e => ⟨dumpNum e.name, e.name, [none], true, es e⟩)
      (dumpEntries.reverse.map fun e => ⟨dumpNum e.name, e.name, [none], true, es e⟩) = .ok w' ∧
    MemReachable w' ∧ ∀ e ∈ dumpEntries, ∃ c, w'.IsClass e.name c ∧
      (∀ f ∈ dumpFields e.cls, FieldAnswers w' c f (fn e.name (fieldLine fake (cppScope e.name) e.simple f) 0)) ∧
      ∀ m ∈ dumpMethods e.cls, MethodAnswers w' c m (fn e.name (methodLine fake dumpTyping (cppScope e.name) e.simple m)
        (if fake then 0 else if m.static then 2 else 1)) := by
  have hdecl : ∀ e ∈ dumpEntries, ∀ k ∈ "java/lang/Class".toList :: usedNames e.name (dumpWorld.mem e.cls).fields
      (dumpedMethods dumpWorld e.cls), dumpInfo.declared (.cls (dumpNum k)) = some k := by decide +kernel
  have hid : ∀ e ∈ dumpEntries, ∀ k ∈ "java/lang/Class".toList :: usedNames e.name (dumpWorld.mem e.cls).fields
      (dumpedMethods dumpWorld e.cls), ∀ e' ∈ dumpEntries, dumpNum k = dumpNum e'.name → k = e'.name := by decide +kernel
  have hap : ∀ e ∈ dumpEntries, CtorsApart dumpTyping (dumpedMethods dumpWorld e.cls) := by
    unfold CtorsApart
    decide +kernel
  obtain ⟨es, _, w', e, hr', h⟩ := regenerate_partial (fake := fake) (compat := false) (w := World.initial) ⟨[], rfl⟩ (L := dumpEntries)
    (post := dumpEntries.reverse) (by decide +kernel) (List.reverse_perm _) (dump_compiles fake) (fun _ => hap)
    (fun e he t k hu => .inl (dump_declared (hdecl e he) t k hu))
    (fun e he t k hu e' he' hi => by
      obtain ⟨rfl, hk⟩ := used_names hu
      exact hid e he k hk e' he' hi) (fun _ => [none]) fn
  refine ⟨es, w', e, hr', fun e he => ?_⟩
  obtain ⟨c, h1, h2, h3⟩ := h e he
  have hd : ∀ e ∈ dumpEntries, dumpedMethods dumpWorld e.cls = dumpMethods e.cls := by decide +kernel
  exact ⟨c, h1, h2, fun m hm => h3 (fun m hm => nomatch hm) m (by rw [hd e he]; exact hm)⟩

/-- The hypotheses of `regenerate_constructor`: "p/Q" is constructed with an int and an array. -/
example (fake : Bool) : ∃ (w : World) (c : Nat) (m : MethodRec) (fn : Nat), MemReachable w ∧ w.IsClass "p/Q".toList c ∧
    Compiles fake dumpNames dumpNum 1 dumpTyping "p/Q".toList "Q".toList (dumpFields 7) (dumpMethods 7) ∧
    m ∈ dumpMethods 7 ∧ m.name = "<init>".toList ∧ MethodAnswers w c m fn ∧
    renderSig (dumpTyping.params m) none = "(I[Lp/Q;)V".toList := by
  have hcomp := dump_compiles fake _ List.mem_cons_self
  obtain ⟨_, w, _, hr, h⟩ := dump_regenerated fake fun _ _ => id
  obtain ⟨c, h1, _, h3⟩ := h _ List.mem_cons_self
  exact ⟨w, c, _, _, hr, h1, hcomp, .tail _ (.head _), rfl, h3 _ (.tail _ (.head _)),
    by decide +kernel⟩

/-- The hypotheses of `regenerate_registers`. -/
example : PlainName "p/Q$R".toList ∧ WordName "p/Q$R".toList ∧ dumpNames.cls (cppScope "p/Q$R".toList) = some (dumpNum "p/Q$R".toList) := by
  refine ⟨fun a b e => ?_, by decide +kernel, by decide +kernel⟩
  have h1 : ∀ p ∈ (List.range 6).map (fun i => ("p/Q$R".toList.take i, "p/Q$R".toList.drop i)),
      p.2.head? = some '/' → p.1 ≠ [] ∧ p.1.getLast? ≠ some '/' ∧ '$' ∉ p.1 := by decide +kernel
  have hl := congrArg List.length e
  have ha : "p/Q$R".toList.take a.length = a := by rw [e]; simp
  have hb : "p/Q$R".toList.drop a.length = '/' :: b := by rw [e]; simp
  exact h1 (a, '/' :: b) (List.mem_map.2 ⟨a.length, List.mem_range.2 (by simp at hl; omega), by rw [ha, hb]⟩) rfl

/-- A VM with class "p/H" in which the hypotheses of `regenerate_constructor_hidden` hold. -/
example (fn : Str → Nat → Nat) : ∃ w c es w', MemReachable w ∧ w.IsClass "p/H".toList c ∧
    runBlock dumpInfo w ⟨9, "p/H".toList, [], true, es⟩ = .ok w' ∧
    MethodAnswers w' c ⟨4, "<init>".toList, "(Ljava/lang/Class;I)Lp/H;".toList, true, none, none⟩
      (fn "c->Hook(env, \"<init>\", [](jnivm::ENV *env, jnivm::Class* cl, jint arg0) {   return std::make_shared<jnivm::p::H>(env, cl, arg0);});\n".toList 1) := by
  obtain ⟨w, c, e, hr, hc, ht, hm, hk, _⟩ := bindType_ok (w := World.initial) ⟨[], rfl⟩
    ⟨9, "p/H".toList, [], true, []⟩
  have hU : NamesIn dumpInfo (UsesName dumpNum dumpInfo.clazz dumpTyping "p/H".toList [] hiddenMethods) w := by
    intro t k hu
    obtain ⟨rfl, hk⟩ := used_names hu
    have hd : ∀ k ∈ "java/lang/Class".toList :: usedNames "p/H".toList [] hiddenMethods,
        (dumpNum k = 9 ∧ k = "p/H".toList) ∨ (dumpNum k ≠ 9 ∧ dumpInfo.declared (.cls (dumpNum k)) = some k) := by decide +kernel
    rcases hd k hk with ⟨h1, rfl⟩ | ⟨h1, h2⟩
    · exact .inl ⟨c, by rw [ht]; exact if_pos h1, hc⟩
    · exact .inr ⟨by rw [ht]; exact if_neg h1, rfl, h2⟩
  obtain ⟨es, w', _, h2, h3⟩ := regenerate_constructor_hidden hr hc (hidden_compiles false) hU
    (fun m hm' => by rw [hm] at hm'; split at hm' <;> cases hm') (m := ⟨4, "<init>".toList, "(Ljava/lang/Class;I)Lp/H;".toList, true, none, none⟩)
    (m' := ⟨5, "<init>".toList, "(I)Lp/H;".toList, true, none, none⟩) (pre := [⟨4, "<init>".toList, "(Ljava/lang/Class;I)Lp/H;".toList, true, none, none⟩])
    rfl List.mem_cons_self rfl rfl rfl [] 9 [] fn
  refine ⟨w, c, es, w', hr, hc, h2, ?_⟩
  have hline : methodLine false dumpTyping (cppScope "p/H".toList) "H".toList ⟨5, "<init>".toList, "(I)Lp/H;".toList, true, none, none⟩ =
    "c->Hook(env, \"<init>\", [](jnivm::ENV *env, jnivm::Class* cl, jint arg0) {   return std::make_shared<jnivm::p::H>(env, cl, arg0);});\n".toList := by
    decide +kernel
  rw [hline] at h3
  exact h3

/-- Members without a reading: a member named like a keyword, or like its class. -/
example : readMember dumpNames "Q".toList "void delete();".toList = none ∧
    readMember dumpNames "Q".toList "static jint Q;".toList = none ∧
    (readMember dumpNames "Q".toList "static jint q;".toList).isSome := by decide +kernel

/-- A class with two overloads of `f`. -/
example (fake : Bool) : ∃ ms : List MethodRec, Declarable fake dumpNames dumpNum 1 dumpTyping "p/Q".toList "Q".toList [] ms ∧
    ¬ ([].map FieldRec.name ++ (ms.filter (·.name ≠ "<init>".toList)).map (·.name)).Nodup := by
  have hc : ∀ (fake : Bool) (m : MethodRec), m ∈ [⟨2, "f".toList, "(Ljava/lang/String;[[J)Lp/Q;".toList, false, none, none⟩,
      ⟨3, "f".toList, "(Lp/Q$R;)V".toList, true, none, none⟩] → compilesBy fake "p/Q".toList "Q".toList [] [m] = true := by
    intro fake m hm
    simp only [List.mem_cons, List.not_mem_nil, or_false] at hm
    rcases hm with rfl | rfl <;> revert fake <;> decide +kernel
  refine ⟨[⟨2, "f".toList, "(Ljava/lang/String;[[J)Lp/Q;".toList, false, none, none⟩,
    ⟨3, "f".toList, "(Lp/Q$R;)V".toList, true, none, none⟩], ?_, by decide +kernel⟩
  have h := fun m hm => (compiles_of (hc fake m hm)).toDeclarable
  have h0 := h _ List.mem_cons_self
  exact ⟨h0.own, h0.clazzName, h0.ident, fun f hf => (nomatch hf), fun m hm => (h m hm).methods m List.mem_cons_self,
    fun m hm => (h m hm).named m List.mem_cons_self⟩

end Jnivm
