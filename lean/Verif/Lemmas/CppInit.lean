import Verif.Lemmas.CppDefs
/-! Lemmas about reading descriptors and `InitJNIBinding`. -/
namespace Jnivm
open Spec

variable {R : CppReader} {num : Str → Nat} {clazz : Nat} {T : Typing}

/-! ### The lines that bind members -/

theorem before_append_lit (s a b : Str) : before b (s ++ (a ++ b)) = some (s ++ a) := by
  rw [← List.append_assoc, before_append]

theorem hookScope_named {scope x : Str} (hx : isIdent x = true) :
    hookScope (methodHook scope x).dropLast = some scope := by
  have e : (methodHook scope x).dropLast = "c->Hook(env, \"".toList ++ (x ++ '"' :: (", ".toList ++ ("&".toList ++
      ((scope ++ "::".toList ++ x) ++ ");".toList)))) := by
    have e1 : ");\n".toList = ");".toList ++ ['\n'] := by decide
    have e2 : "\", &".toList = '"' :: (", ".toList ++ "&".toList) := by decide
    unfold methodHook
    rw [e1, e2, ← List.append_assoc, List.dropLast_concat]
    simp only [List.append_assoc, List.cons_append]
  unfold hookScope
  rw [e, after_append, Option.bind_some, splitFirst_append (ident_lacks hx (by decide))]
  simp only [Option.bind_some, after_append, before_append]
  rw [splitScope_append (ident_lacks hx (by decide))]
  rfl

theorem hookScope_ctor {fake : Bool} {N : CppNames} {scope : Str} {ts : List Ty} (h : ∀ t ∈ ts, Known fake N num t) (hs : '>' ∉ scope) :
    hookScope (constructorBinding scope ts).dropLast = some scope := by
  have hp : ')' ∉ commas ("jnivm::ENV *env".toList :: "jnivm::Class* cl".toList :: namedFrom false 0 ts) := by
    refine commas_lacks (fun p hp => ?_) (by decide) (by decide)
    simp only [List.mem_cons] at hp
    rcases hp with rfl | rfl | hp
    · decide
    · decide
    · obtain ⟨t, ht, i, rfl⟩ := namedFrom_mem hp
      simp only [List.mem_append, not_or]
      exact ⟨⟨type_lacks false (known_words (h t ht)) (by decide), by decide⟩, argName_lacks i (by decide)⟩
  have e : (constructorBinding scope ts).dropLast = "c->Hook(env, \"".toList ++ ("<init>".toList ++ '"' :: (", ".toList ++ ("[](".toList ++
      (commas ("jnivm::ENV *env".toList :: "jnivm::Class* cl".toList :: namedFrom false 0 ts) ++ ')' ::
        (" {   return std::make_shared<".toList ++ (scope ++ '>' :: ("(".toList ++
          commas ("env".toList :: "cl".toList :: namesFrom 0 ts.length) ++ ");});".toList))))))) := by
    have e1 : ");});\n".toList = ");});".toList ++ ['\n'] := by decide
    have e2 : "c->Hook(env, \"<init>\", [](".toList = "c->Hook(env, \"".toList ++ ("<init>".toList ++ '"' :: (", ".toList ++ "[](".toList)) := by decide +kernel
    have e3 : ") {   return std::make_shared<".toList = ')' :: " {   return std::make_shared<".toList := by decide +kernel
    have e4 : ">(".toList = '>' :: "(".toList := by decide
    unfold constructorBinding
    rw [e1, e2, e3, e4, ← List.append_assoc, List.dropLast_concat]
    simp only [List.append_assoc, List.cons_append]
  unfold hookScope
  rw [e, after_append, Option.bind_some, splitFirst_append (by decide)]
  simp only [Option.bind_some, after_append]
  have e5 : ∀ s : Str, after "&".toList ("[](".toList ++ s) = none := fun s => rfl
  rw [e5]
  simp only
  have e6 : ∀ s : Str, "[](".toList ++ (commas ("jnivm::ENV *env".toList :: "jnivm::Class* cl".toList :: namedFrom false 0 ts) ++ ')' :: s) =
      ("[](".toList ++ commas ("jnivm::ENV *env".toList :: "jnivm::Class* cl".toList :: namedFrom false 0 ts)) ++ ')' :: s := by
    intro s
    rw [List.append_assoc]
  rw [e6, splitFirst_append (by simp only [List.mem_append, not_or]; exact ⟨by decide, hp⟩)]
  simp only [Option.bind_some, after_append]
  rw [splitFirst_append hs]
  rfl

/-- A line with its newline. -/
structure IsLine (fake : Bool) (s : Str) : Prop where
  line : ∃ l, s = l ++ "\n".toList ∧ '\n' ∉ l
  head : s.head? = some (if fake then '{' else 'c')

theorem IsLine.drop {fake : Bool} {line : Str} (h : IsLine fake line) : line = line.dropLast ++ "\n".toList := by
  obtain ⟨⟨l, rfl, _⟩, _⟩ := h
  rw [show "\n".toList = ['\n'] from rfl, List.dropLast_concat]

theorem IsLine.start {fake : Bool} {line : Str} (h : IsLine fake line) : ∃ l, line.dropLast = (if fake then '{' else 'c') :: l := by
  obtain ⟨⟨l, rfl, _⟩, h⟩ := h
  rw [show "\n".toList = ['\n'] from rfl] at h ⊢
  rw [List.dropLast_concat]
  cases l with
  | nil =>
    cases fake
    · exact absurd h (by decide)
    · exact absurd h (by decide)
  | cons c l =>
    simp only [List.cons_append, List.head?_cons, Option.some.injEq] at h
    exact ⟨l, by rw [h]⟩

theorem classLines_line {fake : Bool} {N : CppNames} {n cname : Str} {fs : List FieldRec} {ms : List MethodRec}
    (h : Declarable fake N num clazz T n cname fs ms) (hs : '\n' ∉ cppScope n) :
    ∀ line ∈ classLines fake T (cppScope n) cname fs ms, IsLine fake line := by
  have hfields : ∀ x : Str, '\n' ∉ x → IsLine false (methodHook (cppScope n) x) := by
    intro x hx
    refine ⟨⟨"c->Hook(env, \"".toList ++ x ++ "\", &".toList ++ cppScope n ++ "::".toList ++ x ++ ");".toList, ?_, ?_⟩, rfl⟩
    · have e1 : ");\n".toList = ");".toList ++ "\n".toList := by decide
      unfold methodHook
      rw [e1]
      simp only [List.append_assoc]
    · have : '\n' ∉ "c->Hook(env, \"".toList ∧ '\n' ∉ "\", &".toList ∧ '\n' ∉ "::".toList ∧ '\n' ∉ ");".toList := by decide +kernel
      simp only [List.mem_append, not_or]
      exact ⟨⟨⟨⟨⟨⟨this.1, hx⟩, this.2.1⟩, hs⟩, this.2.2.1⟩, hx⟩, this.2.2.2⟩
  have hcn : '\n' ∉ cname := ident_lacks h.ident (by decide)
  have hfake : ∀ a b c d : Str, '\n' ∉ a → '\n' ∉ b → '\n' ∉ c → '\n' ∉ d → ∀ x : Str, '\n' ∉ x → a.head? = some '{' → IsLine true (a ++ cname ++ b ++ x ++ c ++ x ++ d ++ " },\n".toList) := by
    intro a b c d ha hb hc hd x hx hh
    refine ⟨⟨a ++ cname ++ b ++ x ++ c ++ x ++ d ++ " },".toList, ?_, ?_⟩, ?_⟩
    · have e1 : " },\n".toList = " },".toList ++ "\n".toList := by decide
      rw [e1]
      simp only [List.append_assoc]
    · simp only [List.mem_append, not_or]
      exact ⟨⟨⟨⟨⟨⟨⟨ha, hcn⟩, hb⟩, hx⟩, hc⟩, hx⟩, hd⟩, by decide⟩
    · cases a with
      | nil => cases hh
      | cons a0 a => simpa using hh
  intro line hl
  rcases List.mem_append.1 hl with hl | hl
  · obtain ⟨f, hf, rfl⟩ := List.mem_map.1 hl
    have hx : '\n' ∉ f.name := ident_lacks (h.fields f hf).2.2.1 (by decide)
    unfold fieldLine
    cases fake with
    | false => exact hfields f.name hx
    | true =>
      rw [if_pos rfl]
      have := hfake "{FakeJni::Field<&".toList "::".toList ">{}, \"".toList ("\", FakeJni::JFieldID::PUBLIC".toList ++ (if f.static then " | FakeJni::JFieldID::STATIC".toList else []))
        (by decide +kernel) (by decide) (by decide) (by cases f.static <;> decide +kernel) f.name hx rfl
      unfold fakeField
      simp only [List.append_assoc] at this ⊢
      exact this
  · obtain ⟨m, hm, rfl⟩ := List.mem_map.1 hl
    obtain ⟨_, hk, _⟩ := h.methods m hm
    unfold methodLine
    by_cases hi : m.name = "<init>".toList
    · rw [if_pos hi]
      cases fake with
      | true =>
        rw [if_pos rfl]
        refine ⟨⟨"{FakeJni::Constructor<".toList ++ commas (cname :: (T.params m).map (cppType true)) ++ ">{}},".toList, ?_, ?_⟩, rfl⟩
        · have e1 : ">{}},\n".toList = ">{}},".toList ++ "\n".toList := by decide
          unfold fakeConstructor
          rw [e1]
          simp only [List.append_assoc]
        · simp only [List.mem_append, not_or]
          refine ⟨⟨by decide +kernel, ?_⟩, by decide⟩
          refine commas_lacks (fun p hp => ?_) (by decide) (by decide)
          rcases List.mem_cons.1 hp with rfl | hp
          · exact hcn
          · obtain ⟨t, ht, rfl⟩ := List.mem_map.1 hp
            exact type_lacks true (known_words (hk t ht)) (by decide)
      | false =>
        rw [if_neg (by decide)]
        refine ⟨⟨"c->Hook(env, \"<init>\", [](".toList ++
          commas ("jnivm::ENV *env".toList :: "jnivm::Class* cl".toList :: namedFrom false 0 (T.params m)) ++
          ") {   return std::make_shared<".toList ++ cppScope n ++ ">(".toList ++
          commas ("env".toList :: "cl".toList :: namesFrom 0 (T.params m).length) ++ ");});".toList, ?_, ?_⟩, rfl⟩
        · have e1 : ");});\n".toList = ");});".toList ++ "\n".toList := by decide
          unfold constructorBinding
          rw [e1]
          simp only [List.append_assoc]
        · have hd : '\n' ∉ "c->Hook(env, \"<init>\", [](".toList ∧ '\n' ∉ ") {   return std::make_shared<".toList ∧ '\n' ∉ ">(".toList ∧
            '\n' ∉ ");});".toList := by decide +kernel
          simp only [List.mem_append, not_or]
          refine ⟨⟨⟨⟨⟨⟨hd.1, ?_⟩, hd.2.1⟩, hs⟩, hd.2.2.1⟩, ?_⟩, hd.2.2.2⟩
          · refine commas_lacks (fun p hp => ?_) (by decide) (by decide)
            simp only [List.mem_cons] at hp
            rcases hp with rfl | rfl | hp
            · decide +kernel
            · decide +kernel
            · obtain ⟨t, ht, i, rfl⟩ := namedFrom_mem hp
              simp only [List.mem_append, not_or]
              exact ⟨⟨type_lacks false (known_words (hk t ht)) (by decide), by decide⟩, argName_lacks i (by decide)⟩
          · refine commas_lacks (fun p hp => ?_) (by decide) (by decide)
            simp only [List.mem_cons] at hp
            rcases hp with rfl | rfl | hp
            · decide
            · decide
            · obtain ⟨i, rfl⟩ := namesFrom_mem hp
              exact argName_lacks i (by decide)
    · rw [if_neg hi]
      have hx : '\n' ∉ m.name := ident_lacks (h.named m hm hi).1 (by decide)
      cases fake with
      | false => exact hfields m.name hx
      | true =>
        rw [if_pos rfl]
        have := hfake "{FakeJni::Function<&".toList "::".toList ">{}, \"".toList ("\", FakeJni::JMethodID::PUBLIC".toList ++ (if m.static then " | FakeJni::JMethodID::STATIC".toList else []))
          (by decide +kernel) (by decide) (by decide) (by cases m.static <;> decide +kernel) m.name hx rfl
        unfold fakeFunction
        simp only [List.append_assoc] at this ⊢
        exact this

theorem classLines_scope {N : CppNames} {n cname : Str} {fs : List FieldRec} {ms : List MethodRec}
    (h : Declarable false N num clazz T n cname fs ms) (hs : '>' ∉ cppScope n) :
    ∀ line ∈ classLines false T (cppScope n) cname fs ms, hookScope line.dropLast = some (cppScope n) := by
  intro line hl
  rcases List.mem_append.1 hl with hl | hl
  · obtain ⟨f, hf, rfl⟩ := List.mem_map.1 hl
    exact hookScope_named (h.fields f hf).2.2.1
  · obtain ⟨m, hm, rfl⟩ := List.mem_map.1 hl
    unfold methodLine
    by_cases hi : m.name = "<init>".toList
    · rw [if_pos hi]
      exact hookScope_ctor (h.methods m hm).2.1 hs
    · rw [if_neg hi]
      exact hookScope_named (h.named m hm hi).1

/-! ### Descriptors -/

theorem read_entries {D : CppDecl} (lines : List Str) : ∀ (t : CppText) (es0 es : List DescEntry), t.place = .desc D es0 →
    (∀ line ∈ lines, IsLine true line) →
    readAllOf (fun line => readEntry (t.known R) D (R.fn D.scope line) line) lines = some es →
    t.readLines R (lines.map List.dropLast) = some { t with place := .desc D (es0 ++ es) } := by
  induction lines with
  | nil =>
    intro t es0 es ht _ h
    cases h
    cases t
    simp only at ht
    subst ht
    simp [CppText.readLines]
  | cons line lines ih =>
    intro t es0 es ht hl h
    simp only [readAllOf] at h
    obtain ⟨e, h1, h⟩ := Option.bind_eq_some_iff.1 h
    obtain ⟨es', h2, rfl⟩ := Option.map_eq_some_iff.1 h
    have hll := hl line (by simp)
    obtain ⟨l, hst⟩ := hll.start
    have hstep : t.readLine R (stripBlanks line.dropLast) = some { t with place := .desc D (es0 ++ [e]) } := by
      have e0 : stripBlanks line.dropLast = line.dropLast := by
        rw [hst]
        exact stripBlanks_cons (by decide) _
      have e1 : line.dropLast ≠ "END_NATIVE_DESCRIPTOR".toList := by
        rw [hst]
        exact fun e => nomatch e
      rw [e0]
      unfold CppText.readLine
      rw [ht]
      simp only
      rw [if_neg e1, ← hll.drop, h1]
      rfl
    rw [List.map_cons, readLines_step hstep]
    rw [ih { t with place := .desc D (es0 ++ [e]) } (es0 ++ [e]) es' rfl (fun x hx => hl x (by simp [hx])) h2]
    simp

theorem descriptor_read {t : CppText} (ht : t.place = .top) (hsp : t.spaces = []) (hf : R.fake = true) {D : CppDecl} {scope : Str}
    (hD : t.complete scope = some D) (hDs : D.scope = scope) (hd : scope ∉ t.descs.map (·.1)) {lines : List Str} {es : List DescEntry}
    (hl : ∀ line ∈ lines, IsLine true line)
    (h : readAllOf (fun line => readEntry (t.known R) D (R.fn scope line) line) lines = some es) :
    t.readLines R (["BEGIN_NATIVE_DESCRIPTOR(".toList ++ scope ++ ")".toList] ++ lines.map List.dropLast ++ ["END_NATIVE_DESCRIPTOR".toList]) =
      some { t with descs := t.descs ++ [(scope, es)] } := by
  have hst : t.readLine R (stripBlanks ("BEGIN_NATIVE_DESCRIPTOR(".toList ++ scope ++ ")".toList)) = some { t with place := .desc D [] } := by
    have e0 : stripBlanks ("BEGIN_NATIVE_DESCRIPTOR(".toList ++ scope ++ ")".toList) = "BEGIN_NATIVE_DESCRIPTOR(".toList ++ scope ++ ")".toList :=
      stripBlanks_cons (c := 'B') (by decide) _
    have e1 : "BEGIN_NATIVE_DESCRIPTOR(".toList ++ scope ++ ")".toList ≠ [] := fun e => nomatch e
    have e2 : "BEGIN_NATIVE_DESCRIPTOR(".toList ++ scope ++ ")".toList ≠ "}".toList := fun e => nomatch e
    have e3 : after "#include <".toList ("BEGIN_NATIVE_DESCRIPTOR(".toList ++ scope ++ ")".toList) = none := rfl
    have e4 : between "namespace ".toList " {".toList ("BEGIN_NATIVE_DESCRIPTOR(".toList ++ scope ++ ")".toList) = none := between_none rfl
    have e5 : between "class ".toList ";".toList ("BEGIN_NATIVE_DESCRIPTOR(".toList ++ scope ++ ")".toList) = none := between_none rfl
    have e6 : after "class ".toList ("BEGIN_NATIVE_DESCRIPTOR(".toList ++ scope ++ ")".toList) = none := rfl
    have e7 : "BEGIN_NATIVE_DESCRIPTOR(".toList ++ scope ++ ")".toList ≠ initHeading R.fake := by
      rw [hf]
      exact fun e => nomatch e
    rw [e0, readLine_top ht]
    unfold CppText.readTop
    rw [if_neg e1, if_neg e2, e3]
    simp only
    rw [e4]
    simp only
    rw [e5]
    simp only
    rw [if_pos hsp, e6]
    simp only
    unfold CppText.readDefinition
    rw [if_neg e7, between_append]
    simp only
    rw [hD]
    simp only [Option.bind_some]
    exact if_pos ⟨hf, hd⟩
  rw [List.append_assoc, List.singleton_append, readLines_step hst]
  have hes := read_entries (R := R) (D := D) lines { t with place := .desc D [] } [] es rfl hl (by rw [hDs]; exact h)
  refine (readLines_then hes _).trans ?_
  have hend : CppText.readLine R { t with place := .desc D ([] ++ es) } (stripBlanks "END_NATIVE_DESCRIPTOR".toList) =
      some { t with place := .top, descs := t.descs ++ [(D.scope, es)] } := rfl
  rw [readLines_step hend, hDs]
  cases t
  simp only at ht
  subst ht
  rfl

/-! ### `InitJNIBinding` -/

theorem readLine_init {t : CppText} (h : t.place = .init) (l : Str) : t.readLine R l = t.readInit R l := by
  unfold CppText.readLine
  rw [h]

theorem read_registers {t0 : CppText} (ns : List Str) (hn : ∀ n ∈ ns, PlainName n ∧ WordName n ∧ '\n' ∉ n ∧ (t0.known R).cls (cppScope n) = some (num n) ∧
    num n ∈ t0.classes.map (·.1.type)) : ∀ t : CppText, t.place = .init → t.known R = t0.known R → t.classes = t0.classes →
    t.readLines R (ns.map fun n => (registration R.fake n).dropLast) =
      some { t with init := t.init ++ ns.map fun n => .register (num n) (if R.fake then none else some n) } := by
  induction ns with
  | nil =>
    intro t _ _ _
    simp [CppText.readLines]
  | cons n ns ih =>
    intro t ht hk hc
    obtain ⟨h1, h2, h3, h4, h5⟩ := hn n (by simp)
    have hr := regenerate_registers (fake := R.fake) h1 h2 h4
    have hline : ∃ c l, registration R.fake n = (c :: l) ++ "\n".toList ∧ c ≠ ' ' ∧ c ≠ '}' ∧ c ≠ '{' := by
      unfold registration
      cases R.fake with
      | true =>
        refine ⟨'v', "m->registerClass<jnivm::".toList ++ cppName n ++ ">();".toList, ?_, by decide, by decide, by decide⟩
        have e1 : ">();\n".toList = ">();".toList ++ "\n".toList := by decide
        have e2 : "vm->registerClass<jnivm::".toList = 'v' :: "m->registerClass<jnivm::".toList := by decide +kernel
        rw [if_pos rfl, e1, e2]
        simp only [List.append_assoc, List.cons_append]
      | false =>
        refine ⟨'e', "nv->GetClass<jnivm::".toList ++ cppName n ++ ">(\"".toList ++ n ++ "\");".toList, ?_, by decide, by decide, by decide⟩
        have e1 : "\");\n".toList = "\");".toList ++ "\n".toList := by decide
        have e2 : "env->GetClass<jnivm::".toList = 'e' :: "nv->GetClass<jnivm::".toList := by decide +kernel
        rw [if_neg (by decide), e1, e2]
        simp only [List.append_assoc, List.cons_append]
    obtain ⟨c, l, e, c1, c2, c3⟩ := hline
    have ed : (registration R.fake n).dropLast = c :: l := by
      rw [e, show "\n".toList = ['\n'] from rfl, List.dropLast_concat]
    have hstep : t.readLine R (stripBlanks (registration R.fake n).dropLast) =
        some { t with init := t.init ++ [.register (num n) (if R.fake then none else some n)] } := by
      rw [ed, stripBlanks_cons c1]
      rw [readLine_init ht]
      unfold CppText.readInit
      have n1 : c :: l ≠ [] := fun e => nomatch e
      have n2 : c :: l ≠ "}".toList := by
        intro e
        have : "}".toList = ['}'] := rfl
        rw [this] at e
        cases e
        exact c2 rfl
      have n3 : c :: l ≠ "{".toList := by
        intro e
        have : "{".toList = ['{'] := rfl
        rw [this] at e
        cases e
        exact c3 rfl
      rw [if_neg n1, if_neg n2, if_neg n3, ← e, hk, hr]
      simp only
      rw [hc, if_pos h5]
    rw [List.map_cons, readLines_step hstep]
    rw [ih (fun m hm => hn m (by simp [hm])) { t with init := t.init ++ [.register (num n) (if R.fake then none else some n)] } ht hk hc]
    simp

theorem isLines_registers {fake : Bool} {ns : List Str} (h : ∀ n ∈ ns, '\n' ∉ n) :
    IsLines (ns.flatMap (registration fake)) (ns.map fun n => (registration fake n).dropLast) := by
  have e : ns.flatMap (registration fake) = (ns.map (registration fake)).flatten := by rw [List.flatMap_def]
  have e2 : (ns.map fun n => (registration fake n).dropLast) = (ns.map (registration fake)).map List.dropLast := by
    rw [List.map_map]
    rfl
  rw [e, e2]
  refine isLines_flatten fun x hx => ?_
  obtain ⟨n, hn, rfl⟩ := List.mem_map.1 hx
  have h1 := h n hn
  have h2 : '\n' ∉ cppName n := cppName_plain h1
  unfold registration
  cases fake with
  | true =>
    refine ⟨"vm->registerClass<jnivm::".toList ++ cppName n ++ ">();".toList, ?_, ?_⟩
    · have e1 : ">();\n".toList = ">();".toList ++ "\n".toList := by decide
      rw [if_pos rfl, e1]
      simp only [List.append_assoc]
    · simp only [List.mem_append, not_or]
      exact ⟨⟨by decide +kernel, h2⟩, by decide⟩
  | false =>
    refine ⟨"env->GetClass<jnivm::".toList ++ cppName n ++ ">(\"".toList ++ n ++ "\");".toList, ?_, ?_⟩
    · have e1 : "\");\n".toList = "\");".toList ++ "\n".toList := by decide
      rw [if_neg (by decide), e1]
      simp only [List.append_assoc]
    · simp only [List.mem_append, not_or]
      exact ⟨⟨⟨⟨by decide +kernel, h2⟩, by decide⟩, h1⟩, by decide⟩

theorem read_hooks (hf : R.fake = false) {D : CppDecl} {scope : Str} (lines : List Str) : ∀ (t : CppText) (es : List DescEntry), t.place = .init →
    t.depth ≠ 0 → t.complete scope = some D → (∀ line ∈ lines, IsLine false line ∧ hookScope line.dropLast = some scope) →
    readAllOf (fun line => readHook (t.known R) D (R.fn scope line) line) lines = some es →
    t.readLines R (lines.map List.dropLast) = some { t with init := t.init ++ es.map .hook } := by
  induction lines with
  | nil =>
    intro t es _ _ _ _ h
    cases h
    simp [CppText.readLines]
  | cons line lines ih =>
    intro t es ht hd hD hl h
    simp only [readAllOf] at h
    obtain ⟨e, h1, h⟩ := Option.bind_eq_some_iff.1 h
    obtain ⟨es', h2, rfl⟩ := Option.map_eq_some_iff.1 h
    obtain ⟨hll, hs⟩ := hl line (by simp)
    obtain ⟨l, hst⟩ := hll.start
    have hstep : t.readLine R (stripBlanks line.dropLast) = some { t with init := t.init ++ [.hook e] } := by
      have e0 : stripBlanks line.dropLast = line.dropLast := by
        rw [hst]
        exact stripBlanks_cons (by decide) _
      have n1 : line.dropLast ≠ [] := by rw [hst]; exact fun e => nomatch e
      have n2 : line.dropLast ≠ "}".toList := by rw [hst]; exact fun e => nomatch e
      have n3 : line.dropLast ≠ "{".toList := by rw [hst]; exact fun e => nomatch e
      have n4 : readRegister R.fake (t.known R) line = none := by
        unfold readRegister
        rw [hf, if_neg (by decide), hll.drop, hst]
        rfl
      rw [e0]
      rw [readLine_init ht]
      unfold CppText.readInit
      rw [if_neg n1, if_neg n2, if_neg n3, ← hll.drop, n4]
      simp only
      rw [if_neg hd, hs]
      simp only [Option.bind_some]
      rw [hD]
      simp only [Option.bind_some]
      rw [h1]
      rfl
    rw [List.map_cons, readLines_step hstep]
    rw [ih { t with init := t.init ++ [.hook e] } es' ht hd hD (fun x hx => hl x (by simp [hx])) h2]
    simp

theorem read_opens {t : CppText} (ht : t.place = .init) (n : Str) :
    t.readLines R ["{".toList, "auto c = env->GetClass(\"".toList ++ n ++ "\");".toList] =
      some { t with depth := t.depth + 1, init := t.init ++ [.opens n] } := by
  have h1 : t.readLine R (stripBlanks "{".toList) = some { t with place := .opening } := by
    have e0 : stripBlanks "{".toList = "{".toList := by decide
    rw [e0]
    rw [readLine_init ht]
    unfold CppText.readInit
    rw [if_neg (by decide), if_neg (by decide), if_pos rfl]
  have h2 : CppText.readLine R { t with place := .opening } (stripBlanks ("auto c = env->GetClass(\"".toList ++ n ++ "\");".toList)) =
      some { t with place := .init, depth := t.depth + 1, init := t.init ++ [.opens n] } := by
    have e0 : stripBlanks ("auto c = env->GetClass(\"".toList ++ n ++ "\");".toList) = "auto c = env->GetClass(\"".toList ++ n ++ "\");".toList :=
      stripBlanks_cons (c := 'a') (by decide) _
    rw [e0]
    simp only [CppText.readLine]
    rw [between_append]
    rfl
  rw [readLines_step h1, readLines_step h2]
  cases t
  simp only at ht
  subst ht
  rfl

theorem read_closes {t : CppText} (ht : t.place = .init) (hd : t.depth ≠ 0) :
    t.readLines R ["}".toList] = some { t with depth := t.depth - 1, init := t.init ++ [.closes] } := by
  have h1 : t.readLine R (stripBlanks "}".toList) = some { t with depth := t.depth - 1, init := t.init ++ [.closes] } := by
    have e0 : stripBlanks "}".toList = "}".toList := by decide
    rw [e0]
    rw [readLine_init ht]
    unfold CppText.readInit
    rw [if_neg (by decide), if_pos rfl, if_neg hd]
  rw [readLines_step h1]
  rfl

theorem read_finish {t : CppText} (ht : t.place = .init) (hd : t.depth = 0) :
    t.readLines R [[], "}".toList] = some { t with place := .finished } := by
  have h0 : t.readLine R (stripBlanks []) = some t := by
    unfold CppText.readLine
    rw [ht]
    rfl
  have h1 : t.readLine R (stripBlanks "}".toList) = some { t with place := .finished } := by
    have e0 : stripBlanks "}".toList = "}".toList := by decide
    rw [e0]
    rw [readLine_init ht]
    unfold CppText.readInit
    rw [if_neg (by decide), if_pos rfl, if_pos hd]
  rw [readLines_step h0, readLines_step h1]
  rfl

theorem read_heading {t : CppText} (ht : t.place = .top) (hsp : t.spaces = []) :
    t.readLines R [initHeading R.fake] = some { t with place := .init } := by
  have hst : DefStart (initHeading R.fake) := by
    cases R.fake
    · exact ⟨'v', _, rfl, by decide⟩
    · exact ⟨'v', _, rfl, by decide⟩
  have h1 : t.readLine R (stripBlanks (initHeading R.fake)) = some { t with place := .init } := by
    rw [strip_start hst, readLine_top ht, (readTop_definition hsp hst).1]
    unfold CppText.readDefinition
    rw [if_pos rfl]
  rw [readLines_step h1]
  rfl

end Jnivm
