import Verif.Lemmas.CodegenTree
import Verif.Lemmas.MemberSample
import Verif.Props.Members
/-! C50: the code generator. -/
namespace Jnivm
open Spec

/-! ### Types and signatures -/

/-- C50. At the start of a well-formed type the generator consumes exactly the characters of this type
(it stops on the last one, whatever follows) and produces the C++ type that belongs to it. -/
theorem codegen_type_exact (fake : Bool) (t : Ty) (hv : t.Valid) (pre post : Str) :
    parseJNIType fake (pre ++ t.render ++ post) pre.length =
      .ok (pre.length + t.render.length - 1, cppType fake t) := parse_render fake t hv pre post

example : parseJNIType false "(I[[Lcom/x/A$B;J)V".toList 2 =
    .ok (14, "std::shared_ptr<jnivm::Array<jnivm::Array<jnivm::com::x::A::B>>>".toList) :=
  codegen_type_exact false (.arr (.arr (.cls "com/x/A$B".toList))) (by decide) "(I".toList "J)V".toList

/-- C50. An array of `void`, which no type is, becomes `void` in the fake-jni syntax and an array in the other. -/
theorem codegen_void_array (pre post : Str) :
    parseJNIType true (pre ++ "[V".toList ++ post) pre.length = .ok (pre.length + 1, "void".toList) ∧
    parseJNIType false (pre ++ "[V".toList ++ post) pre.length =
      .ok (pre.length + 1, "std::shared_ptr<jnivm::Array<void>>".toList) := by
  have e : pre ++ "[V".toList ++ post = pre ++ '[' :: 'V' :: post := by simp
  have h0 : chAt (pre ++ '[' :: 'V' :: post) pre.length = .ok '[' := chAt_append pre '[' _
  have h1 : chAt (pre ++ '[' :: 'V' :: post) (pre.length + 1) = .ok 'V' := by
    have := chAt_append (pre ++ ['[']) 'V' post
    simpa using this
  rw [e]
  constructor
  · rw [parseJNIType_at true h0, if_pos rfl, parseJNIType_at true h1]
    simp only [Char.reduceEq, if_false, Res.bind_ok, Bool.not_true, Bool.false_eq_true, Nat.add_sub_cancel_left, if_true, h1]
    rfl
  · rw [parseJNIType_at false h0, if_pos rfl, parseJNIType_at false h1]
    rfl

example : parseJNIType true "(I[V)V".toList 2 = .ok (3, "void".toList) := (codegen_void_array "(I".toList ")V".toList).1

/-- C50. A well-formed signature yields the types of all its parameters, in order, and of its result. -/
theorem codegen_signature (fake : Bool) (ts : List Ty) (ret : Option Ty) (hp : ∀ t ∈ ts, t.Valid)
    (hr : ∀ t, ret = some t → t.Valid) :
    scanSig fake (renderSig ts ret) = .ok (ts.map (cppType fake), cppRet fake ret) :=
  scanSig_render fake ts ret hp hr

example : scanSig true "([ILjava/lang/String;[[ZD)V".toList =
    .ok (["std::shared_ptr<FakeJni::JIntArray>".toList, "std::shared_ptr<FakeJni::JString>".toList,
      "std::shared_ptr<FakeJni::JArray<FakeJni::JBooleanArray>>".toList, "FakeJni::JDouble".toList], "void".toList) :=
  codegen_signature true [.arr (.prim .int), .cls "java/lang/String".toList, .arr (.arr (.prim .boolean)),
    .prim .double] none (by decide) (by simp)

/-- C50. Any signature is read to its end, unless it ends inside an array type or the name of a class;
then the generator reads past its end. -/
theorem codegen_signature_cut (fake : Bool) (sig : Str) :
    (cutOff .outside sig = true → scanSig fake sig = .ub .outOfBounds) ∧
    (cutOff .outside sig = false → ∃ r, scanSig fake sig = .ok r) := scanSig_cut fake sig

example : scanSig false "([".toList = .ub .outOfBounds ∧ scanSig false "(Lcom/x/A".toList = .ub .outOfBounds ∧
    ∃ r, scanSig false "(;x)[Lcom/x/A;".toList = .ok r :=
  ⟨(codegen_signature_cut _ _).1 (by decide), (codegen_signature_cut _ _).1 (by decide),
    (codegen_signature_cut _ _).2 (by decide)⟩

/-! ### Different types -/

/-- No character of C++ syntax and no `$`. -/
def CleanName (n : Str) : Prop := ∀ c ∈ n, c ≠ ':' ∧ c ≠ '<' ∧ c ≠ '>' ∧ c ≠ '$'

theorem cppName_injective : ∀ {n n' : Str}, CleanName n → CleanName n' → cppName n = cppName n' → n = n' := by
  intro n
  induction n with
  | nil =>
    intro n' _ _ h
    cases n' with
    | nil => rfl
    | cons c t =>
      simp only [cppName] at h
      split at h <;> simp at h
  | cons c t ih =>
    intro n' hn hn' h
    cases n' with
    | nil =>
      simp only [cppName] at h
      split at h <;> simp at h
    | cons c' t' =>
      have h1 := hn c (by simp)
      have h2 := hn' c' (by simp)
      have key : t = t' → c = c' → c :: t = c' :: t' := by rintro rfl rfl; rfl
      simp only [cppName, h1.2.2.2, h2.2.2.2, or_false] at h
      by_cases e1 : c = '/'
      · by_cases e2 : c' = '/'
        · simp only [if_pos e1, if_pos e2] at h
          exact key (ih (fun x hx => hn x (by simp [hx])) (fun x hx => hn' x (by simp [hx]))
            (List.append_cancel_left h)) (by rw [e1, e2])
        · simp only [if_pos e1, if_neg e2] at h
          have : ':' = c' := (List.cons.inj h).1
          exact absurd this.symm h2.1
      · by_cases e2 : c' = '/'
        · simp only [if_neg e1, if_pos e2] at h
          have : c = ':' := (List.cons.inj h).1
          exact absurd this h1.1
        · simp only [if_neg e1, if_neg e2] at h
          have h := List.cons.inj h
          exact key (ih (fun x hx => hn x (by simp [hx])) (fun x hx => hn' x (by simp [hx])) h.2) h.1

/-- All class names in a type are clean. -/
def CleanType : Ty → Prop
  | .prim _ => True
  | .cls n => CleanName n
  | .arr t => CleanType t

theorem cppName_no_angle {n : Str} (h : CleanName n) : '<' ∉ cppName n := by
  induction n with
  | nil => simp [cppName]
  | cons c t ih =>
    unfold cppName
    rw [List.mem_append, not_or]
    refine ⟨?_, ih fun x hx => h x (by simp [hx])⟩
    have := (h c (by simp)).2.1
    split
    · decide
    · simp [Ne.symm this]

theorem cppBare_arr (t : Ty) : cppBare false (.arr t) = "jnivm::Array<".toList ++ cppBare false t ++ ">".toList := by
  cases t <;> rfl

theorem cppPrim_no_colon (p : Prim) : ':' ∉ cppPrim false p := by cases p <;> decide

theorem cppBare_injective : ∀ {t t' : Ty}, CleanType t → CleanType t' → cppBare false t = cppBare false t' → t = t' := by
  have hj : ':' ∈ "jnivm::".toList := by decide
  have ha : ':' ∈ "jnivm::Array<".toList := by decide
  intro t
  induction t with
  | prim p =>
    intro t' _ _ h
    have hp := cppPrim_no_colon p
    change cppPrim false p = _ at h
    rw [h] at hp
    cases t' with
    | prim p' => revert h; cases p <;> cases p' <;> decide
    | cls n => exact absurd (List.mem_append_left _ hj) hp
    | arr u => rw [cppBare_arr] at hp; exact absurd (List.mem_append_left _ (List.mem_append_left _ ha)) hp
  | cls n =>
    intro t' hn hn' h
    cases t' with
    | prim p =>
      have hp := cppPrim_no_colon p
      change _ = cppPrim false p at h
      rw [← h] at hp
      exact absurd (List.mem_append_left _ hj) hp
    | cls n' =>
      have h : "jnivm::".toList ++ cppName n = "jnivm::".toList ++ cppName n' := h
      rw [cppName_injective hn hn' (List.append_cancel_left h)]
    | arr u =>
      have h1 : '<' ∉ cppBare false (.cls n) := by
        change '<' ∉ "jnivm::".toList ++ cppName n
        rw [List.mem_append, not_or]
        exact ⟨by decide, cppName_no_angle hn⟩
      rw [h, cppBare_arr] at h1
      exact absurd (List.mem_append_left _ (List.mem_append_left _ (by decide))) h1
  | arr u ih =>
    intro t' hn hn' h
    cases t' with
    | prim p =>
      have hp := cppPrim_no_colon p
      change _ = cppPrim false p at h
      rw [← h, cppBare_arr] at hp
      exact absurd (List.mem_append_left _ (List.mem_append_left _ ha)) hp
    | cls n =>
      have h1 : '<' ∉ cppBare false (.cls n) := by
        change '<' ∉ "jnivm::".toList ++ cppName n
        rw [List.mem_append, not_or]
        exact ⟨by decide, cppName_no_angle hn'⟩
      rw [← h, cppBare_arr] at h1
      exact absurd (List.mem_append_left _ (List.mem_append_left _ (by decide))) h1
    | arr u' =>
      rw [cppBare_arr, cppBare_arr] at h
      exact congrArg Ty.arr (ih hn hn' (List.append_cancel_left (List.append_cancel_right h)))

/-- C50. Different types have different C++ types, so different signatures stay different.
Not proved: the fake-jni syntax, and class names that contain `$` or characters of C++ syntax; for `$` it is
false, see `codegen_types_clash`. -/
theorem codegen_types_distinct_partial {t t' : Ty} (h : CleanType t) (h' : CleanType t')
    (e : cppType false t = cppType false t') : t = t' := by
  have hs : ':' ∈ "std::shared_ptr<".toList := by decide
  have key : ∀ t : Ty, (∃ p, t = .prim p) ∨
      cppType false t = "std::shared_ptr<".toList ++ cppBare false t ++ ">".toList := by
    intro t
    cases t with
    | prim p => exact .inl ⟨p, rfl⟩
    | cls n => exact .inr rfl
    | arr u => exact .inr rfl
  rcases key t with ⟨p, rfl⟩ | k
  · have hp := cppPrim_no_colon p
    rcases key t' with ⟨p', rfl⟩ | k'
    · exact cppBare_injective h h' e
    · change cppPrim false p = _ at e
      rw [e, k'] at hp
      exact absurd (List.mem_append_left _ (List.mem_append_left _ hs)) hp
  · rcases key t' with ⟨p', rfl⟩ | k'
    · have hp := cppPrim_no_colon p'
      change _ = cppPrim false p' at e
      rw [← e, k] at hp
      exact absurd (List.mem_append_left _ (List.mem_append_left _ hs)) hp
    · rw [k, k'] at e
      exact cppBare_injective h h' (List.append_cancel_left (List.append_cancel_right e))

example : cppType false (.arr (.cls "a/b/C".toList)) ≠ cppType false (.arr (.arr (.cls "a/b/C".toList))) := by
  have hc : CleanName "a/b/C".toList := by unfold CleanName; decide
  intro h
  have := codegen_types_distinct_partial (t := .arr (.cls "a/b/C".toList)) (t' := .arr (.arr (.cls "a/b/C".toList)))
    hc hc h
  cases this

/-- Different classes can have the same C++ type or be declared in the same scope, and a class with an empty
package is declared in another scope than its type says. -/
theorem codegen_types_clash :
    cppType false (.cls "a/b".toList) = cppType false (.cls "a$b".toList) ∧
    cppScope "a/b".toList = cppScope "a$b".toList ∧ cppScope "a//b".toList = cppScope "a/b".toList ∧
    cppType false (.cls "a//b".toList) ≠ "std::shared_ptr<".toList ++ cppScope "a//b".toList ++ ">".toList := by
  decide +kernel

/-! ### Methods -/

theorem perParam_first (fake : Bool) (f : Nat → Str → Str) (ps : List Str) :
    perParam (fun i p => (if i ≠ 0 || !fake then ", ".toList else []) ++ f i p) ps =
      if fake then commas (ps.mapIdx f) else ((ps.mapIdx f).map (", ".toList ++ ·)).flatten := by
  cases fake with
  | false =>
    simp only [Bool.not_false, Bool.or_true, if_true, Bool.false_eq_true, if_false]
    unfold perParam
    congr 1
    apply List.ext_getElem?
    intro i
    simp only [List.getElem?_mapIdx, List.getElem?_map, Option.map_map, Function.comp_def]
  | true =>
    cases ps with
    | nil => rfl
    | cons p ps =>
      rw [perParam_cons]
      simp only [if_true, List.mapIdx_cons, commas_cons]
      simp only [ne_eq, Nat.add_one_ne_zero, not_false_eq_true, decide_true, Bool.true_or, if_true,
        not_true_eq_false, decide_false, Bool.not_true, Bool.or_self, Bool.false_eq_true, if_false, List.nil_append]
      congr 1
      unfold perParam
      congr 1
      apply List.ext_getElem?
      intro i
      simp only [List.getElem?_mapIdx, List.getElem?_map, Option.map_map, Function.comp_def]

/-- The parameters in front, then the others. -/
theorem commas_implicit (fake static : Bool) (env : Str) (l : List Str) :
    commas (implicit fake static env ++ l) =
      (if !fake then env ++ (if static then ", jnivm::Class* cl".toList else []) else []) ++
      if fake then commas l else (l.map (", ".toList ++ ·)).flatten := by
  cases fake with
  | true => rfl
  | false =>
    cases static with
    | true =>
      simp only [implicit, Bool.not_false, if_true, Bool.false_eq_true, if_false]
      rw [List.cons_append, commas_cons, List.cons_append, List.map_cons, List.flatten_cons, List.nil_append,
        show ", jnivm::Class* cl".toList = ", ".toList ++ "jnivm::Class* cl".toList by decide +kernel]
      simp only [List.append_assoc]
    | false =>
      simp only [implicit, Bool.not_false, if_true, Bool.false_eq_true, if_false]
      rw [List.cons_append, commas_cons, List.nil_append, List.append_nil]

theorem mapIdx_named (fake : Bool) (ts : List Ty) (k : Nat) :
    (ts.map (cppType fake)).mapIdx (fun i p => p ++ " arg".toList ++ (Nat.repr (i + k)).toList) =
      namedFrom fake k ts := by
  induction ts generalizing k with
  | nil => rfl
  | cons t ts ih =>
    rw [List.map_cons, List.mapIdx_cons, namedFrom, ← ih (k + 1)]
    refine congr (congrArg List.cons ?_) (congrArg (fun f => List.mapIdx f _) ?_)
    · have e : " arg".toList = " ".toList ++ "arg".toList := by decide +kernel
      simp only [argName, e, Nat.zero_add, List.append_assoc]
    · funext i p
      rw [show i + 1 + k = i + (k + 1) by omega]

/-- `m` is not implemented by the application and has a well-formed signature. -/
structure Typed (m : MethodRec) (ts : List Ty) (ret : Option Ty) : Prop where
  native : m.native = none
  params : ∀ t ∈ ts, t.Valid
  result : ∀ t, ret = some t → t.Valid
  signature : m.signature = renderSig ts ret

theorem Typed.scan {m : MethodRec} {ts : List Ty} {ret : Option Ty} (h : Typed m ts ret) (fake : Bool) :
    scanSig fake m.signature = .ok (ts.map (cppType fake), cppRet fake ret) := by
  rw [h.signature]
  exact scanSig_render fake ts ret h.params h.result

theorem Typed.notNative {m : MethodRec} {ts : List Ty} {ret : Option Ty} (h : Typed m ts ret) :
    m.native.isSome = false := by rw [h.native]; rfl

theorem isInit_iff (name : Str) : (isInit name = true) ↔ name = "<init>".toList := by
  unfold isInit
  exact beq_iff_eq

/-- C50. The declaration of a method has all parameters of the signature, in order. -/
theorem codegen_declaration (fake : Bool) {m : MethodRec} {ts : List Ty} {ret : Option Ty} (h : Typed m ts ret)
    (cname : Str) : methodHeader fake m cname = .ok (declaration fake m.static m.name cname ts ret) := by
  unfold methodHeader declaration
  rw [h.notNative, h.scan fake]
  simp only [Bool.false_eq_true, if_false, Res.bind_ok, isInit_iff]
  refine congrArg Res.ok ?_
  rw [perParam_first fake (fun _ p => p)]
  have e : (ts.map (cppType fake)).mapIdx (fun _ p => p) = ts.map (cppType fake) := by
    apply List.ext_getElem?
    intro i
    simp only [List.getElem?_mapIdx, Option.map_id']
  rw [e]
  rw [commas_implicit]
  simp only [List.append_assoc]

/-- C50. The definition of a method has all parameters of the signature, in order, with distinct names. -/
theorem codegen_definition (fake : Bool) {m : MethodRec} {ts : List Ty} {ret : Option Ty} (h : Typed m ts ret)
    (scope cname : Str) :
    methodStubs fake m scope cname = .ok (definition fake m.static m.name scope cname ts ret) := by
  unfold methodStubs definition
  rw [h.notNative, h.scan fake]
  simp only [Bool.false_eq_true, if_false, Res.bind_ok, isInit_iff]
  have e1 : (fun i p => (if i ≠ 0 || !fake then ", ".toList else []) ++ p ++ " arg".toList ++ (Nat.repr i).toList) =
      (fun (i : Nat) (p : Str) => (if i ≠ 0 || !fake then ", ".toList else []) ++
        (p ++ " arg".toList ++ (Nat.repr i).toList)) := by
    funext i p; simp
  rw [e1, perParam_first fake (fun i p => p ++ " arg".toList ++ (Nat.repr i).toList)]
  have e2 := mapIdx_named fake ts 0
  simp only [Nat.add_zero] at e2
  rw [e2]
  have e3 : (cppRet fake ret ≠ "void".toList && !isInit m.name) = true ↔
      ¬ (m.name = "<init>".toList ∨ ret = none) := by
    have h1 : cppRet fake ret = "void".toList ↔ ret = none := by
      cases ret with
      | none => simp [cppRet]
      | some t =>
        simp only [cppRet, reduceCtorEq, iff_false]
        intro hc
        cases t with
        | prim p => revert hc; cases fake <;> cases p <;> decide
        | cls n =>
          have := congrArg List.head? hc
          simp [cppType] at this
        | arr n =>
          have := congrArg List.head? hc
          simp [cppType] at this
    rw [Bool.and_eq_true, decide_eq_true_iff, ne_eq, h1, Bool.not_eq_true', ← Bool.not_eq_true, isInit_iff]
    constructor
    · rintro ⟨a, b⟩ (c | c)
      · exact b c
      · exact a c
    · intro h; exact ⟨fun c => h (.inr c), fun c => h (.inl c)⟩
  have e4 : (if cppRet fake ret ≠ "void".toList && !isInit m.name then "return {};".toList else []) =
      if m.name = "<init>".toList ∨ ret = none then [] else "return {};".toList := by
    by_cases hc : m.name = "<init>".toList ∨ ret = none
    · rw [if_pos hc, if_neg (fun h => e3.1 h hc)]
    · rw [if_neg hc, if_pos (e3.2 hc)]
  rw [e4]
  refine congrArg Res.ok ?_
  rw [commas_implicit]
  simp only [List.append_assoc]

/-- C50. The binding of a constructor takes all parameters and forwards them in order. -/
theorem codegen_constructor_binding {m : MethodRec} {ts : List Ty} {ret : Option Ty} (h : Typed m ts ret)
    (hi : m.name = "<init>".toList) (scope cname : Str) :
    methodBinding false m scope cname = .ok (constructorBinding scope ts) := by
  unfold methodBinding constructorBinding
  rw [h.notNative, h.scan false]
  simp only [Bool.false_eq_true, if_false, Res.bind_ok, Bool.not_false, if_true, if_pos ((isInit_iff _).2 hi)]
  have e1 := perParam_named false ts 0
  have e2 := perParam_names (ts.map (cppType false)) 0
  simp only [Nat.add_zero, List.length_map] at e1 e2
  rw [e1, e2, hi, commas_cons, commas_cons]
  simp

/-- C50. The binding of any other method names the member function and the method. -/
theorem codegen_method_binding {m : MethodRec} {ts : List Ty} {ret : Option Ty} (h : Typed m ts ret)
    (hi : m.name ≠ "<init>".toList) (scope cname : Str) :
    methodBinding false m scope cname = .ok (methodHook scope m.name) := by
  unfold methodBinding methodHook
  rw [h.notNative, h.scan false]
  simp only [Bool.false_eq_true, if_false, Res.bind_ok, Bool.not_false, if_true,
    if_neg (fun h => hi ((isInit_iff _).1 h))]
  simp

/-- C50. The bindings in the fake-jni syntax. -/
theorem codegen_fake_binding {m : MethodRec} {ts : List Ty} {ret : Option Ty} (h : Typed m ts ret)
    (scope cname : Str) :
    methodBinding true m scope cname = .ok (if m.name = "<init>".toList then fakeConstructor cname ts
      else fakeFunction m.static cname m.name) := by
  unfold methodBinding fakeConstructor fakeFunction
  rw [h.notNative, h.scan true]
  simp only [Bool.false_eq_true, if_false, Res.bind_ok, Bool.not_true, isInit_iff]
  refine congrArg Res.ok ?_
  by_cases hi : m.name = "<init>".toList
  · rw [if_pos hi, if_pos hi, perParam_plain (", ".toList ++ ·), commas_cons]
    simp
  · rw [if_neg hi, if_neg hi]

/-- C50. Methods that the application implements are not dumped. -/
theorem codegen_native_skipped (fake : Bool) {m : MethodRec} (h : m.native ≠ none) (scope cname : Str) :
    methodHeader fake m cname = .ok [] ∧ methodStubs fake m scope cname = .ok [] ∧
    methodBinding fake m scope cname = .ok [] := by
  have : m.native.isSome = true := by
    cases e : m.native with
    | none => exact absurd e h
    | some _ => rfl
  unfold methodHeader methodStubs methodBinding
  simp [this]

example : ∃ m : MethodRec, Typed m [.prim .int, .arr (.cls "a/B".toList)] (some (.prim .long)) ∧
    methodHeader false m "A".toList = .ok
      "jlong f(jnivm::ENV* env, jint, std::shared_ptr<jnivm::Array<jnivm::a::B>>);".toList ∧
    methodStubs false m "jnivm::A".toList "A".toList = .ok
      ("jlong jnivm::A::f(jnivm::ENV *, jint arg0, std::shared_ptr<jnivm::Array<jnivm::a::B>> arg1) {\n" ++
      "    return {};\n}\n\n").toList ∧
    methodBinding false m "jnivm::A".toList "A".toList = .ok "c->Hook(env, \"f\", &jnivm::A::f);\n".toList := by
  have h : Typed ⟨1, "f".toList, "(I[La/B;)J".toList, false, none, none⟩ [.prim .int, .arr (.cls "a/B".toList)]
      (some (.prim .long)) := ⟨rfl, by decide, by intro t e; cases e; decide, by decide⟩
  refine ⟨_, h, ?_, ?_, ?_⟩
  · rw [codegen_declaration false h]; decide +kernel
  · rw [codegen_definition false h]; decide +kernel
  · rw [codegen_method_binding h (by decide)]; decide +kernel

example : ∃ m : MethodRec, Typed m [.prim .int, .prim .double] (some (.cls "A".toList)) ∧
    m.name = "<init>".toList ∧
    methodBinding false m "jnivm::A".toList "A".toList = .ok
      ("c->Hook(env, \"<init>\", [](jnivm::ENV *env, jnivm::Class* cl, jint arg0, jdouble arg1) {   " ++
      "return std::make_shared<jnivm::A>(env, cl, arg0, arg1);});\n").toList ∧
    methodBinding true m "jnivm::A".toList "A".toList = .ok
      "{FakeJni::Constructor<A, FakeJni::JInt, FakeJni::JDouble>{}},\n".toList := by
  have h : Typed ⟨1, "<init>".toList, "(ID)LA;".toList, true, none, none⟩ [.prim .int, .prim .double]
      (some (.cls "A".toList)) := ⟨rfl, by decide, by intro t e; cases e; decide, by decide⟩
  refine ⟨_, h, rfl, ?_, ?_⟩
  · rw [codegen_constructor_binding h rfl]; decide +kernel
  · rw [codegen_fake_binding h]; decide +kernel

/-- The names of the parameters of a definition are distinct. -/
theorem codegen_names_distinct (k n : Nat) : (namesFrom k n).Nodup := by
  have hlt : ∀ n k x, x ∈ namesFrom k n → ∃ i, k ≤ i ∧ x = argName i := by
    intro n
    induction n with
    | zero => intro k x h; simp [namesFrom] at h
    | succ n ih =>
      intro k x h
      rw [namesFrom, List.mem_cons] at h
      rcases h with h | h
      · exact ⟨k, Nat.le_refl k, h⟩
      · obtain ⟨i, hi, e⟩ := ih _ _ h
        exact ⟨i, by omega, e⟩
  have hinj : ∀ i j, argName i = argName j → i = j := by
    intro i j h
    unfold argName at h
    have h := List.append_cancel_left h
    rw [Nat.toList_repr, Nat.toList_repr] at h
    have := congrArg (Nat.ofDigitChars 10 · 0) h
    simpa only [Nat.ofDigitChars_ten_toDigits] using this
  induction n generalizing k with
  | zero => simp [namesFrom]
  | succ n ih =>
    rw [namesFrom, List.nodup_cons]
    refine ⟨fun h => ?_, ih _⟩
    obtain ⟨i, hi, e⟩ := hlt _ _ _ h
    have := hinj _ _ e
    omega

/-- Overloads of a method get the same binding, which names none of them: the generated C++ is ambiguous. -/
theorem codegen_overloads_ambiguous {m m' : MethodRec} {ts ts' : List Ty} {ret ret' : Option Ty}
    (h : Typed m ts ret) (h' : Typed m' ts' ret') (hn : m'.name = m.name) (hi : m.name ≠ "<init>".toList)
    (scope cname : Str) : methodBinding false m scope cname = methodBinding false m' scope cname := by
  rw [codegen_method_binding h hi, codegen_method_binding h' (by rw [hn]; exact hi), hn]

/-! ### Fields -/

/-- C50. A field of well-formed type is declared, defined (if static) and bound with its type. -/
theorem codegen_field (fake : Bool) {f : FieldRec} {t : Ty} (hv : t.Valid) (ht : f.type = t.render)
    (scope cname : Str) :
    fieldHeader fake f = .ok (fieldDeclaration fake f.static f.name t) ∧
    fieldStubs fake f scope = .ok (fieldDefinition fake f.static scope f.name t) ∧
    fieldBinding fake f scope cname = if fake then fakeField f.static cname f.name else methodHook scope f.name := by
  have hp := parse_render fake t hv [] []
  simp only [List.nil_append, List.append_nil, List.length_nil, Nat.zero_add] at hp
  unfold fieldHeader fieldStubs fieldBinding methodHook fakeField fieldDeclaration fieldDefinition
  rw [ht, hp]
  refine ⟨rfl, ?_, ?_⟩
  · cases f.static <;> rfl
  · cases fake <;> rfl

/-- The generator never reads past the end of the type of a field. -/
theorem codegen_field_total (fake : Bool) (f : FieldRec) (scope : Str) :
    (∃ s, fieldHeader fake f = .ok s) ∧ ∃ s, fieldStubs fake f scope = .ok s :=
  ⟨(fieldHeader_outcome fake f).1 trivial, (fieldStubs_outcome fake f scope).1 trivial⟩

example : ∃ f : FieldRec, f.type = (Ty.arr (.prim .byte)).render ∧
    fieldHeader true f = .ok "static std::shared_ptr<FakeJni::JByteArray> x;".toList ∧
    fieldStubs true f "jnivm::A".toList = .ok "std::shared_ptr<FakeJni::JByteArray> jnivm::A::x = {};\n\n".toList := by
  refine ⟨⟨1, "x".toList, "[B".toList, true, none, none⟩, by decide, ?_⟩
  have := codegen_field true (f := ⟨1, "x".toList, "[B".toList, true, none, none⟩) (t := .arr (.prim .byte))
    (by decide) (by decide) "jnivm::A".toList "A".toList
  rw [this.1, this.2.1]
  decide +kernel

end Jnivm
