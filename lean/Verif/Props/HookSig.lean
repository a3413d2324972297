import Verif.Lemmas.HookSig
import Verif.Props.Calls
import Verif.Props.Hooks
/-!
Properties of hooked C++ functions (C49).
-/
namespace Jnivm
open Spec

/-! ### Sample -/

/-- `Object` is type 0, `Class` is type 1, `ENV` type 100; type 7 declares the name "c/D". -/
def sampleInfo : CppInfo where
  id := fun c => match c with | .cls t => t | _ => 1000
  declared := fun c => if c = .cls 7 then some "c/D".toList else none
  isObject := fun c => match c with | .prim _ => false | .arr _ => true | .cls t => decide (t < 100)
  object := 0
  clazz := 1
  nulls := fun _ => false

/-- A VM in which type 0 is bound to "java/lang/Object" and type 5 to "a/B". -/
theorem sample_types : ∃ w o b, MemReachable w ∧ w.IsClass "java/lang/Object".toList o ∧ w.types 0 = some o ∧
    w.IsClass "a/B".toList b ∧ w.types 5 = some b ∧ (∀ u, u ≠ 0 → u ≠ 5 → w.types u = none) ∧
    (∀ d, (w.mem d).methods = [] ∧ (w.mem d).fields = []) ∧ (w.mem b).bases = some [some 9] := by
  obtain ⟨w1, o, r1, i1, t1, m1, k1, _⟩ := bindType_spec initial_memInv 0 "java/lang/Object".toList [none]
  have hr1 : MemReachable w1 := MemReachable.step ⟨[], rfl⟩ r1
  obtain ⟨w2, b, r2, i2, t2, m2, k2, _⟩ := bindType_spec hr1.inv 5 "a/B".toList [some 9]
  refine ⟨w2, o, b, hr1.step r2, k2 _ _ i1, ?_, i2, ?_, ?_, ?_, ?_⟩
  · rw [t2, if_neg (by decide), t1, if_pos rfl]
  · rw [t2, if_pos rfl]
  · intro u h0 h5
    rw [t2, if_neg h5, t1, if_neg h0]; rfl
  · intro d
    rw [m2]
    by_cases hd : d = b
    · subst hd
      rw [if_pos rfl, m1]
      by_cases ho : d = o
      · subst ho; rw [if_pos rfl]; exact ⟨rfl, rfl⟩
      · rw [if_neg ho]; exact ⟨rfl, rfl⟩
    · rw [if_neg hd, m1]
      by_cases ho : d = o
      · subst ho; rw [if_pos rfl]; exact ⟨rfl, rfl⟩
      · rw [if_neg ho]; exact ⟨rfl, rfl⟩
  · rw [m2, if_pos rfl]

/-- `jint f(ENV*, B*, std::shared_ptr<Array<Array<B>>>, jlong, D&)` -/
def sampleFn : CppFn :=
  ⟨.plain, .data .value (.prim .int), [.env 100, .data .pointer (.cls 5),
    .data .shared (.arr (.arr (.cls 5))), .data .value (.prim .long), .data .ref (.cls 7)]⟩

def sampleTys : List Ty :=
  [.cls "a/B".toList, .arr (.arr (.cls "a/B".toList)), .prim .long, .cls "c/D".toList]

theorem sample_javaTypes {w : World} {b : Nat} (hb : w.IsClass "a/B".toList b) (h5 : w.types 5 = some b)
    (h7 : w.types 7 = none) : JavaTypes sampleInfo w (sampleFn.params.drop 1) sampleTys := by
  have n5 : JavaName sampleInfo w (.cls 5) "a/B".toList := .inl ⟨b, h5, hb⟩
  have n7 : JavaName sampleInfo w (.cls 7) "c/D".toList := .inr ⟨h7, rfl, rfl⟩
  exact .cons (.object n5) (.cons (.array (.arr (.cls n5))) (.cons (.value .prim) (.cons (.object n7) .nil)))

/-! ### Signatures -/

/-- C49. The signature of a function whose parameters (behind the leading ones) denote the Java types
`tys` and whose result denotes `ret` is the JNI signature `(tys)ret`.  Making it creates exactly the
classes of the arrays that occur in it. -/
theorem hook_signature {ci : CppInfo} {w : World} (hr : MemReachable w) (f : CppFn) (lead : Nat)
    {tys : List Ty} {ret : Option Ty} (hp : JavaTypes ci w (f.params.drop lead) tys) (hret : JavaRet ci w f.ret ret) :
    ∃ w', f.invokeSig ci w lead = .ok (w', renderSig tys ret) ∧ MemReachable w' ∧
      OnlyClasses w w' (tys.flatMap arrayNames ++ retNames ret) := by
  obtain ⟨w1, h1, hr1, g1⟩ := unfold_sig hr hp
  obtain ⟨w2, h2, hr2, g2⟩ := ret_sig hr1 (JavaRet.mono g1.keeps hret)
  exact ⟨w2, by simp only [CppFn.invokeSig, h1, Res.bind_ok, h2]; rfl, hr2, g1.trans g2⟩

example : ∃ w, MemReachable w ∧ JavaTypes sampleInfo w (sampleFn.params.drop 1) sampleTys ∧
    JavaRet sampleInfo w sampleFn.ret (some (.prim .int)) ∧ renderSig sampleTys (some (.prim .int)) =
      "(La/B;[[La/B;JLc/D;)I".toList ∧
    sampleTys.flatMap arrayNames = ["[[La/B;".toList, "[La/B;".toList] := by
  obtain ⟨w, o, b, hr, _, _, hb, h5, hu, _⟩ := sample_types
  exact ⟨w, hr, sample_javaTypes hb h5 (hu 7 (by decide) (by decide)), .some (.value .prim), by decide, by decide⟩

/-- C49, converse. If every type is one the signature code knows, a signature is made only if every type
denotes a Java type, and it is the signature of those types. -/
theorem hook_signature_only {ci : CppInfo} {w w' : World} (hr : MemReachable w) (f : CppFn) (lead : Nat)
    (hs : ∀ p ∈ f.params.drop lead, Supported p) (hsr : f.ret = .void ∨ Supported f.ret) {s : Str}
    (h : f.invokeSig ci w lead = .ok (w', s)) :
    ∃ tys ret, JavaTypes ci w (f.params.drop lead) tys ∧ JavaRet ci w f.ret ret ∧ s = renderSig tys ret := by
  have h0 := h
  unfold CppFn.invokeSig at h
  obtain ⟨⟨w1, s1⟩, h1, h2⟩ := Res.bind_eq_ok.1 h
  obtain ⟨⟨w2, s2⟩, h3, _⟩ := Res.bind_eq_ok.1 h2
  obtain ⟨tys, ht⟩ := unfold_sig_ok hr hs h1
  obtain ⟨w1', e1, hr1, g1⟩ := unfold_sig hr ht
  have e : (w1, s1) = (w1', _) := Res.ok.inj (h1.symm.trans e1)
  cases e
  have hret : ∃ ret, JavaRet ci w f.ret ret := by
    rcases hsr with hv | hv
    · exact ⟨none, by rw [hv]; exact .void⟩
    · obtain ⟨t, ht⟩ := ty_sig_ok hr1 hv h3
      exact ⟨some t, .some (JavaType.back hr hr1 g1 ht)⟩
  obtain ⟨ret, hret⟩ := hret
  obtain ⟨w3, e3, _, _⟩ := hook_signature hr f lead ht hret
  have e : (w', s) = (w3, _) := Res.ok.inj (h0.symm.trans e3)
  cases e
  exact ⟨tys, ret, ht, hret, rfl⟩

example : (∀ p ∈ sampleFn.params.drop 1, Supported p) ∧ Supported sampleFn.ret := by
  refine ⟨?_, trivial⟩
  intro p hp
  simp only [sampleFn, List.drop_succ_cons, List.drop_zero, List.mem_cons, List.not_mem_nil, or_false] at hp
  rcases hp with rfl | rfl | rfl | rfl <;> exact trivial

/-- C49. Two functions get the same signature exactly if their Java types agree: overloads that differ
in a parameter or in the result never replace each other. -/
theorem hook_overloads_apart {tys us : List Ty} {ret uret : Option Ty} (ht : ∀ t ∈ tys, t.Valid)
    (hu : ∀ t ∈ us, t.Valid) (hr : ∀ t, ret = some t → t.Valid) (hur : ∀ t, uret = some t → t.Valid) :
    renderSig tys ret = renderSig us uret ↔ tys = us ∧ ret = uret := by
  constructor
  · intro h
    obtain ⟨h1, h2⟩ := params_cancel ht hu (List.cons.inj h).2
    refine ⟨h1, ?_⟩
    cases ret with
    | none =>
      cases uret with
      | none => rfl
      | some u =>
        cases u with
        | prim p => cases p <;> exact absurd h2 (by decide)
        | cls n => exact absurd (List.cons.inj h2).1 (by decide)
        | arr n => exact absurd (List.cons.inj h2).1 (by decide)
    | some t =>
      cases uret with
      | none =>
        cases t with
        | prim p => cases p <;> exact absurd h2 (by decide)
        | cls n => exact absurd (List.cons.inj h2).1 (by decide)
        | arr n => exact absurd (List.cons.inj h2).1 (by decide)
      | some u =>
        have h3 : t.render ++ [] = u.render ++ [] := by rw [List.append_nil, List.append_nil]; exact h2
        rw [(render_cancel (hr t rfl) (hur u rfl) h3).1]
  · rintro ⟨rfl, rfl⟩; rfl

example : (∀ t ∈ sampleTys, t.Valid) := by decide

/-- C49 fails for types without a Java name: a signature with such a type after good ones is not made,
the hook throws.  Such types are the environment in another place than the first, primitive types
passed by reference or pointer and arrays passed otherwise than by value or shared pointer. -/
theorem hook_nameless_throws {ci : CppInfo} {w : World} (hr : MemReachable w) (f : CppFn) (lead : Nat)
    {good rest : List CppTy} {p : CppTy} {tys : List Ty} (hd : f.params.drop lead = good ++ p :: rest)
    (hg : JavaTypes ci w good tys) (hn : Nameless ci w p) : f.invokeSig ci w lead = .throws .runtimeError := by
  have anon : ∀ {v : World} {c : CppClass}, v.types = w.types → Anonymous ci w c →
      objectSig ci v c = .throws .runtimeError := by
    intro v c e ⟨h1, h2, h3⟩
    simp only [objectSig, e, h1, h2, h3, Bool.false_eq_true, if_false]
  have elem : ∀ {v : World} {c : CppClass}, v.types = w.types → NamelessElem ci w c →
      c.sig ci v = .throws .runtimeError := by
    intro v c e h
    induction h generalizing v with
    | cls h => simp only [CppClass.sig, anon e h]; rfl
    | arr _ ih => simp only [CppClass.sig, ih e]; rfl
  have ty : ∀ {v : World}, v.types = w.types → p.sig ci v = .throws .runtimeError := by
    intro v e
    cases hn with
    | value h => exact elem e h
    | array h => exact elem e (.arr h)
    | handle h => simp only [CppTy.sig, anon e h]; rfl
    | env h => simp only [CppTy.sig, anon e h]; rfl
    | @object b c h1 h2 h3 =>
      have : (objectSig ci v c).bind (fun s => (.ok (v, s) : Res (World × Str))) = .throws .runtimeError := by
        rw [anon e h3]; rfl
      match b, h1, h2 with
      | .pointer, _, _ => exact this
      | .ref, _, _ => exact this
      | .constRef, _, _ => exact this
      | .constShared, _, _ => exact this
      | .shared, _, h2 =>
        match c, h2 rfl, this with
        | .prim _, _, h => exact h
        | .cls _, _, h => exact h
        | .arr e, h, _ => exact absurd rfl (h e)
  have key : ∀ {good : List CppTy} {tys : List Ty} {v : World}, MemReachable v → v.types = w.types →
      JavaTypes ci v good tys → unfoldSig ci v (good ++ p :: rest) = .throws .runtimeError := by
    intro good
    induction good with
    | nil => intro tys v _ e _; simp only [List.nil_append, unfoldSig, ty e]; rfl
    | cons q qs ih =>
      intro tys v hv e h
      cases h with
      | cons h1 h2 =>
        obtain ⟨v1, e1, hv1, g1⟩ := ty_sig hv h1
        simp only [List.cons_append, unfoldSig, e1, Res.bind_ok, ih hv1 (g1.types.trans e) (JavaTypes.mono g1.keeps h2)]
        rfl
  unfold CppFn.invokeSig
  rw [hd, key hr rfl hg]
  rfl

/-- `void g(B*, Array<jint>*)`: an array by pointer. -/
example : ∃ w, MemReachable w ∧ JavaTypes sampleInfo w [.data .pointer (.cls 5)] [.cls "a/B".toList] ∧
    Nameless sampleInfo w (.data .pointer (.arr (.prim .int))) ∧ Nameless sampleInfo w (.env 100) ∧
    Nameless sampleInfo w (.data .constRef (.prim .int)) := by
  obtain ⟨w, o, b, hr, _, _, hb, h5, hu, _⟩ := sample_types
  have h := hu 1000 (by decide) (by decide)
  refine ⟨w, hr, .cons (.object (.inl ⟨b, h5, hb⟩)) .nil, .object (by decide) (by simp) ⟨h, rfl, rfl⟩,
    .env ⟨hu 100 (by decide) (by decide), rfl, rfl⟩, .object (by decide) (by simp) ⟨h, rfl, rfl⟩⟩

/-- C49 fails for a type that is only known as the unregistered base of another class: once the base
classes of that class were asked for, a hook with a parameter of this type dereferences null. -/
theorem hook_unregistered_base_ub : ∃ ci w c t, MemReachable w ∧ (∃ n, w.IsClass n c) ∧
    (∀ u, ci.nulls u = w.touchBases c (fun _ => false) u) ∧ (∃ n, ci.declared (.cls t) = some n) ∧
    ∀ ret, CppFn.invokeSig ci w ⟨.plain, ret, [.data .pointer (.cls t)]⟩ 0 = .ub .nullDeref := by
  obtain ⟨w, o, b, hr, _, _, hb, h5, hu, _, hbase⟩ := sample_types
  refine ⟨{ sampleInfo with nulls := w.touchBases b (fun _ => false),
                            declared := fun _ => some "x/Y".toList }, w, b, 9, hr, ⟨_, hb⟩, fun _ => rfl,
    ⟨_, rfl⟩, fun ret => ?_⟩
  have h9 := hu 9 (by decide) (by decide)
  have hn : w.touchBases b (fun _ => false) 9 = true := by
    simp [World.touchBases, hbase, h9]
  have : objectSig { sampleInfo with nulls := (w.touchBases b fun _ => false),
                                     declared := (fun _ => some "x/Y".toList) } w (.cls 9) = .ub .nullDeref := by
    simp only [objectSig, sampleInfo, h9, hn, if_true]
  simp only [CppFn.invokeSig, List.drop_zero, unfoldSig, CppTy.sig, this]
  rfl

/-! ### Arguments -/

theorem leadArgs_leading (ps : List CppTy) : ps.map CppTy.leadArg = leading ps := by
  induction ps with
  | nil => rfl
  | cons p ps ih => cases p <;> simp only [List.map_cons, ih] <;> rfl

/-- C49. Whatever a variadic call passes for the signature of a hooked function, the function receives:
each parameter gets the argument passed in its place, as the member of `jvalue` of its own type. -/
theorem hook_receives (d2f : BitVec 64 → BitVec 32) {ci : CppInfo} {w : World} (f : CppFn) (lead : Nat)
    {tys : List Ty} (ret : Option Ty) (hp : JavaTypes ci w (f.params.drop lead) tys) (hv : ∀ t ∈ tys, t.Valid)
    {args : List CArg} (extra : List CArg) {as : List CppArg} (ha : Receives d2f tys args as) :
    ∃ vals, jvaluesFromValist d2f (renderSig tys ret) (args ++ extra) = .ok (vals, extra) ∧
      f.args lead vals = .ok (leading (f.params.take lead) ++ as) := by
  obtain ⟨vals, h1, h2⟩ := receives_passes hp ha
  exact ⟨vals, varargs_delivered d2f tys ret hv args extra vals h1, by
    simp only [CppFn.args, h2, Res.bind_ok, leadArgs_leading]⟩

example (d2f : BitVec 64 → BitVec 32) : ∃ w, MemReachable w ∧ JavaTypes sampleInfo w (sampleFn.params.drop 1) sampleTys ∧
    (∀ t ∈ sampleTys, t.Valid) ∧
    Receives d2f sampleTys [.obj 16, .obj 32, .long 5, .obj 48] [.val (.l 16), .val (.l 32), .val (.j 5), .val (.l 48)] := by
  obtain ⟨w, o, b, hr, _, _, hb, h5, hu, _⟩ := sample_types
  exact ⟨w, hr, sample_javaTypes hb h5 (hu 7 (by decide) (by decide)), by decide,
    .cons rfl (.cons rfl (.cons rfl (.cons rfl .nil)))⟩

theorem castAll_total : ∀ (ps : List CppTy) (vs : List (BitVec 64)),
    (ps.length ≤ vs.length → ∃ as, castAll ps vs = .ok as) ∧
    (vs.length < ps.length → castAll ps vs = .ub .outOfBounds)
  | [], vs => ⟨fun _ => ⟨[], rfl⟩, fun h => absurd h (by simp)⟩
  | p :: ps, [] => ⟨fun h => absurd h (by simp), fun _ => rfl⟩
  | p :: ps, v :: vs => by
    obtain ⟨h1, h2⟩ := castAll_total ps vs
    constructor
    · intro h
      obtain ⟨as, e⟩ := h1 (by simpa using h)
      exact ⟨.val (p.jniCast v) :: as, by simp only [castAll, e, Res.bind_ok]⟩
    · intro h
      simp only [castAll, h2 (by simpa using h)]
      rfl

/-- C49. The array forms of the calls must bring at least as many values as the function has parameters;
with fewer the wrapper reads beyond them. -/
theorem hook_too_few_values (f : CppFn) (lead : Nat) (values : List (BitVec 64)) :
    (∃ as, f.args lead values = .ok as) ∧ f.params.length - lead ≤ values.length ∨
    f.args lead values = .ub .outOfBounds ∧ values.length < f.params.length - lead := by
  obtain ⟨h1, h2⟩ := castAll_total (f.params.drop lead) values
  rw [List.length_drop] at h1 h2
  by_cases h : f.params.length - lead ≤ values.length
  · obtain ⟨as, e⟩ := h1 h
    exact .inl ⟨⟨(f.params.take lead).map CppTy.leadArg ++ as, by simp only [CppFn.args, e, Res.bind_ok]⟩, h⟩
  · exact .inr ⟨by simp only [CppFn.args, h2 (by omega)]; rfl, by omega⟩

theorem loop_ok (d2f : BitVec 64 → BitVec 32) {sig : Str} {cur : Nat} {args : List CArg} {out : List (BitVec 64)}
    {c : Char} {v : BitVec 64} {rest : List CArg} {next : Nat} (hc : chAt sig cur = .ok c) (h1 : c ≠ ')')
    (h2 : cur ≠ sig.length) (h3 : jvalueStep d2f sig cur c args = .ok (v, rest, next)) :
    jvaluesLoop d2f sig cur args out = jvaluesLoop d2f sig next rest (out ++ [v]) := by
  rw [jvaluesLoop]
  split
  · rename_i h
    rw [hc, Res.ok.injEq] at h
    subst h
    rw [if_neg h1, if_neg h2]
    split
    · rename_i h
      rw [h3, Res.ok.injEq, Prod.mk.injEq, Prod.mk.injEq] at h
      obtain ⟨rfl, rfl, rfl⟩ := h
      rfl
    all_goals (rename_i h; rw [h3] at h; cases h)
  all_goals (rename_i h; rw [hc] at h; cases h)

theorem loop_ub (d2f : BitVec 64 → BitVec 32) {sig : Str} {cur : Nat} {args : List CArg} {out : List (BitVec 64)}
    {c : Char} {u : UB} (hc : chAt sig cur = .ok c) (h1 : c ≠ ')')
    (h2 : cur ≠ sig.length) (h3 : jvalueStep d2f sig cur c args = .ub u) :
    jvaluesLoop d2f sig cur args out = .ub u := by
  rw [jvaluesLoop]
  split
  · rename_i h
    rw [hc, Res.ok.injEq] at h
    subst h
    rw [if_neg h1, if_neg h2]
    split
    · rename_i h; rw [h3] at h; cases h
    · rename_i h; rw [h3] at h; cases h
    · rename_i h; rw [h3] at h; cases h; rfl
    · rename_i h; rw [h3] at h; cases h
  all_goals (rename_i h; rw [hc] at h; cases h)

/-- C49, needed proviso: a `;` in the name of a registered class breaks the signature; the call reads
one argument too many. -/
theorem hook_semicolon_breaks (d2f : BitVec 64 → BitVec 32) : ∃ ci w, MemReachable w ∧
    JavaTypes ci w [.data .pointer (.cls 5)] [.cls "a;I".toList] ∧
    ∀ p, jvaluesFromValist d2f (renderSig [.cls "a;I".toList] none) [.obj p] = .ub .badVaArg := by
  obtain ⟨w1, o, r1, i1, t1, m1, k1, _⟩ := bindType_spec initial_memInv 5 "a;I".toList [none]
  refine ⟨sampleInfo, w1, MemReachable.step ⟨[], rfl⟩ r1, .cons (.object (.inl ⟨o, ?_, i1⟩)) .nil, fun p => ?_⟩
  · rw [t1]; rfl
  · rw [show renderSig [.cls "a;I".toList] none = "(La;I;)V".toList from by decide]
    unfold jvaluesFromValist
    rw [show chAt "(La;I;)V".toList 0 = .ok '(' from rfl]
    simp only [Res.ok_bind]
    rw [if_neg (by decide), loop_ok d2f (c := 'L') (v := p) (rest := []) (next := 4) rfl (by decide) (by decide) rfl,
      loop_ub d2f (c := 'I') (u := .badVaArg) rfl (by decide) (by decide) rfl]

/-- C49. The wrapper returns through the result type that the signature names. -/
theorem hook_result {ci : CppInfo} {w : World} {p : CppTy} {ret : Option Ty} (h : JavaRet ci w p ret) {ty : JType}
    (ht : p.result ci = some ty) : ty = retJType ret := by
  have obj : ∀ {t : Ty}, JavaType ci w p t → (∀ q, p ≠ .data .value (.prim q)) → p ≠ .void → ty = .object := by
    intro t _ h1 h2
    unfold CppTy.result at ht
    split at ht
    all_goals first
      | exact absurd rfl h2
      | exact absurd rfl (h1 _)
      | (cases ht; rfl)
      | (cases ht; done)
      | (split at ht <;> cases ht; rfl)
  cases h with
  | void => cases ht; rfl
  | @some _ t h =>
    cases h with
    | value h' =>
      cases h' with
      | @prim q => cases q <;> cases ht <;> rfl
      | cls h' => exact obj (.value (.cls h')) (by simp) (by simp)
      | arr h' => exact obj (.value (.arr h')) (by simp) (by simp)
    | array h' => exact obj (.array h') (by simp) (by simp)
    | object h' => exact obj (.object h') (by simp) (by simp)
    | handle h' => exact obj (.handle h') (by simp) (by simp)

/-- C49. A function cannot be hooked for its result exactly if it is an environment, a handle other than `jobject`, or
data that is neither passed by value nor by `std::shared_ptr`. -/
theorem hook_result_none (ci : CppInfo) (p : CppTy) : p.result ci = none ↔
    (∃ t, p = .env t) ∨ (∃ t, p = .handle t ∧ t ≠ ci.object) ∨
      ∃ by_ c, p = .data by_ c ∧ by_ ≠ .value ∧ by_ ≠ .shared := by
  cases p with
  | void => simp [CppTy.result]
  | env t => simp [CppTy.result]
  | handle t => simp [CppTy.result]
  | data b c => cases b <;> cases c <;> first | (simp [CppTy.result]; done) |
    (rename_i q; cases q <;> simp [CppTy.result])

example : ∃ w, MemReachable w ∧ JavaRet sampleInfo w (.data .shared (.cls 5)) (some (.cls "a/B".toList)) ∧
    (CppTy.data .shared (.cls 5)).result sampleInfo = some .object := by
  obtain ⟨w, o, b, hr, _, _, hb, h5, hu, _⟩ := sample_types
  exact ⟨w, hr, .some (.object (.inl ⟨b, h5, hb⟩)), rfl⟩

/-! ### Installation -/

theorem envArg_envParams (f : CppFn) : f.envArg = envParams f.params := by
  unfold CppFn.envArg envParams
  rfl

theorem isSelf_iff (ci : CppInfo) (w : World) (cl : Nat) (inst : Bool) (p : CppTy) :
    (p.canBeSelf ci inst && p.isSelf ci w cl inst) = true ↔ SelfParam ci w cl inst p := by
  constructor
  · intro h
    rw [Bool.and_eq_true] at h
    obtain ⟨h1, h2⟩ := h
    match p with
    | .void => cases h1
    | .env _ => cases h1
    | .handle t =>
      cases inst with
      | true => obtain rfl : t = ci.object := by simpa [CppTy.canBeSelf] using h1
                exact .jobject
      | false => obtain rfl : t = ci.clazz := by simpa [CppTy.canBeSelf] using h1
                 exact .jclass
    | .data b c =>
      cases inst with
      | true =>
        have hb : b = .value ∨ b = .pointer := by
          cases b <;> first | exact .inl rfl | exact .inr rfl | cases h1
        have ho : ci.isObject c = true := by
          rcases hb with rfl | rfl <;> simpa [CppTy.canBeSelf] using h1
        simp only [CppTy.isSelf, Bool.not_true, Bool.false_or, Bool.or_eq_true, Bool.and_eq_true, beq_iff_eq] at h2
        rcases h2 with ⟨rfl, rfl⟩ | h2
        · exact .object ho
        · exact .own hb ho h2
      | false =>
        cases b with
        | pointer => obtain rfl : c = .cls ci.clazz := by simpa [CppTy.canBeSelf] using h1
                     exact .clazz
        | value => simp [CppTy.canBeSelf] at h1
        | _ => cases h1
  · intro h
    cases h with
    | jobject => simp [CppTy.canBeSelf, CppTy.isSelf]
    | object h => simp [CppTy.canBeSelf, CppTy.isSelf, h]
    | own hb ho ht => rcases hb with rfl | rfl <;> simp [CppTy.canBeSelf, CppTy.isSelf, ho, ht]
    | jclass => simp [CppTy.canBeSelf, CppTy.isSelf]
    | clazz => simp [CppTy.canBeSelf, CppTy.isSelf]

/-- C49. The forms in which a function is installed: the environment is never an argument; the form
with the object or class as leading parameter exists in addition if the first (remaining) parameter can
take it; for a getter or setter the form with too many parameters is left out. -/
theorem hook_forms (ci : CppInfo) (w : World) (cl : Nat) (b : Bind) (f : CppFn) (lead : Nat) :
    lead ∈ f.leads ci w cl b ↔ InstalledForm ci w cl b f lead := by
  have h1 : f.takesSelf ci w cl b.inst f.envArg = true ↔
      f.kind = .plain ∧ ∃ p, f.params[envParams f.params]? = some p ∧ SelfParam ci w cl b.inst p := by
    unfold CppFn.takesSelf
    rw [envArg_envParams, Bool.and_eq_true, beq_iff_eq]
    refine and_congr_right fun _ => ?_
    cases hp : f.params[envParams f.params]? with
    | none => simp
    | some p =>
      simp only [isSelf_iff]
      exact ⟨fun h => ⟨p, rfl, h⟩, fun ⟨q, hq, h⟩ => by cases hq; exact h⟩
  have h2 : f.needsSelf b = false ↔ match b.what with
    | .method => True
    | .getter => f.params.length ≤ envParams f.params
    | .setter => f.params.length ≤ envParams f.params + 1
    | .property => f.params.length ≤ envParams f.params := by
    unfold CppFn.needsSelf
    rw [envArg_envParams]
    cases hb : b.what <;> simp
    omega
  unfold CppFn.leads InstalledForm
  rw [List.mem_append, envArg_envParams] at *
  refine or_congr ?_ ?_
  · refine Iff.trans ?_ (and_congr_right fun _ => h2)
    cases f.needsSelf b <;> simp
  · rw [← h1]
    cases f.takesSelf ci w cl b.inst (envParams f.params) <;> simp

example (w : World) : InstalledForm sampleInfo w 3 ⟨true, .method⟩
    ⟨.plain, .void, [.env 100, .data .pointer (.cls 0), .data .value (.prim .int)]⟩ 2 :=
  .inr ⟨rfl, rfl, _, rfl, .object rfl⟩

/-- Another method than the hooked one stays as it was. -/
theorem hook_mem_other (w : World) (c : Nat) (st : Bool) (name sig : Str) (fn : Nat) (d : Nat) (m : MethodRec)
    (h : ¬ (d = c ∧ m.static = st ∧ m.name = name ∧ m.signature = sig)) :
    m ∈ ((w.hookMethod c st name sig fn).mem d).methods ↔ m ∈ (w.mem d).methods := by
  by_cases hd : d = c
  · subst hd
    have hm : hookHits st name sig m = false := by
      cases hh : hookHits st name sig m with
      | false => rfl
      | true => exact absurd ⟨rfl, hookHits_iff.1 hh⟩ h
    cases hf : (w.mem d).methods.find? (hookHits st name sig) with
    | none =>
      rw [hookMethod_new hf]
      simp only [setMem_mem, if_true, List.mem_append, List.mem_singleton]
      refine ⟨fun h => h.resolve_right ?_, .inl⟩
      rintro rfl
      simp [hookHits] at hm
    | some x =>
      rw [hookMethod_found hf]
      simp only [setMem_mem, if_true]
      have hx := List.find?_some hf
      constructor
      · intro hy
        rcases mem_updateFirst hf hy with rfl | hy
        · have : hookHits st name sig x = false := hm
          rw [hx] at this; cases this
        · exact hy
      · intro hy
        rcases mem_updateFirst_of (f := fun m => { m with handle := some fn }) hf hy with rfl | hy
        · rw [hx] at hm; cases hm
        · exact hy
  · cases hf : (w.mem c).methods.find? (hookHits st name sig) with
    | none => rw [hookMethod_new hf]; simp only [setMem_mem, if_neg hd]
    | some x => rw [hookMethod_found hf]; simp only [setMem_mem, if_neg hd]

theorem hook_find_other {w : World} {c : Nat} {st : Bool} {name sig sig' : Str} (hs : sig' ≠ sig) (fn : Nat)
    {m : MethodRec} (h : (w.mem c).methods.find? (hookHits st name sig') = some m) :
    ((w.hookMethod c st name sig fn).mem c).methods.find? (hookHits st name sig') = some m := by
  have key : ∀ a, hookHits st name sig a = true → hookHits st name sig' a = false := by
    intro a ha
    cases hb : hookHits st name sig' a with
    | false => rfl
    | true => exact absurd ((hookHits_iff.1 hb).2.2.symm.trans (hookHits_iff.1 ha).2.2) hs
  cases hf : (w.mem c).methods.find? (hookHits st name sig) with
  | none =>
    rw [hookMethod_new hf]
    simp only [setMem_mem, if_true]
    rw [List.find?_append, h]
    rfl
  | some x =>
    rw [hookMethod_found hf]
    simp only [setMem_mem, if_true]
    rw [find_updateFirst_other (f := fun m => { m with handle := some fn }) key (fun a ha => key a ha), h]

theorem hook_types (w : World) (c : Nat) (st : Bool) (name sig : Str) (fn : Nat) :
    (w.hookMethod c st name sig fn).types = w.types := by
  cases hf : (w.mem c).methods.find? (hookHits st name sig) with
  | none => rw [hookMethod_new hf]; rfl
  | some m => rw [hookMethod_found hf]; rfl

/-- One form. -/
theorem installOne_method {ci : CppInfo} {w : World} (hr : MemReachable w) {c : Nat}
    {b : Bind} (hb : b.what = .method) {f : CppFn} (name : Str) (fn : Nat → Nat) {lead : Nat} {tys : List Ty}
    {ret : Option Ty} (hp : JavaTypes ci w (f.params.drop lead) tys) (hret : JavaRet ci w f.ret ret)
    (hfree : HookFree w c (!b.inst) name (renderSig tys ret)) :
    ∃ w' m, f.installOne ci w c b name fn lead = .ok w' ∧ MemReachable w' ∧ Keeps w w' ∧
      (w'.mem c).methods.find? (hookHits (!b.inst) name (renderSig tys ret)) = some m ∧
      m.native = none ∧ m.handle = some (fn lead) ∧
      (∀ d m', ¬ (d = c ∧ m'.static = (!b.inst) ∧ m'.name = name ∧ m'.signature = renderSig tys ret) →
        (m' ∈ (w'.mem d).methods ↔ m' ∈ (w.mem d).methods)) ∧
      (∀ sig', sig' ≠ renderSig tys ret → ∀ m', (w.mem c).methods.find? (hookHits (!b.inst) name sig') = some m' →
        (w'.mem c).methods.find? (hookHits (!b.inst) name sig') = some m') := by
  obtain ⟨w1, h1, hr1, g1⟩ := hook_signature hr f lead hp hret
  have hfree1 : HookFree w1 c (!b.inst) name (renderSig tys ret) := by
    unfold HookFree
    rw [g1.mem]
    exact hfree
  obtain ⟨m, e1, e2, e3⟩ := hook_target (hfree1.native hr1) (fn lead)
  refine ⟨w1.hookMethod c (!b.inst) name (renderSig tys ret) (fn lead), m, ?_,
    hr1.step (op := .hookMethod c (!b.inst) name (renderSig tys ret) (fn lead)) rfl, ⟨?_, ?_⟩, e1, e2, e3, ?_, ?_⟩
  · simp only [CppFn.installOne, hb, h1, Res.bind_ok]
  · rw [hook_types, g1.types]
  · intro n k hk
    unfold World.IsClass
    rw [hookMethod_reg]
    exact g1.keep n k hk
  · intro d m' hm'
    rw [hook_mem_other _ _ _ _ _ _ _ _ hm', g1.mem]
  · intro sig' hs m' hm'
    rw [← g1.mem] at hm'
    exact hook_find_other hs (fn lead) hm'

theorem renderSig_drop_ne {t : Ty} {ts : List Ty} {ret : Option Ty} :
    renderSig (t :: ts) ret ≠ renderSig ts ret := by
  intro h
  have h1 := congrArg List.length h
  have h2 : 0 < t.render.length := by
    cases t with
    | prim p => cases p <;> decide
    | cls n => simp [Ty.render]
    | arr n => simp [Ty.render]
  simp only [renderSig, List.flatMap_cons, List.length_cons, List.length_append] at h1
  omega

/-- C49. Hooking a function of Java types `tys`, `ret` declares a method of signature `(tys)ret`, found by
`GetMethodID` and running the function; if the first parameter can take the object (class) also one
without that parameter.  No other method is touched.  Not covered: names and signatures of registered
native methods (C20). -/
theorem hook_installs_partial {ci : CppInfo} {w : World} (hr : MemReachable w) {n : Str} {c : Nat}
    (hc : w.IsClass n c) (b : Bind) (hb : b.what = .method) (f : CppFn) (name : Str)
    (hinit : name = "<init>".toList → b.inst = false) (fn : Nat → Nat) {tys : List Ty} {ret : Option Ty}
    (hp : JavaTypes ci w (f.params.drop (envParams f.params)) tys) (hret : JavaRet ci w f.ret ret)
    (hfree : ∀ k, HookFree w c (!b.inst) name (renderSig (tys.drop k) ret)) :
    ∃ w', f.install ci w c b name fn = .ok w' ∧ MemReachable w' ∧
      (∀ lead, InstalledForm ci w c b f lead →
        ∃ m, w'.Declares c (!b.inst) false name (renderSig (tys.drop (lead - envParams f.params)) ret) m ∧
          m.handle = some (fn lead) ∧ ∀ depth rn, w'.getMethodID (depth + 1) (!b.inst) rn false (some c) name
            (renderSig (tys.drop (lead - envParams f.params)) ret) = .ok (w', some m.id)) ∧
      ∀ d m, (∀ lead, InstalledForm ci w c b f lead → ¬ (d = c ∧ m.static = (!b.inst) ∧ m.name = name ∧
          m.signature = renderSig (tys.drop (lead - envParams f.params)) ret)) →
        (m ∈ (w'.mem d).methods ↔ m ∈ (w.mem d).methods) := by
  have hinit' : name = "<init>".toList → (!b.inst) = true := fun h => by rw [hinit h]; rfl
  have hneed : f.needsSelf b = false := by simp [CppFn.needsSelf, hb]
  have hdone : ∀ {v : World} {s : Str} {m : MethodRec} {k : Nat}, MemReachable v → v.IsClass n c →
      (v.mem c).methods.find? (hookHits (!b.inst) name s) = some m → m.native = none → m.handle = some k →
      ∃ m, v.Declares c (!b.inst) false name s m ∧ m.handle = some k ∧
        ∀ depth rn, v.getMethodID (depth + 1) (!b.inst) rn false (some c) name s = .ok (v, some m.id) := by
    intro v s m k hv hcv h1 h2 h3
    have hown := target_own h1 h2
    exact ⟨m, declares_of_own hown, h3, fun depth rn => lookup_of_own hv.inv hcv hinit' hown depth rn⟩
  have hform : ∀ lead, InstalledForm ci w c b f lead → lead = envParams f.params ∨ (lead = envParams f.params + 1 ∧
      f.takesSelf ci w c b.inst (envParams f.params) = true) := by
    intro lead h
    rw [← hook_forms] at h
    unfold CppFn.leads at h
    rw [hneed, envArg_envParams] at h
    cases ht : f.takesSelf ci w c b.inst (envParams f.params) with
    | false => rw [ht] at h; exact .inl (by simpa using h)
    | true => rw [ht] at h; simpa using h
  have hform0 : InstalledForm ci w c b f (envParams f.params) := .inl ⟨rfl, by rw [hb]; trivial⟩
  obtain ⟨w1, m1, e1, hr1, g1, a1, a2, a3, a4, a5⟩ := installOne_method hr hb name fn hp hret (hfree 0)
  cases ht : f.takesSelf ci w c b.inst (envParams f.params) with
  | false =>
    refine ⟨w1, ?_, hr1, ?_, ?_⟩
    · simp only [CppFn.install, CppFn.leads, hneed, envArg_envParams, ht, Bool.false_eq_true, if_false,
        List.append_nil, List.foldl, Res.bind_ok, e1]
    · intro lead hl
      rcases hform lead hl with rfl | ⟨_, h⟩
      · rw [Nat.sub_self, List.drop_zero]
        exact hdone hr1 (g1.keep n c hc) a1 a2 a3
      · rw [ht] at h; cases h
    · intro d m hm
      have := hm _ hform0
      rw [Nat.sub_self, List.drop_zero] at this
      exact a4 d m this
  | true =>
    have hform1 : InstalledForm ci w c b f (envParams f.params + 1) := by
      rw [← hook_forms]
      unfold CppFn.leads
      rw [envArg_envParams, ht]
      simp
    have hdrop : f.params.drop (envParams f.params + 1) = (f.params.drop (envParams f.params)).tail := by
      rw [List.tail_drop]
    obtain ⟨t, ts, rfl⟩ : ∃ t ts, tys = t :: ts := by
      cases hp' : f.params.drop (envParams f.params) with
      | nil =>
        exfalso
        obtain ⟨_, _, p, h1, _⟩ := hform1.resolve_left (fun h => absurd h.1 (by omega))
        rw [List.drop_eq_nil_iff] at hp'
        rw [List.getElem?_eq_none hp'] at h1
        cases h1
      | cons q qs =>
        rw [hp'] at hp
        cases hp with
        | cons h1 h2 => exact ⟨_, _, rfl⟩
    have hp1 : JavaTypes ci w1 (f.params.drop (envParams f.params + 1)) ts := by
      rw [hdrop]
      cases hp' : f.params.drop (envParams f.params) with
      | nil => rw [hp'] at hp; cases hp
      | cons q qs =>
        rw [hp'] at hp
        cases hp with
        | cons h1 h2 => exact JavaTypes.mono g1 h2
    have hne : renderSig (t :: ts) ret ≠ renderSig ts ret := renderSig_drop_ne
    have hfree1 : HookFree w1 c (!b.inst) name (renderSig ts ret) := by
      rcases hfree 1 with h | h
      · exact .inl h
      · refine .inr fun m hm hnat he => ?_
        refine h m ((a4 c m ?_).1 hm) hnat he
        rintro ⟨_, _, _, h'⟩
        exact hne (h'.symm.trans he.2)
    obtain ⟨w2, m2, e2, hr2, g2, b1, b2, b3, b4, b5⟩ :=
      installOne_method hr1 hb name fn hp1 (JavaRet.mono g1 hret) hfree1
    refine ⟨w2, ?_, hr2, ?_, ?_⟩
    · simp only [CppFn.install, CppFn.leads, hneed, envArg_envParams, ht, Bool.false_eq_true, if_false, if_true,
        List.cons_append, List.nil_append, List.foldl, Res.bind_ok, e1, e2]
    · intro lead hl
      have hc2 := g2.keep n c (g1.keep n c hc)
      rcases hform lead hl with rfl | ⟨rfl, _⟩
      · rw [Nat.sub_self, List.drop_zero]
        exact hdone hr2 hc2 (b5 _ hne _ a1) a2 a3
      · rw [Nat.add_sub_cancel_left]
        exact hdone hr2 hc2 b1 b2 b3
    · intro d m hm
      have h0 := hm _ hform0
      have h1 := hm _ hform1
      rw [Nat.sub_self, List.drop_zero] at h0
      rw [Nat.add_sub_cancel_left] at h1
      exact (b4 d m h1).trans (a4 d m h0)

/-- `sampleFn` hooked into its own class as an instance method: two methods. -/
example : ∃ w b, MemReachable w ∧ w.IsClass "a/B".toList b ∧
    JavaTypes sampleInfo w (sampleFn.params.drop (envParams sampleFn.params)) sampleTys ∧
    JavaRet sampleInfo w sampleFn.ret (some (.prim .int)) ∧
    (∀ k, HookFree w b false "f".toList (renderSig (sampleTys.drop k) (some (.prim .int)))) ∧
    InstalledForm sampleInfo w b ⟨true, .method⟩ sampleFn 1 ∧ InstalledForm sampleInfo w b ⟨true, .method⟩ sampleFn 2 := by
  obtain ⟨w, o, b, hr, _, _, hb, h5, hu, hm, _⟩ := sample_types
  refine ⟨w, b, hr, hb, sample_javaTypes hb h5 (hu 7 (by decide) (by decide)), .some (.value .prim), ?_,
    .inl ⟨rfl, trivial⟩, .inr ⟨rfl, rfl, _, rfl, .own (.inr rfl) rfl h5⟩⟩
  intro k
  refine .inr fun m h => ?_
  rw [(hm b).1] at h
  cases h

/-! ### Accessors -/

theorem install_single {ci : CppInfo} {w : World} {c : Nat} {b : Bind} {f : CppFn} {name : Str} {fn : Nat → Nat}
    {lead : Nat} (h1 : lead ∈ f.leads ci w c b) (h2 : ∀ l ∈ f.leads ci w c b, l = lead) :
    f.install ci w c b name fn = f.installOne ci w c b name fn lead := by
  have : f.leads ci w c b = [lead] := by
    unfold CppFn.leads at *
    cases ha : f.needsSelf b <;> cases hb : f.takesSelf ci w c b.inst f.envArg
    · rw [ha, hb] at h1
      simp at h1
      simp [h1]
    · rw [ha, hb] at h2
      have a1 := h2 f.envArg (by simp)
      have a2 := h2 (f.envArg + 1) (by simp)
      omega
    · rw [ha, hb] at h1
      simp at h1
    · rw [ha, hb] at h1
      simp at h1
      simp [h1]
  simp only [CppFn.install, this, List.foldl, Res.bind_ok]

/-- C49. A hooked getter makes a field of the type of its result, read by the function. -/
theorem hook_getter {ci : CppInfo} {w : World} (hr : MemReachable w) {n : Str} {c : Nat} (hc : w.IsClass n c)
    (b : Bind) (hb : b.what = .getter) (f : CppFn) (name : Str) (fn : Nat → Nat) {lead : Nat}
    (hl : InstalledForm ci w c b f lead) {t : Ty} (ht : JavaType ci w f.ret t) :
    ∃ w' r, f.install ci w c b name fn = .ok w' ∧ MemReachable w' ∧
      w'.DeclaresField c (!b.inst) name t.render r ∧ r.getter = some (fn lead) ∧
      (∀ depth rn, w'.getFieldID (depth + 1) (!b.inst) rn (some c) name t.render = .ok (w', some r.id)) ∧
      ∀ d, (w'.mem d).methods = (w.mem d).methods := by
  have huniq : ∀ l, InstalledForm ci w c b f l → l = lead := by
    have sel : ∀ l, InstalledForm ci w c b f l → (l = envParams f.params ∧ f.params.length ≤ envParams f.params) ∨
        (l = envParams f.params + 1 ∧ envParams f.params < f.params.length) := by
      intro l h
      unfold InstalledForm at h
      rw [hb] at h
      rcases h with h | ⟨h1, _, p, h2, _⟩
      · exact .inl h
      · obtain ⟨h3, _⟩ := List.getElem?_eq_some_iff.1 h2
        exact .inr ⟨h1, h3⟩
    intro l h
    rcases sel l h with ⟨a, a'⟩ | ⟨a, a'⟩ <;> rcases sel lead hl with ⟨b, b'⟩ | ⟨b, b'⟩ <;> omega
  have he := install_single (name := name) (fn := fn) ((hook_forms ..).2 hl)
    (fun l h => huniq l ((hook_forms ..).1 h))
  obtain ⟨w1, h1, hr1, g1⟩ := ty_sig hr ht
  obtain ⟨r, k1, k2, k3, _, _, k6⟩ := field_hook_effective hr1 (g1.keep n c hc) true (!b.inst) name t.render (fn lead)
  refine ⟨_, r, ?_, hr1.step (op := .hookField c true (!b.inst) name t.render (fn lead)) rfl, k1, k2, k3, ?_⟩
  · rw [he]; simp only [CppFn.installOne, hb, CppFn.getterSig, h1, Res.bind_ok]
  · intro d; rw [k6, g1.mem]

/-- A getter `jint get(B*)` of class "a/B". -/
example : ∃ w b, MemReachable w ∧ w.IsClass "a/B".toList b ∧
    InstalledForm sampleInfo w b ⟨true, .getter⟩ ⟨.plain, .data .value (.prim .int), [.data .pointer (.cls 5)]⟩ 1 ∧
    JavaType sampleInfo w (.data .value (.prim .int)) (.prim .int) := by
  obtain ⟨w, o, b, hr, _, _, hb, h5, hu, hm, _⟩ := sample_types
  exact ⟨w, b, hr, hb, .inr ⟨rfl, rfl, _, rfl, .own (.inr rfl) rfl h5⟩, .value .prim⟩

/-- C49. A hooked setter makes a field of the type of its last parameter, written by the function; the
parameter must not be one that takes the object or class itself. -/
theorem hook_setter {ci : CppInfo} {w : World} (hr : MemReachable w) {n : Str} {c : Nat} (hc : w.IsClass n c)
    (b : Bind) (hb : b.what = .setter) (f : CppFn) (hk : f.kind = .plain ∨ f.kind = .member) (name : Str)
    (fn : Nat → Nat) {lead : Nat} {ps : List CppTy} {p : CppTy} (hps : f.params = ps ++ [p]) (hlen : ps.length = lead)
    (hl : InstalledForm ci w c b f lead) (hself : lead = envParams f.params → ¬ SelfParam ci w c b.inst p)
    {t : Ty} (ht : JavaType ci w p t) :
    ∃ w' r, f.install ci w c b name fn = .ok w' ∧ MemReachable w' ∧
      w'.DeclaresField c (!b.inst) name t.render r ∧ r.setter = some (fn lead) ∧
      (∀ depth rn, w'.getFieldID (depth + 1) (!b.inst) rn (some c) name t.render = .ok (w', some r.id)) ∧
      ∀ d, (w'.mem d).methods = (w.mem d).methods := by
  have hn : f.params.length = lead + 1 := by rw [hps, List.length_append, hlen]; rfl
  have hget : f.params[lead]? = some p := by rw [hps, ← hlen]; simp
  have sel : ∀ l, InstalledForm ci w c b f l →
      (l = envParams f.params ∧ f.params.length ≤ envParams f.params + 1) ∨
      (l = envParams f.params + 1 ∧ ∃ q, f.params[envParams f.params]? = some q ∧ SelfParam ci w c b.inst q) := by
    intro l h
    unfold InstalledForm at h
    rw [hb] at h
    exact h.imp id fun ⟨h1, _, h2⟩ => ⟨h1, h2⟩
  have huniq : ∀ l, InstalledForm ci w c b f l → l = lead := by
    intro l h
    rcases sel l h with ⟨a, a'⟩ | ⟨a, q, a1, a2⟩ <;> rcases sel lead hl with ⟨b1, b2⟩ | ⟨b1, q', b2, b3⟩
    · omega
    · omega
    · exfalso
      rw [← b1, hget] at a1
      cases a1
      exact hself b1 a2
    · omega
  have he := install_single (name := name) (fn := fn) ((hook_forms ..).2 hl)
    (fun l h => huniq l ((hook_forms ..).1 h))
  obtain ⟨w1, h1, hr1, g1⟩ := ty_sig hr ht
  obtain ⟨r, k1, k2, k3, _, _, k6⟩ := field_hook_effective hr1 (g1.keep n c hc) false (!b.inst) name t.render (fn lead)
  refine ⟨_, r, ?_, hr1.step (op := .hookField c false (!b.inst) name t.render (fn lead)) rfl, k1, k2, k3, ?_⟩
  · rw [he]
    have : f.setterSig ci w lead = .ok (w1, t.render) := by
      unfold CppFn.setterSig
      rcases hk with hk | hk <;> simp only [hk, hget, Option.getD_some, h1]
    simp only [CppFn.installOne, hb, this, Res.bind_ok]
  · intro d; rw [k6, g1.mem]

/-- A setter `void set(ENV*, B*, jlong)` of class "a/B". -/
example : ∃ w b, MemReachable w ∧ w.IsClass "a/B".toList b ∧ InstalledForm sampleInfo w b ⟨true, .setter⟩
      ⟨.plain, .void, [.env 100, .data .pointer (.cls 5)] ++ [.data .value (.prim .long)]⟩ 2 ∧
    JavaType sampleInfo w (.data .value (.prim .long)) (.prim .long) := by
  obtain ⟨w, o, b, hr, _, _, hb, h5, hu, hm, _⟩ := sample_types
  exact ⟨w, b, hr, hb, .inr ⟨rfl, rfl, _, rfl, .own (.inr rfl) rfl h5⟩, .value .prim⟩

/-- C49. A hooked variable or data member makes one field with both a getter and a setter. -/
theorem hook_property {ci : CppInfo} {w : World} (hr : MemReachable w) {n : Str} {c : Nat} (hc : w.IsClass n c)
    (b : Bind) (hb : b.what = .property) (f : CppFn) (hk : f.kind = .variable ∨ f.kind = .dataMember)
    (hf : f.params = []) (name : Str) (fn : Nat → Nat) {t : Ty} (ht : JavaType ci w f.ret t) :
    ∃ w' r, f.install ci w c b name fn = .ok w' ∧ MemReachable w' ∧
      w'.DeclaresField c (!b.inst) name t.render r ∧ r.getter = some (fn 0) ∧ r.setter = some (fn 0) ∧
      (∀ depth rn, w'.getFieldID (depth + 1) (!b.inst) rn (some c) name t.render = .ok (w', some r.id)) ∧
      ∀ d, (w'.mem d).methods = (w.mem d).methods := by
  have sel : ∀ l, InstalledForm ci w c b f l ↔ l = 0 := by
    intro l
    unfold InstalledForm
    rw [hb, hf]
    constructor
    · rintro (⟨h, _⟩ | ⟨_, h, _⟩)
      · exact h
      · rcases hk with hk | hk <;> rw [hk] at h <;> cases h
    · rintro rfl
      exact .inl ⟨rfl, Nat.le_refl _⟩
  have he := install_single (name := name) (fn := fn) ((hook_forms ..).2 ((sel 0).2 rfl))
    (fun l h => (sel l).1 ((hook_forms ..).1 h))
  obtain ⟨w1, h1, hr1, g1⟩ := ty_sig hr ht
  obtain ⟨r, k1, k2, k3, _, _, k6⟩ := field_hook_effective hr1 (g1.keep n c hc) true (!b.inst) name t.render (fn 0)
  have hr2 := hr1.step (op := .hookField c true (!b.inst) name t.render (fn 0)) rfl
  have hc2 : (w1.hookField c true (!b.inst) name t.render (fn 0)).IsClass n c :=
    isClass_step hr1.inv (op := .hookField c true (!b.inst) name t.render (fn 0)) rfl (g1.keep n c hc)
  have ht2 : JavaType ci (w1.hookField c true (!b.inst) name t.render (fn 0)) f.ret t := by
    refine JavaType.mono ⟨?_, fun _ _ h => ?_⟩ ht
    · exact (step_types (op := .hookField c true (!b.inst) name t.render (fn 0)) rfl).elim (fun h => h.trans g1.types)
        (fun ⟨_, _, _, h⟩ => (nomatch h))
    · exact isClass_step hr1.inv (op := .hookField c true (!b.inst) name t.render (fn 0)) rfl (g1.keep _ _ h)
  obtain ⟨w3, h3, hr3, g3⟩ := ty_sig hr2 ht2
  have k3' : ∀ depth rn, w3.getFieldID (depth + 1) (!b.inst) rn (some c) name t.render = .ok (w3, some r.id) := by
    intro depth rn
    rw [getFieldID_isClass hr3.inv (g3.keep n c hc2)]
    have : w3.ownField ⟨!b.inst, name, t.render⟩ c = some r.id := by
      have h0 := k3 0 false
      rw [getFieldID_isClass hr2.inv hc2] at h0
      have hex : ∃ x, (w1.hookField c true (!b.inst) name t.render (fn 0)).ownField ⟨!b.inst, name, t.render⟩ c = some x := by
        unfold World.ownField
        cases hfi : (((w1.hookField c true (!b.inst) name t.render (fn 0)).mem c).fields.find?
            (FieldKey.hits ⟨!b.inst, name, t.render⟩)) with
        | some y => exact ⟨y.id, rfl⟩
        | none => exact absurd (fhits_iff.2 ⟨k1.2.1, k1.2.2.1, k1.2.2.2⟩) (List.find?_eq_none.1 hfi r k1.1)
      obtain ⟨x, hx⟩ := hex
      rw [dfs_own hx] at h0
      have hxr : x = r.id := by
        have := Res.ok.inj h0
        simpa using this
      rw [← hxr, ← hx]
      unfold World.ownField
      rw [g3.mem]
    rw [dfs_own this]
    rfl
  obtain ⟨r', l1, l2, l3, l4, _, l6⟩ := field_hook_effective hr3 (g3.keep n c hc2) false (!b.inst) name t.render (fn 0)
  obtain ⟨_, l5⟩ := l4 0 false r.id (k3' 0 false) r (by rw [g3.mem]; exact k1.1) rfl
  refine ⟨_, r', ?_, hr3.step (op := .hookField c false (!b.inst) name t.render (fn 0)) rfl, l1, ?_, l2, l3, ?_⟩
  · rw [he]
    have : f.setterSig ci (w1.hookField c true (!b.inst) name t.render (fn 0)) 0 = .ok (w3, t.render) := by
      unfold CppFn.setterSig
      rcases hk with hk | hk <;> simp only [hk, h3]
    simp only [CppFn.installOne, hb, CppFn.getterSig, h1, Res.bind_ok, this]
  · exact l5.trans k2
  · intro d; rw [l6, g3.mem, k6, g1.mem]

/-- A data member of type `std::shared_ptr<Array<B>>`. -/
example : ∃ w b, MemReachable w ∧ w.IsClass "a/B".toList b ∧
    JavaType sampleInfo w (.data .shared (.arr (.cls 5))) (.arr (.cls "a/B".toList)) := by
  obtain ⟨w, o, b, hr, _, _, hb, h5, hu, hm, _⟩ := sample_types
  exact ⟨w, b, hr, hb, .array (.cls (.inl ⟨b, h5, hb⟩))⟩

/-- C49 fails for accessors with too many parameters, whose first parameter takes no object or class:
hooking them does nothing and reports nothing. -/
theorem hook_ignored (ci : CppInfo) (w : World) (c : Nat) (b : Bind) (f : CppFn) (name : Str) (fn : Nat → Nat)
    (h : ∀ lead, ¬ InstalledForm ci w c b f lead) : f.install ci w c b name fn = .ok w := by
  have : f.leads ci w c b = [] := by
    rw [List.eq_nil_iff_forall_not_mem]
    exact fun l hl => h l ((hook_forms ..).1 hl)
  simp only [CppFn.install, this, List.foldl]

/-- A getter `jint get(std::shared_ptr<B>)`. -/
example (w : World) (c lead : Nat) : ¬ InstalledForm sampleInfo w c ⟨true, .getter⟩
    ⟨.plain, .data .value (.prim .int), [.data .shared (.cls 5)]⟩ lead := by
  rintro (⟨_, h⟩ | ⟨_, _, p, h, h'⟩)
  · exact absurd h (by decide)
  · cases h
    cases h' with
    | own h => rcases h with h | h <;> cases h

/-! ### Calls -/

/-- C49, end to end for static calls: a variadic call of a hooked function runs it with the class, the
environment and the values passed; its exceptions become pending (C24). -/
theorem hook_call_static (d2f : BitVec 64 → BitVec 32) {code : Nat → Hook} (hb : WellBehaved code) {vm : Vm}
    (hr : VmReachable vm) (t : Nat) {cl : Option Nat} {c : Nat} (hc : IsClassRef vm cl c) {id : Nat} {m : MethodRec}
    (hn : Names vm.world id m) {g : Nat} (hg : m.handle = some g) {f : CppFn} {b : Bind} {ty : JType} {lead : Nat}
    {body : CppBody} (hcode : code g = f.wrapper b ty lead body) (hst : b.inst = false) {ci : CppInfo} {w : World}
    {tys : List Ty} {ret : Option Ty} (hs : m.signature = renderSig tys ret)
    (hp : JavaTypes ci w (f.params.drop lead) tys) (hv : ∀ t ∈ tys, t.Valid) {args : List CArg}
    (extra : List CArg) {as : List CppArg} (ha : Receives d2f tys args as) :
    Handled t (body vm (.cls (some c)) (leading (f.params.take lead) ++ as))
      (vm.callV d2f code t ty (.static cl) (some id) (args ++ extra)) := by
  obtain ⟨vals, h1, h2⟩ := receives_passes hp ha
  rw [callV_is_callA d2f code hr t ty _ hn hs hv h1]
  have h3 := static_call hb hr (t := t) (.inr ⟨c, hc, rfl⟩) hn hg (ty := ty) (by rw [hcode]; rfl)
    (by rw [hcode]; simp [CppFn.wrapper, hst]) vals
  rw [hcode] at h3
  simpa only [CppFn.wrapper, CppFn.args, h2, Res.bind_ok, Outcome.lift, leadArgs_leading] using h3

/-- C49, end to end for virtual calls: the object takes the place of the class. -/
theorem hook_call_virtual (d2f : BitVec 64 → BitVec 32) {code : Nat → Hook} (hb : WellBehaved code) {vm : Vm}
    (hr : VmReachable vm) {t : Nat} {env : Env} (he : vm.heap.envs t = some env) {obj : Option Nat} {c : Nat}
    (hc : ClassIs vm obj c) {id : Nat} {m : MethodRec}
    (hn : Names vm.world id m) {g0 g : Nat} (hg0 : m.handle = some g0)
    (hg : Implements vm.world c m.name m.signature g ∨
      g = g0 ∧ ∀ g', ¬ Implements vm.world c m.name m.signature g')
    {f : CppFn} {b : Bind} {ty : JType} {lead : Nat}
    {body : CppBody} (hcode : code g = f.wrapper b ty lead body) (hst : b.inst = true) {ci : CppInfo} {w : World}
    {tys : List Ty} {ret : Option Ty} (hs : m.signature = renderSig tys ret)
    (hp : JavaTypes ci w (f.params.drop lead) tys) (hv : ∀ t ∈ tys, t.Valid) {args : List CArg}
    (extra : List CArg) {as : List CppArg} (ha : Receives d2f tys args as) :
    ∃ vm1, AfterGetClass t obj vm vm1 ∧
      Handled t (body vm1 (.obj obj) (leading (f.params.take lead) ++ as))
        (vm.callV d2f code t ty (.virtual obj) (some id) (args ++ extra)) := by
  obtain ⟨vals, h1, h2⟩ := receives_passes hp ha
  obtain ⟨vm1, h3, h4⟩ := virtual_call_exact hb hr he hc hn hg0 ty vals
  refine ⟨vm1, h3, ?_⟩
  rw [callV_is_callA d2f code hr t ty _ hn hs hv h1]
  have h5 := h4 g hg (by rw [hcode]; rfl)
    (by rw [hcode]; simp only [CppFn.wrapper, hst, Bool.not_true, Bool.false_eq_true, if_false]; split <;> decide)
  rw [hcode] at h5
  simpa only [CppFn.wrapper, CppFn.args, h2, Res.bind_ok, Outcome.lift, leadArgs_leading] using h5

/-- Sample: `jlong p(ENV*, jclass/jobject, jint, jlong)` returns the number of its arguments. -/
def sampleWrapped (inst : Bool) : Hook :=
  CppFn.wrapper ⟨.plain, .void, [.env 100, .handle (if inst then 0 else 1), .data .value (.prim .int),
    .data .value (.prim .long)]⟩ ⟨inst, .method⟩ .void 2 fun vm _ as => .returns vm (.ofNat 64 as.length)

theorem sampleWrapped_behaved (inst : Bool) : WellBehaved fun _ => sampleWrapped inst := by
  intro f vm self args hr
  unfold sampleWrapped CppFn.wrapper
  dsimp only
  generalize CppFn.args _ _ _ = r
  cases r <;> first | exact hr | trivial

/-- Sample for `hook_call_static` and `hook_call_virtual`. -/
example (d2f : BitVec 64 → BitVec 32) (inst : Bool) : ∃ vm id m a cl obj, VmReachable vm ∧
    (∃ e, vm.heap.envs 0 = some e) ∧ IsClassRef vm cl a ∧ ClassIs vm obj a ∧ Names vm.world id m ∧ m.handle = some 8 ∧
    (inst = true → Implements vm.world a m.name m.signature 8) ∧
    m.signature = renderSig [.prim .int, .prim .long] none ∧
    JavaTypes sampleInfo vm.world [.data .value (.prim .int), .data .value (.prim .long)] [.prim .int, .prim .long] ∧
    Receives d2f [.prim .int, .prim .long] [.int 5, .long 7] [.val (.i 5), .val (.j 7)] := by
  obtain ⟨vm, a, b, c, q, m, m', s, q', f, g, S⟩ := sample_vm
  obtain ⟨e, he, _⟩ := S.env
  have hs : (MemOp.hookMethod a (!inst) "p".toList "(IJ)V".toList 8).run vm.world =
    .ok (vm.world.hookMethod a (!inst) "p".toList "(IJ)V".toList 8) := rfl
  have hf : (vm.world.mem a).methods.find? (hookHits (!inst) "p".toList "(IJ)V".toList) = none := by
    rw [S.methodsA]; cases inst <;> rfl
  have keep : ∀ {cl : Option Nat} {d : Nat}, IsClassRef vm cl d →
      IsClassRef ⟨vm.world.hookMethod a (!inst) "p".toList "(IJ)V".toList 8, vm.heap⟩ cl d :=
    fun ⟨k, o, n, h1, h2, h3, h4⟩ => ⟨k, o, n, h1, h2, h3, isClass_step S.reach.1.inv hs h4⟩
  have hmem : (⟨vm.world.next, "p".toList, "(IJ)V".toList, !inst, none, some 8⟩ : MethodRec) ∈
      ((vm.world.hookMethod a (!inst) "p".toList "(IJ)V".toList 8).mem a).methods := by
    rw [hookMethod_new hf]; simp
  obtain ⟨i, o, k, h1, h2, h3, h4⟩ := S.objA
  refine ⟨⟨vm.world.hookMethod a (!inst) "p".toList "(IJ)V".toList 8, vm.heap⟩, vm.world.next,
    ⟨vm.world.next, "p".toList, "(IJ)V".toList, !inst, none, some 8⟩, a, some 9, some 10,
    ⟨S.reach.1.step hs, S.reach.2⟩, ⟨e, he⟩, keep S.clsA, ⟨i, o, k, h1, h2, h3, keep h4⟩,
    ⟨_, a, isClass_step S.reach.1.inv hs S.isA, hmem, rfl⟩, rfl, ?_, rfl, .cons (.value .prim) (.cons (.value .prim) .nil),
    .cons rfl (.cons rfl .nil)⟩
  rintro rfl
  exact ⟨_, hmem, rfl, rfl, rfl, rfl⟩

end Jnivm
