import Verif.Lemmas.CppRead
import Verif.Props.Descriptor
/-! Lemmas about the entries read from a class dump and about running them. -/
namespace Jnivm
open Spec

/-! ### Entries -/

theorem typeOf_java {ci : CppInfo} {w : World} {num : Str → Nat} {t : Ty}
    (h : ∀ k ∈ t.classNames, JavaName ci w (.cls (num k)) k) : JavaType ci w (typeOf num t) t := by
  have elem : ∀ u : Ty, (∀ k ∈ u.classNames, JavaName ci w (.cls (num k)) k) → JavaElem ci w (bareOf num u) u := by
    intro u
    induction u with
    | prim p => exact fun _ => .prim
    | cls n => exact fun h => .cls (h n (by simp [Ty.classNames]))
    | arr u ih => exact fun h => .arr (ih h)
  cases t with
  | prim p => exact .value .prim
  | cls n => exact .object (h n (by simp [Ty.classNames]))
  | arr u => exact .array (elem u h)

theorem typeOf_javas {ci : CppInfo} {w : World} {num : Str → Nat} {ts : List Ty}
    (h : ∀ t ∈ ts, ∀ k ∈ t.classNames, JavaName ci w (.cls (num k)) k) : JavaTypes ci w (ts.map (typeOf num)) ts := by
  induction ts with
  | nil => exact .nil
  | cons t ts ih => exact .cons (typeOf_java (h t (by simp))) (ih fun u hu => h u (by simp [hu]))

theorem retOf_java {ci : CppInfo} {w : World} {num : Str → Nat} {ret : Option Ty}
    (h : ∀ t, ret = some t → ∀ k ∈ t.classNames, JavaName ci w (.cls (num k)) k) : JavaRet ci w (retOf num ret) ret := by
  cases ret with
  | none => exact .void
  | some t => exact .some (typeOf_java (h t rfl))

theorem typeOf_shape (num : Str → Nat) (t : Ty) : ∃ b c, typeOf num t = .data b c ∧ b ≠ .pointer := by
  cases t with
  | prim p => exact ⟨_, _, rfl, by decide⟩
  | cls n => exact ⟨_, _, rfl, by decide⟩
  | arr u => exact ⟨_, _, rfl, by decide⟩

theorem envParams_types (num : Str → Nat) (ts : List Ty) : envParams (ts.map (typeOf num)) = 0 := by
  cases ts with
  | nil => rfl
  | cons t ts =>
    obtain ⟨b, c, e, _⟩ := typeOf_shape num t
    simp only [List.map_cons, e]
    rfl

theorem says_flags (compat : Bool) (f : CppFn) (static : Bool) : SaysStatic compat f (some (flagsOf static)) ↔ static = true := by
  have h : ∀ s : Bool, (flagsOf s).getLsbD 3 = true ↔ s = true := by decide
  exact h static

/-- The entry of a field. -/
def fieldEntry (num : Str → Nat) (static : Bool) (name : Str) (t : Ty) (fn : Nat → Nat) : DescEntry :=
  .named ⟨if static then .variable else .dataMember, typeOf num t, []⟩ name (some (flagsOf static)) fn

/-- The entry of a method. -/
def methodEntry (N : CppNames) (clazz : Nat) (num : Str → Nat) (fake static : Bool) (name : Str) (ts : List Ty)
    (ret : Option Ty) (fn : Nat → Nat) : DescEntry :=
  .named ⟨if static then .plain else .member, retOf num ret, implicitOf N clazz fake static ++ ts.map (typeOf num)⟩
    name (some (flagsOf static)) fn

theorem field_promises {compat : Bool} {ci : CppInfo} {w : World} {num : Str → Nat} {t : Ty} (c : Nat) (static : Bool)
    (name : Str) (fn : Nat → Nat) (h : ∀ k ∈ t.classNames, JavaName ci w (.cls (num k)) k) :
    EntryPromises compat ci w c (fieldEntry num static name t fn) (fieldPromises static name t fn) := by
  cases static with
  | true => exact .static ((says_flags _ _ true).2 rfl) rfl (.var (.inl rfl) rfl (typeOf_java h))
  | false =>
    exact .inst (fun hs => nomatch (says_flags compat _ false).1 hs) (.var (.inr rfl) rfl (typeOf_java h))

theorem static_promises {ci : CppInfo} {w : World} {N : CppNames} {num : Str → Nat} {ts : List Ty} {ret : Option Ty}
    (c : Nat) (fake : Bool) (name : Str) (fn : Nat → Nat) (hc : JavaName ci w (.cls ci.clazz) "java/lang/Class".toList)
    (h : ∀ t ∈ ts, ∀ k ∈ t.classNames, JavaName ci w (.cls (num k)) k)
    (hr : ∀ t, ret = some t → ∀ k ∈ t.classNames, JavaName ci w (.cls (num k)) k) :
    Promises ci w c ⟨.plain, retOf num ret, implicitOf N ci.clazz fake true ++ ts.map (typeOf num)⟩ true name fn
      (methodPromises fake true name ts ret fn) := by
  cases fake with
  | true =>
    have e : envParams (implicitOf N ci.clazz true true ++ ts.map (typeOf num)) = 0 := envParams_types num ts
    have p := Promises.fn (ci := ci) (w := w) (c := c) (static := true) (name := name) (fn := fn)
      (f := ⟨.plain, retOf num ret, implicitOf N ci.clazz true true ++ ts.map (typeOf num)⟩) (tys := ts) (ret := ret) (.inl rfl)
      (by rw [e]; exact typeOf_javas h) (retOf_java hr) (by
        intro _ p hp hs
        rw [e] at hp
        have hp : (ts.map (typeOf num))[0]? = some p := hp
        rw [List.getElem?_map] at hp
        obtain ⟨t, _, rfl⟩ := Option.map_eq_some_iff.1 hp
        obtain ⟨b, k, e, hb⟩ := typeOf_shape num t
        rw [e] at hs
        cases hs
        exact hb rfl)
    rw [e] at p
    exact p
  | false =>
    exact Promises.self (f := ⟨.plain, retOf num ret, implicitOf N ci.clazz false true ++ ts.map (typeOf num)⟩)
      (p := .data .pointer (.cls ci.clazz)) rfl (JavaTypes.cons (.object hc) (typeOf_javas h)) (retOf_java hr) rfl .clazz

theorem method_promises {compat : Bool} {ci : CppInfo} {w : World} {N : CppNames} {num : Str → Nat} {ts : List Ty}
    {ret : Option Ty} (c : Nat) (fake static : Bool) (name : Str) (fn : Nat → Nat)
    (hc : JavaName ci w (.cls ci.clazz) "java/lang/Class".toList)
    (h : ∀ t ∈ ts, ∀ k ∈ t.classNames, JavaName ci w (.cls (num k)) k)
    (hr : ∀ t, ret = some t → ∀ k ∈ t.classNames, JavaName ci w (.cls (num k)) k) :
    EntryPromises compat ci w c (methodEntry N ci.clazz num fake static name ts ret fn)
      (methodPromises fake static name ts ret fn) := by
  cases static with
  | true => exact .static ((says_flags _ _ true).2 rfl) rfl (static_promises c fake name fn hc h hr)
  | false =>
    refine .inst (fun hs => nomatch (says_flags compat _ false).1 hs) ?_
    cases fake with
    | true =>
      have e : envParams (implicitOf N ci.clazz true false ++ ts.map (typeOf num)) = 0 := envParams_types num ts
      have p := Promises.fn (ci := ci) (w := w) (c := c) (static := false) (name := name) (fn := fn)
        (f := ⟨.member, retOf num ret, implicitOf N ci.clazz true false ++ ts.map (typeOf num)⟩) (tys := ts) (ret := ret) (.inr rfl)
        (by rw [e]; exact typeOf_javas h) (retOf_java hr) (fun h => nomatch h)
      rw [e] at p
      exact p
    | false =>
      exact Promises.fn (f := ⟨.member, retOf num ret, implicitOf N ci.clazz false false ++ ts.map (typeOf num)⟩) (.inr rfl)
        (typeOf_javas h) (retOf_java hr) (fun h => nomatch h)

theorem ctor_promises {compat : Bool} {ci : CppInfo} {w : World} {num : Str → Nat} {ts : List Ty}
    {n : Str} (c : Nat) (fn : Nat → Nat) (hc : JavaName ci w (.cls ci.clazz) "java/lang/Class".toList)
    (h : ∀ t ∈ ts, ∀ k ∈ t.classNames, JavaName ci w (.cls (num k)) k) (hn : JavaName ci w (.cls (num n)) n) :
    EntryPromises compat ci w c (.ctor (num n) (ts.map (typeOf num)) fn)
      (methodPromises true true "<init>".toList ts (some (.cls n)) fn) :=
  .ctor (static_promises (N := ⟨fun _ => none, 0⟩) (ret := some (.cls n)) c true "<init>".toList fn hc h (by
    rintro t ⟨⟩ k hk
    simp only [Ty.classNames, List.mem_singleton] at hk
    subst hk
    exact hn))

theorem hookEntry_field (num : Str → Nat) (static : Bool) (name : Str) (t : Ty) (fn : Nat → Nat) :
    hookEntry ⟨if static then .variable else .dataMember, typeOf num t, []⟩ name fn = fieldEntry num static name t fn := by
  cases static <;> rfl

theorem hookEntry_method (static : Bool) (name : Str) (r : CppTy) (ps : List CppTy) (fn : Nat → Nat) :
    hookEntry ⟨if static then .plain else .member, r, ps⟩ name fn =
      .named ⟨if static then .plain else .member, r, ps⟩ name (some (flagsOf static)) fn := by
  cases static <;> rfl

theorem allPromises_map {compat : Bool} {ci : CppInfo} {w : World} {c : Nat} {α : Type} {l : List α}
    {ent : α → DescEntry} {pr : α → List Promise} (h : ∀ x ∈ l, EntryPromises compat ci w c (ent x) (pr x)) :
    AllPromises compat ci w c (l.map ent) (l.flatMap pr) := by
  induction l with
  | nil => exact .nil
  | cons x l ih => exact .cons (h x (by simp)) (ih fun y hy => h y (by simp [hy]))

theorem allPromises_append {compat : Bool} {ci : CppInfo} {w : World} {c : Nat} {es fs : List DescEntry}
    {ps qs : List Promise} (h : AllPromises compat ci w c es ps) (h' : AllPromises compat ci w c fs qs) :
    AllPromises compat ci w c (es ++ fs) (ps ++ qs) := by
  induction h with
  | nil => exact h'
  | cons h1 _ ih =>
    rw [List.append_assoc]
    exact .cons h1 ih

theorem lastPromise_of {p : Promise} {ps : List Promise} (hp : p ∈ ps) (h : ∀ q ∈ ps, p.Same q → q.fn = p.fn) :
    LastIn p ps := by
  unfold LastIn
  cases hl : lastPromise p.use p.static p.name p.type ps with
  | none =>
    have : (lastPromise p.use p.static p.name p.type ps).isSome :=
      lastPromise_isSome.2 ⟨p, hp, rfl, rfl, rfl, rfl⟩
    rw [hl] at this
    cases this
  | some fn =>
    unfold lastPromise at hl
    obtain ⟨q, hq, rfl⟩ := Option.map_eq_some_iff.1 hl
    have hq := List.mem_of_getLast? hq
    obtain ⟨h1, h2⟩ := List.mem_filter.1 hq
    simp only [Bool.and_eq_true, beq_iff_eq] at h2
    rw [h q h1 ⟨h2.1.1.1.symm, h2.1.1.2.symm, h2.1.2.symm, h2.2.symm⟩]

/-! ### Running -/

theorem keep_other (c : Nat) (w : World) (p : Promise) {x : Nat} (hx : x ≠ c) : (w.keep c p).mem x = w.mem x := by
  have ext : ∀ a b : Members, a.methods = b.methods → a.fields = b.fields → a.natives = b.natives → a.bases = b.bases → a = b := by
    intro a b h1 h2 h3 h4
    cases a; cases b
    simp only at h1 h2 h3 h4
    subst h1 h2 h3 h4
    rfl
  obtain ⟨use, st, name, type, fn⟩ := p
  cases use with
  | call =>
    obtain ⟨a1, a2, a3, a4⟩ := hookMethod_rest w c st name type fn x
    exact ext _ _ (a4 hx) a1 a2 a3
  | get =>
    obtain ⟨a1, a2, a3, a4⟩ := hookField_rest w c true st name type fn x
    exact ext _ _ a1 (a4 hx) a2 a3
  | set =>
    obtain ⟨a1, a2, a3, a4⟩ := hookField_rest w c false st name type fn x
    exact ext _ _ a1 (a4 hx) a2 a3

theorem keepAll_other (c : Nat) (ps : List Promise) {x : Nat} (hx : x ≠ c) :
    ∀ w : World, (ps.foldl (World.keep c) w).mem x = w.mem x := by
  induction ps with
  | nil => exact fun _ => rfl
  | cons p ps ih =>
    intro w
    rw [List.foldl_cons, ih, keep_other c w p hx]

/-- No method of class `x` is implemented by the application. -/
def NoNatives (w : World) (x : Nat) : Prop := ∀ m ∈ (w.mem x).methods, m.native = none

theorem keep_noNatives (c : Nat) (w : World) (p : Promise) {x : Nat} (h : NoNatives w x) : NoNatives (w.keep c p) x := by
  by_cases hx : x = c
  · subst hx
    obtain ⟨use, st, name, type, fn⟩ := p
    cases use with
    | call =>
      unfold NoNatives
      simp only [World.keep]
      cases hf : (w.mem x).methods.find? (hookHits st name type) with
      | none =>
        rw [hookMethod_new hf]
        intro m hm
        simp only [World.setMem, if_true] at hm
        rcases List.mem_append.1 hm with hm | hm
        · exact h m hm
        · rw [List.mem_singleton.1 hm]
      | some m0 =>
        rw [hookMethod_found hf]
        intro m hm
        simp only [World.setMem, if_true] at hm
        have key : ∀ l : List MethodRec, (∀ m ∈ l, m.native = none) →
            ∀ m ∈ updateFirst (hookHits st name type) (fun m => { m with handle := some fn }) l, m.native = none := by
          intro l
          induction l with
          | nil => exact fun _ m hm => nomatch hm
          | cons a l ih =>
            intro hl m hm
            unfold updateFirst at hm
            split at hm
            · rcases List.mem_cons.1 hm with rfl | hm
              · exact hl a (by simp)
              · exact hl m (by simp [hm])
            · rcases List.mem_cons.1 hm with rfl | hm
              · exact hl m (by simp)
              · exact ih (fun b hb => hl b (by simp [hb])) m hm
        exact key _ h m hm
    | get =>
      unfold NoNatives
      rw [show ((w.keep x ⟨.get, st, name, type, fn⟩).mem x).methods = (w.mem x).methods from
        (hookField_rest w x true st name type fn x).1]
      exact h
    | set =>
      unfold NoNatives
      rw [show ((w.keep x ⟨.set, st, name, type, fn⟩).mem x).methods = (w.mem x).methods from
        (hookField_rest w x false st name type fn x).1]
      exact h
  · unfold NoNatives
    rw [keep_other c w p hx]
    exact h

theorem keepAll_noNatives (c : Nat) (ps : List Promise) {x : Nat} :
    ∀ w : World, NoNatives w x → NoNatives (ps.foldl (World.keep c) w) x := by
  induction ps with
  | nil => exact fun _ h => h
  | cons p ps ih => exact fun w h => ih _ (keep_noNatives c w p h)

/-- Every use that is promised goes to the last function promised for it. -/
def KeptAll (t : Members) (ps : List Promise) : Prop := ∀ p ∈ ps, LastIn p ps → p.Kept t

/-- What a program needs to know about names, and what it does not change. -/
def NamesIn (ci : CppInfo) (U : Nat → Str → Prop) (w : World) : Prop := ∀ t n, U t n → JavaName ci w (.cls t) n

theorem findClass_known {w : World} (hr : MemReachable w) {n : Str} {c : Nat} (h : w.IsClass n c) :
    ∃ reg, findClass false w.reg n = (reg, some c) ∧ MemReachable { w with reg := reg } ∧ Keeps w { w with reg := reg } := by
  obtain ⟨r', c', e, hl, hcr⟩ := findClass_create hr.inv.reg n
  have h' := hcr.keep n c ((isClass_iff hr.inv).1 h)
  rw [hl] at h'
  cases h'
  have hrun : (MemOp.findClass false n).run w = .ok ({ w with reg := r' } : World) := by
    simp only [MemOp.run, e]
  have hr1 := hr.step hrun
  refine ⟨r', e, hr1, rfl, fun m d hd => ?_⟩
  exact (isClass_iff hr1.inv).2 (hcr.keep m d ((isClass_iff hr.inv).1 hd))

theorem runBlock_ok {ci : CppInfo} {w : World} (hr : MemReachable w) {d : DescClass} {c : Nat} (hc : w.IsClass d.name c)
    {ps : List Promise} (h : AllPromises false ci w c d.entries ps) :
    ∃ w', runBlock ci w d = .ok w' ∧ MemReachable w' ∧ Keeps w w' ∧ KeptAll (w'.mem c) ps ∧
      (∀ x, x ≠ c → w'.mem x = w.mem x) ∧ ∀ x, NoNatives w x → NoNatives w' x := by
  obtain ⟨reg, e, hr1, k1⟩ := findClass_known hr hc
  obtain ⟨rs, m, w', e', hr', k, s⟩ := register_promises hr1 (AllPromises.mono k1 h)
  refine ⟨w', ?_, hr', k1.trans k, ?_, ?_, ?_⟩
  · unfold runBlock
    simp only [e, m, Res.bind_ok, e']
  · unfold KeptAll
    rw [s.mem]
    exact keepAll_kept c ps _
  · intro x hx
    rw [s.mem]
    exact keepAll_other c ps hx _
  · intro x hn
    unfold NoNatives
    rw [s.mem]
    exact keepAll_noNatives c ps _ hn

theorem NamesIn.mono {ci : CppInfo} {U : Nat → Str → Prop} {w w' : World} (h : NamesIn ci U w) (k : Keeps w w') :
    NamesIn ci U w' := fun t n hU => (h t n hU).mono k

theorem runBlocks_ok {ci : CppInfo} {U : Nat → Str → Prop} {pr : DescClass → List Promise} {ds : List DescClass}
    (hp : ∀ d ∈ ds, ∀ w c, NamesIn ci U w → AllPromises false ci w c d.entries (pr d))
    (hnd : (ds.map (·.name)).Nodup) : ∀ {w : World}, MemReachable w → NamesIn ci U w →
      (∀ d ∈ ds, ∃ c, w.IsClass d.name c) →
      ∃ w', runBlocks ci w ds = .ok w' ∧ MemReachable w' ∧ Keeps w w' ∧
        (∀ d ∈ ds, ∃ c, w'.IsClass d.name c ∧ KeptAll (w'.mem c) (pr d)) ∧
        (∀ x, (∀ d ∈ ds, ¬ w'.IsClass d.name x) → w'.mem x = w.mem x) ∧ ∀ x, NoNatives w x → NoNatives w' x := by
  induction ds with
  | nil =>
    intro w hr _ _
    exact ⟨w, rfl, hr, ⟨rfl, fun _ _ h => h⟩, fun d hd => (nomatch hd), fun _ _ => rfl, fun _ h => h⟩
  | cons d ds ih =>
    intro w hr hU hc
    rw [List.map_cons, List.nodup_cons] at hnd
    obtain ⟨c, hcc⟩ := hc d (by simp)
    obtain ⟨w1, e1, hr1, k1, kept1, o1, n1⟩ := runBlock_ok hr hcc (hp d (by simp) w c hU)
    obtain ⟨w2, e2, hr2, k2, kept2, o2, n2⟩ := ih (fun d hd => hp d (by simp [hd])) hnd.2 hr1 (hU.mono k1) (fun d hd => by
      obtain ⟨c, h⟩ := hc d (by simp [hd])
      exact ⟨c, k1.keep _ _ h⟩)
    have hc2 : w2.IsClass d.name c := k2.keep _ _ (k1.keep _ _ hcc)
    have hne : ∀ e ∈ ds, ¬ w2.IsClass e.name c := by
      intro e he h
      refine isClass_ne hr2.inv hc2 h ?_ rfl
      intro e'
      exact hnd.1 (List.mem_map.2 ⟨e, he, e'.symm⟩)
    refine ⟨w2, ?_, hr2, k1.trans k2, ?_, ?_, fun x h => n2 x (n1 x h)⟩
    · unfold runBlocks
      rw [e1, Res.bind_ok, e2]
    · intro e he
      rcases List.mem_cons.1 he with rfl | he
      · refine ⟨c, hc2, ?_⟩
        rw [o2 c hne]
        exact kept1
      · exact kept2 e he
    · intro x hx
      rw [o2 x fun e he => hx e (by simp [he]), o1 x]
      rintro rfl
      exact hx d (by simp) hc2

/-- What `GetClass<T>(name)` keeps: classes, members, and the names of all types. -/
theorem bindType_names {ci : CppInfo} {U : Nat → Str → Prop} {w : World} (hr : MemReachable w) {d : DescClass}
    (hd : ∀ t n, U t n → ci.id (.cls t) = d.type → n = d.name) :
    ∃ w1 c, w.bindType d.type d.name d.bases = (w1, some c) ∧ MemReachable w1 ∧ w1.IsClass d.name c ∧
      (∀ n e, w.IsClass n e → w1.IsClass n e) ∧
      (∀ t n, U t n → JavaName ci w (.cls t) n ∨ ci.id (.cls t) = d.type → JavaName ci w1 (.cls t) n) ∧
      (∀ x, (w1.mem x).methods = (w.mem x).methods ∧ (w1.mem x).fields = (w.mem x).fields) ∧
      ∀ x, x ≠ c → w1.mem x = w.mem x := by
  obtain ⟨w1, c, hb, hr1, hc1, t1, m1, k1, n1⟩ := bindType_ok hr d
  refine ⟨w1, c, hb, hr1, hc1, k1, ?_, ?_, ?_⟩
  · intro t n hU h
    by_cases ht : ci.id (.cls t) = d.type
    · have := hd t n hU ht
      subst this
      exact .inl ⟨c, by rw [t1, if_pos ht], hc1⟩
    · rcases h with h | h
      · unfold JavaName
        rw [t1, if_neg ht]
        rcases h with ⟨k, h1, h2⟩ | h
        · exact .inl ⟨k, h1, k1 _ _ h2⟩
        · exact .inr h
      · exact absurd h ht
  · intro x
    rw [m1]
    by_cases hx : x = c
    · subst hx; rw [if_pos rfl]; exact ⟨rfl, rfl⟩
    · rw [if_neg hx]; exact ⟨rfl, rfl⟩
  · intro x hx
    rw [m1, if_neg hx]

theorem bindTypes_ok {ci : CppInfo} {U : Nat → Str → Prop} {L : List DescClass}
    (hd : ∀ d ∈ L, ∀ t n, U t n → ci.id (.cls t) = d.type → n = d.name) : ∀ {w : World}, MemReachable w →
      MemReachable (bindTypes w L) ∧ (∀ n e, w.IsClass n e → (bindTypes w L).IsClass n e) ∧
      (∀ d ∈ L, ∃ c, (bindTypes w L).IsClass d.name c) ∧
      (∀ t n, U t n → JavaName ci w (.cls t) n ∨ (∃ d ∈ L, ci.id (.cls t) = d.type) → JavaName ci (bindTypes w L) (.cls t) n) ∧
      (∀ x, ((bindTypes w L).mem x).methods = (w.mem x).methods) := by
  induction L with
  | nil =>
    intro w hr
    refine ⟨hr, fun _ _ h => h, fun d hd => (nomatch hd), fun t n _ h => ?_, fun _ => rfl⟩
    rcases h with h | ⟨d, hd, _⟩
    · exact h
    · cases hd
  | cons d L ih =>
    intro w hr
    obtain ⟨w1, c, hb, hr1, hc1, k1, j1, m1, _⟩ := bindType_names (ci := ci) hr (hd d (by simp))
    obtain ⟨hr2, k2, c2, j2, m2⟩ := ih (fun d' h => hd d' (by simp [h])) hr1
    have e : bindTypes w (d :: L) = bindTypes w1 L := by
      unfold bindTypes
      rw [List.foldl_cons, hb]
    rw [e]
    refine ⟨hr2, fun n e h => k2 n e (k1 n e h), ?_, ?_, ?_⟩
    · intro d' h
      rcases List.mem_cons.1 h with rfl | h
      · exact ⟨c, k2 _ _ hc1⟩
      · exact c2 d' h
    · intro t n hU h
      refine j2 t n hU ?_
      rcases h with h | ⟨d', h', ht⟩
      · exact .inl (j1 t n hU (.inl h))
      · rcases List.mem_cons.1 h' with rfl | h'
        · exact .inl (j1 t n hU (.inr ht))
        · exact .inr ⟨d', h', ht⟩
    · intro x
      rw [m2, (m1 x).1]

theorem runRegisters_ok {compat : Bool} {ci : CppInfo} {U : Nat → Str → Prop} {pr : DescClass → List Promise}
    {ds : List DescClass} (hp : ∀ d ∈ ds, ∀ w c, NamesIn ci U w → AllPromises compat ci w c d.entries (pr d))
    (hd : ∀ d ∈ ds, ∀ t n, U t n → ci.id (.cls t) = d.type → n = d.name)
    (hnd : (ds.map (·.name)).Nodup) : ∀ {w : World}, MemReachable w → NamesIn ci U w →
      ∃ w', runRegisters compat ci w ds = .ok w' ∧ MemReachable w' ∧ (∀ n e, w.IsClass n e → w'.IsClass n e) ∧
        (∀ d ∈ ds, ∃ c, w'.IsClass d.name c ∧ KeptAll (w'.mem c) (pr d)) ∧
        (∀ x, (∀ d ∈ ds, ¬ w'.IsClass d.name x) → w'.mem x = w.mem x) ∧ ∀ x, NoNatives w x → NoNatives w' x := by
  induction ds with
  | nil =>
    intro w hr _
    exact ⟨w, rfl, hr, fun _ _ h => h, fun d hd => (nomatch hd), fun _ _ => rfl, fun _ h => h⟩
  | cons d ds ih =>
    intro w hr hU
    rw [List.map_cons, List.nodup_cons] at hnd
    obtain ⟨w0, c, hb, hr0, hc0, k0, j0, m0, o0⟩ := bindType_names hr (hd d (by simp))
    have hU0 : NamesIn ci U w0 := fun t n h => j0 t n h (.inl (hU t n h))
    obtain ⟨w1, e1, hr1, k1, s1⟩ := registerClass_ok hb hr0 (hp d (by simp) w0 c hU0)
    obtain ⟨w2, e2, hr2, k2, kept2, o2, n2⟩ := ih (fun d hd => hp d (by simp [hd])) (fun d' h => hd d' (by simp [h]))
      hnd.2 hr1 (hU0.mono k1)
    have hc2 : w2.IsClass d.name c := k2 _ _ (k1.keep _ _ hc0)
    have hne : ∀ e ∈ ds, ¬ w2.IsClass e.name c := by
      intro e he h
      refine isClass_ne hr2.inv hc2 h ?_ rfl
      intro e'
      exact hnd.1 (List.mem_map.2 ⟨e, he, e'.symm⟩)
    refine ⟨w2, ?_, hr2, fun n e h => k2 n e (k1.keep n e (k0 n e h)), ?_, ?_, fun x h => n2 x ?_⟩
    · unfold runRegisters
      rw [e1, Res.bind_ok]
      exact e2
    · intro e he
      rcases List.mem_cons.1 he with rfl | he
      · refine ⟨c, hc2, ?_⟩
        rw [o2 c hne]
        unfold KeptAll
        rw [s1.mem]
        exact keepAll_kept c _ _
      · exact kept2 e he
    · intro x hx
      have hxc : x ≠ c := by
        rintro rfl
        exact hx d (by simp) hc2
      rw [o2 x fun e he => hx e (by simp [he]), s1.mem, keepAll_other c _ hxc, o0 x hxc]
    · unfold NoNatives
      rw [s1.mem]
      refine keepAll_noNatives c _ _ ?_
      unfold NoNatives
      rw [(m0 x).1]
      exact h

end Jnivm
