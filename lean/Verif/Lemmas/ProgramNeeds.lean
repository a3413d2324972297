import Verif.Lemmas.Program
import Verif.Lemmas.CppNeeds
/-! Lemmas about class dumps that cannot be read as programs. -/
namespace Jnivm
open Spec

variable {R : CppReader} {T : Typing} {ws : World}

/-! ### Namespaces -/

theorem track_opened {E : List PreLine} : ∀ {st : List Str} {r}, track st E = some r → ∀ x ∈ r.2, ∀ p, p ≠ [] → p <+: x.1 →
    p ∈ opened st E ∨ p <+: st := by
  induction E with
  | nil =>
    intro st r h x hx
    cases h
    cases hx
  | cons e E ih =>
    intro st r h x hx p hp hpx
    cases e with
    | opens k =>
      rcases ih (st := st ++ [k]) h x hx p hp hpx with h | h
      · exact .inl (by simp [opened, h])
      · rcases List.prefix_concat_iff.1 h with h | h
        · exact .inl (by simp [opened, h])
        · exact .inr h
    | declares k =>
      unfold track at h
      obtain ⟨q, hq, rfl⟩ := Option.map_eq_some_iff.1 h
      rcases List.mem_cons.1 hx with rfl | hx
      · exact .inr hpx
      · exact ih hq x hx p hp hpx
    | closes =>
      unfold track at h
      split at h
      · cases h
      · rcases ih h x hx p hp hpx with h | h
        · exact .inl h
        · exact .inr (h.trans (List.dropLast_prefix st))

/-- The forward declarations, as lines. -/
theorem pre_facts {pre : Str} (H : NamesAllowed ws) (h : ForwardDeclares ws pre) : ∃ E D, track [] E = some ([], D) ∧
    (∀ s, s ∈ declaredBy D ↔ ∃ n c, ws.Dumps n c ∧ '$' ∉ n ∧ s = cppScope n) ∧
    (∀ n c a b, ws.Dumps n c → '$' ∉ n → n = a ++ '/' :: b → ∃ q ∈ opened [] E, joinScope q = cppScope a) ∧
    ∀ inc, inc = "#include <jnivm.h>".toList ∨ inc = "#include <fake-jni/fake-jni.h>".toList → ∀ rest,
      textLines (inc ++ "\n".toList ++ pre ++ "\n".toList ++ rest) = inc :: ((if E = [] then [[]] else preLines 0 E) ++ textLines rest) := by
  obtain ⟨N, E, _, hN, ht, ho, rfl⟩ := h
  generalize hD : N.map (fun x => ("jnivm".toList :: x.1.filter (· ≠ []), x.2)) = D at ht
  have hx : ∀ x ∈ N, (∀ p ∈ x.1, '/' ∉ p) ∧ '/' ∉ x.2 ∧ '$' ∉ x.2 ∧ ∃ c, ws.Dumps (inPackages x.1 x.2) c := by
    rintro ⟨ps, s⟩ hx
    exact (hN ps s).1 hx
  have hfil : ∀ x ∈ N, x.1.filter (· ≠ []) = x.1 := by
    intro x hm
    obtain ⟨h1, h2, h3, c, h4⟩ := hx x hm
    exact (packaged H h1 h2 h3 h4).2.2.1
  have hdecl : declaredBy D = N.map fun x => cppScope (inPackages x.1 x.2) := by
    unfold declaredBy
    rw [← hD, List.map_map]
    refine List.map_congr_left fun x hm => ?_
    obtain ⟨h1, h2, h3, c, h4⟩ := hx x hm
    obtain ⟨_, _, e1, e2⟩ := packaged H h1 h2 h3 h4
    simp only [Function.comp_def]
    rw [e1, ← e2]
  have hlast : ∀ n, PreLine.opens n ∈ E ∨ PreLine.declares n ∈ E → isIdent n = true := by
    intro n hn
    rcases hn with hn | hn
    · obtain ⟨q, hq, hl⟩ := opens_opened (st := []) hn
      obtain ⟨x, hm, hpre⟩ := ho q hq
      obtain ⟨h1, h2, h3, c, h4⟩ := hx x hm
      rw [hfil x hm] at hpre
      rcases package_scope H h1 h2 h3 h4 hpre (opened_ne q hq) with rfl | ⟨⟨k, hk, hl'⟩, _⟩
      · simp only [List.getLast?_singleton, Option.some.injEq] at hl
        rw [← hl]
        decide +kernel
      · rw [hl] at hl'
        cases hl'
        exact ((packaged H h1 h2 h3 h4).1 n (by simp [hk])).1
    · obtain ⟨q, hq⟩ := declares_tracked ht hn
      rw [← hD] at hq
      obtain ⟨x, hm, e⟩ := List.mem_map.1 hq
      cases e
      obtain ⟨h1, h2, h3, c, h4⟩ := hx x hm
      exact ((packaged H h1 h2 h3 h4).1 x.2 (by simp)).1
  refine ⟨E, D, ht, fun s => ⟨fun hs => ?_, ?_⟩, ?_, fun inc hinc rest => ?_⟩
  · rw [hdecl] at hs
    obtain ⟨x, hm, rfl⟩ := List.mem_map.1 hs
    obtain ⟨h1, h2, h3, c, h4⟩ := hx x hm
    refine ⟨_, c, h4, ?_, rfl⟩
    have h5 := (packaged H h1 h2 h3 h4).2.1
    unfold inPackages
    simp only [List.mem_append, List.mem_flatMap, not_or, not_exists, not_and]
    exact ⟨fun p hp => ⟨h5 p hp, by decide⟩, h3⟩
  · rintro ⟨n, c, hn, hd, rfl⟩
    obtain ⟨ps, s, rfl, h1, h2, h3⟩ := packages_of hd
    rw [hdecl]
    exact List.mem_map.2 ⟨(ps, s), (hN ps s).2 ⟨h1, h2, h3, c, hn⟩, rfl⟩
  · rintro n c a b hn hd hab
    obtain ⟨ps, s, rfl, h1, h2, h3⟩ := packages_of hd
    have hm : (ps, s) ∈ N := (hN ps s).2 ⟨h1, h2, h3, c, hn⟩
    have hpl := (H _ _ hn).1
    have e := nameParts_packages h1 h2 h3 hpl
    rw [hab, nameParts_sep (.inl rfl)] at e
    have hpre : nameParts a <+: ps := by
      rcases List.eq_nil_or_concat (nameParts b) with hb | ⟨l, x, hb⟩
      · exact absurd hb (nameParts_ne b)
      · rw [List.concat_eq_append] at hb
        rw [hb, ← List.append_assoc] at e
        exact ⟨l, (List.append_inj' e rfl).1⟩
    refine ⟨"jnivm".toList :: nameParts a, ?_, ?_⟩
    · have hin : ("jnivm".toList :: ps, s) ∈ D := by
        rw [← hD]
        refine List.mem_map.2 ⟨(ps, s), hm, ?_⟩
        simp only [hfil _ hm]
      have hp2 : "jnivm".toList :: nameParts a <+: "jnivm".toList :: ps := by
        obtain ⟨t, ht⟩ := hpre
        exact ⟨t, by rw [← ht]; rfl⟩
      rcases track_opened ht _ hin _ (List.cons_ne_nil _ _) hp2 with h | h
      · exact h
      · exact absurd (List.prefix_nil.1 h) (List.cons_ne_nil _ _)
    · rw [hab] at hpl
      rw [cppScope_parts (plainName_before hpl)]
  · have hl1 : IsLines (inc ++ "\n".toList) [inc] := by
      refine isLines_line ?_
      rcases hinc with rfl | rfl <;> decide +kernel
    by_cases hE : E = []
    · subst hE
      have hl2 : IsLines (joinLines (preLines 0 []) ++ "\n".toList) [[]] := isLines_line (l := []) (by simp)
      have := (hl1.append hl2) rest
      rw [← List.append_assoc] at this
      rw [this, if_pos rfl]
      rfl
    · have hne : preLines 0 E ≠ [] := by
        intro h
        cases E with
        | nil => exact hE rfl
        | cons e E => cases e <;> cases h
      have hl2 := isLines_join (preLines_lack (fun n hn => ident_lacks (hlast n hn) (by decide)) 0) hne
      have := (hl1.append hl2) rest
      rw [← List.append_assoc] at this
      rw [this, if_neg hE]
      rfl

/-! ### Classes -/

/-- The member lines of a class. -/
def memberLines (fake : Bool) (T : Typing) (ws : World) (e : DumpEntry) : List Str :=
  (ws.mem e.cls).fields.map (fun f => fieldDeclaration fake f.static f.name (T.field f)) ++
    (dumpedMethods ws e.cls).map fun m => declaration fake m.static m.name e.simple (T.params m) (T.result m)

theorem entryHead_eq (fake : Bool) (T : Typing) (ws : World) (e : DumpEntry) :
    entryHead fake T ws e = headLines fake (cppScope e.name) e.name (e.inner.map innerDeclaration ++ memberLines fake T ws e) := by
  unfold entryHead classBody memberLines
  rw [List.append_assoc]

theorem memberLines_ok {e : DumpEntry} (fake : Bool) (H : NamesAllowed ws) (HM : MembersSpelled T ws) (hd : e.Describes ws) : ∀ l ∈ memberLines fake T ws e,
    l.head? ≠ some ' ' ∧ l ≠ "};".toList ∧ ∀ N k, readMember N (lastName (cppScope e.name)) l ≠ some (.inner k) := by
  have hD : ws.Dumps e.name e.cls := ⟨hd.isClass, hd.dumped⟩
  have hg := good_scope H hd
  obtain ⟨pre, hpre⟩ := nameParts_simple hd.simple hd.dumped.1
  have hid : isIdent e.simple = true := ((H _ _ hD).2 e.simple (by rw [hpre]; simp)).1
  have hty : ∀ (t : Ty) (s : Str), (cppType fake t ++ s).head? ≠ some ' ' := by
    intro t s
    cases t with
    | prim p =>
      have : ∀ fake : Bool, ∀ p : Prim, ∃ c r, cppPrim fake p = c :: r ∧ c ≠ ' ' := by
        intro fake p
        cases fake <;> cases p <;> exact ⟨_, _, rfl, by decide⟩
      obtain ⟨c, r, e, hc⟩ := this fake p
      simp only [cppType, e, List.cons_append, List.head?_cons]
      exact fun h => hc (Option.some.inj h)
    | cls n => exact (show some 's' ≠ some ' ' by decide)
    | arr t => exact (show some 's' ≠ some ' ' by decide)
  rw [hg.last]
  intro l hl
  unfold memberLines at hl
  rcases List.mem_append.1 hl with hl | hl
  · obtain ⟨f, hf, rfl⟩ := List.mem_map.1 hl
    obtain ⟨h1, h2⟩ := HM.fields _ _ hD f hf
    refine ⟨?_, ?_, fun N k h => ?_⟩
    · unfold fieldDeclaration
      cases f.static with
      | true => exact (show some 's' ≠ some ' ' by decide)
      | false =>
        simp only [Bool.false_eq_true, if_false, List.nil_append, List.append_assoc]
        exact hty _ _
    · intro h
      have : ' ' ∉ "};".toList := by decide
      rw [← h] at this
      unfold fieldDeclaration at this
      exact this (List.mem_append_left _ (List.mem_append_left _ (List.mem_append_right _ (List.mem_singleton.2 rfl))))
    · rw [readMember_field_eq h2 h1] at h
      obtain ⟨r, _, h⟩ := Option.bind_eq_some_iff.1 h
      split at h <;> cases h
  · obtain ⟨m, hm, rfl⟩ := List.mem_map.1 hl
    obtain ⟨h1, h2⟩ := HM.methods _ _ hD m hm
    have hps : ∀ t ∈ T.params m, ∀ n ∈ t.classNames, WordName n := fun t ht n hn =>
      h2 n (List.mem_append_left _ (List.mem_flatMap.2 ⟨t, ht, hn⟩))
    have hrs : ∀ t, T.result m = some t → ∀ n ∈ t.classNames, WordName n := fun t ht n hn =>
      h2 n (List.mem_append_right _ (by rw [ht]; exact hn))
    refine ⟨?_, ?_, fun N k h => ?_⟩
    · unfold declaration
      by_cases hi : m.name = "<init>".toList
      · rw [if_pos hi]
        have key : ' ' ∉ e.simple := ident_lacks hid (by decide)
        cases hc : e.simple with
        | nil => rw [hc] at hid; cases hid
        | cons c t =>
          rw [hc] at key
          simp only [List.mem_cons, not_or] at key
          simpa using fun e => key.1 e.symm
      · rw [if_neg hi]
        cases m.static with
        | true => exact (show some 's' ≠ some ' ' by decide)
        | false =>
          simp only [Bool.false_eq_true, if_false, List.nil_append, List.append_assoc]
          cases T.result m with
          | none => exact (show some 'v' ≠ some ' ' by decide)
          | some t => exact hty _ _
    · intro h
      have : '(' ∉ "};".toList := by decide
      rw [← h] at this
      unfold declaration at this
      exact this (List.mem_append_left _ (List.mem_append_left _ (List.mem_append_right _ (List.mem_singleton.2 rfl))))
    · rcases h1 with h1 | h1
      · rw [readMember_method_eq hps hrs h1 hid] at h
        obtain ⟨ps, _, h⟩ := Option.bind_eq_some_iff.1 h
        obtain ⟨r, _, h⟩ := Option.bind_eq_some_iff.1 h
        split at h <;> cases h
      · rw [h1, readMember_ctor_eq hps hid] at h
        obtain ⟨ps, _, h⟩ := Option.map_eq_some_iff.1 h
        cases h

/-- All classes. -/
theorem headers_inv (H : NamesAllowed ws) (HM : MembersSpelled T ws) (L : List DumpEntry) : ∀ {t t' : CppText}, t.place = .top → t.spaces = [] →
    (∀ e ∈ L, e.Describes ws) → t.readLines R (L.flatMap (entryHead R.fake T ws)) = some t' →
    ∀ a e b, L = a ++ e :: b → (∀ k ∈ e.inner, cppScope e.name ++ "::".toList ++ k ∉ t.packages) ∧
      ∀ l ∈ memberLines R.fake T ws e, ∃ m, readMember (namesKnown R (t.names ++ (a.flatMap innerScopes ++ innerScopes e))) e.simple l = some m ∧
        MemberAllowed R t.packages (cppScope e.name) m := by
  induction L with
  | nil =>
    intro t t' _ _ _ _ a e b h
    exact absurd h (by simp)
  | cons x L ih =>
    intro t t' ht hsp hd h a e b hs
    rw [List.flatMap_cons, readLines_append] at h
    obtain ⟨t1, h1, h⟩ := Option.bind_eq_some_iff.1 h
    have hx := hd x (by simp)
    have hg := good_scope H hx
    rw [entryHead_eq] at h1
    obtain ⟨i1, i2, i3, i4, i5, i6⟩ := header_inv ht hsp (hg.chars ' ' (by decide)) (memberLines_ok R.fake H HM hx) h1
    cases a with
    | nil =>
      rw [List.nil_append] at hs
      cases hs
      refine ⟨fun k hk => (i5 k hk).2.2, fun l hl => ?_⟩
      have := i6 l hl
      rw [hg.last, i4] at this
      exact this
    | cons y a =>
      rw [List.cons_append] at hs
      cases hs
      have := ih i1 i2 (fun e he => hd e (by simp only [List.mem_cons]; exact .inr he)) h a e b rfl
      rw [i3, i4] at this
      rw [List.flatMap_cons, List.append_assoc, ← List.append_assoc t.names]
      exact this

/-! ### Scopes -/

theorem joinScope_inj {j : Str} (p : List Str) : ∀ {q : List Str}, (∀ x ∈ p, ':' ∉ x) → (∀ x ∈ q, ':' ∉ x) → ':' ∉ j →
    joinScope (j :: p) = joinScope (j :: q) → p = q := by
  have e2 : ':' ∈ "::".toList := by decide
  suffices h : ∀ (l : Nat) (p q : List Str), p.length = l → (∀ x ∈ p, ':' ∉ x) → (∀ x ∈ q, ':' ∉ x) → ':' ∉ j →
      joinScope (j :: p) = joinScope (j :: q) → p = q by
    intro q
    exact h p.length p q rfl
  intro l
  induction l with
  | zero =>
    intro p q hl hp hq hj h
    rw [List.eq_nil_of_length_eq_zero hl] at h ⊢
    rcases List.eq_nil_or_concat q with rfl | ⟨q, y, rfl⟩
    · rfl
    · rw [List.concat_eq_append, ← List.cons_append, joinScope_snoc (by simp)] at h
      have h : j = _ := h
      rw [h] at hj
      exact absurd (List.mem_append_left _ (List.mem_append_right _ e2)) hj
  | succ l ih =>
    intro p q hl hp hq hj h
    rcases List.eq_nil_or_concat p with rfl | ⟨p, x, rfl⟩
    · cases hl
    · rw [List.concat_eq_append] at *
      rcases List.eq_nil_or_concat q with rfl | ⟨q, y, rfl⟩
      · rw [← List.cons_append, joinScope_snoc (by simp)] at h
        have h : _ = j := h
        rw [← h] at hj
        exact absurd (List.mem_append_left _ (List.mem_append_right _ e2)) hj
      · rw [List.concat_eq_append] at *
        rw [← List.cons_append, ← List.cons_append, joinScope_snoc (by simp), joinScope_snoc (by simp)] at h
        have h1 := congrArg splitScope h
        rw [splitScope_append (hp x (by simp)), splitScope_append (hq y (by simp))] at h1
        simp only [Option.some.injEq, Prod.mk.injEq] at h1
        obtain ⟨h1, rfl⟩ := h1
        rw [ih p q (by simpa using hl) (fun z hz => hp z (by simp [hz])) (fun z hz => hq z (by simp [hz])) hj h1]

theorem scope_parts_eq {n m : Str} {c d : Nat} (H : NamesAllowed ws) (hn : ws.Dumps n c) (hm : ws.Dumps m d) (h : cppScope n = cppScope m) :
    nameParts n = nameParts m := by
  obtain ⟨h1, h2⟩ := H _ _ hn
  obtain ⟨h3, h4⟩ := H _ _ hm
  rw [cppScope_parts h1, cppScope_parts h3] at h
  exact joinScope_inj _ (fun x hx => ident_lacks (h2 x hx).1 (by decide)) (fun x hx => ident_lacks (h4 x hx).1 (by decide)) (by decide) h

/-- The scope of an inner class is not that of a class in packages. -/
theorem scope_kinds {o k m : Str} {c d : Nat} (H : NamesAllowed ws) (hn : ws.Dumps (o ++ '$' :: k) c) (ho : ∃ c', ws.Dumps o c') (hk : '$' ∉ k)
    (hm : ws.Dumps m d) (hd : '$' ∉ m) (hpk : ∀ n c m d a b, ws.Dumps n c → n = a ++ '/' :: b → ws.Dumps m d → cppScope m ≠ cppScope a) :
    cppScope (o ++ '$' :: k) ≠ cppScope m := by
  intro h
  have e := scope_parts_eq H hn hm h
  obtain ⟨c', ho⟩ := ho
  obtain ⟨ps, s, rfl, h1, h2, h3⟩ := packages_of hd
  have hpl := (H _ _ hm).1
  have hp0 := (H _ _ hn).1
  rw [nameParts_packages h1 h2 h3 hpl, nameParts_sep (.inr rfl), nameParts_one (plain_tail hp0) hk] at e
  have e := (List.append_inj' e rfl).1
  rcases List.eq_nil_or_concat ps with rfl | ⟨ps, p, rfl⟩
  · exact absurd e (nameParts_ne o)
  · rw [List.concat_eq_append] at *
    have e1 : inPackages (ps ++ [p]) s = inPackages ps p ++ '/' :: s := by
      simp [inPackages, show "/".toList = ['/'] from rfl]
    have hd' := (packaged H h1 h2 h3 hm).2.1 p (by simp)
    refine hpk _ _ _ _ (inPackages ps p) s hm e1 ho ?_
    rw [e1] at hpl
    have hpl' := plainName_before hpl
    rw [cppScope_parts hpl', cppScope_parts (plainName_outer hp0), nameParts_packages (fun q hq => h1 q (by simp [hq])) (h1 p (by simp)) hd' hpl', e]

/-- If no class has the scope of a package, then classes have different scopes. -/
theorem scope_injective (H : NamesAllowed ws) (ho : ∀ o i c, ws.Dumps (o ++ '$' :: i) c → '$' ∉ i → ∃ c', ws.Dumps o c')
    (hpk : ∀ n c m d a b, ws.Dumps n c → n = a ++ '/' :: b → ws.Dumps m d → cppScope m ≠ cppScope a) :
    ∀ (l : Nat) {n m : Str} {c d : Nat}, n.length = l → ws.Dumps n c → ws.Dumps m d → cppScope n = cppScope m → n = m := by
  intro l
  induction l using Nat.strongRecOn with
  | _ l ih =>
    intro n m c d hl hn hm h
    by_cases h1 : '$' ∈ n
    · obtain ⟨o, k, rfl, hk⟩ := last_dollar h1
      by_cases h2 : '$' ∈ m
      · obtain ⟨o', k', rfl, hk'⟩ := last_dollar h2
        have hp := (H _ _ hn).1
        have hp' := (H _ _ hm).1
        have e := scope_parts_eq H hn hm h
        rw [nameParts_sep (.inr rfl), nameParts_sep (.inr rfl), nameParts_one (plain_tail hp) hk, nameParts_one (plain_tail hp') hk'] at e
        obtain ⟨e1, e2⟩ := List.append_inj' e rfl
        cases e2
        obtain ⟨c1, hc1⟩ := ho o k c hn hk
        obtain ⟨c2, hc2⟩ := ho o' k d hm hk
        rw [ih o.length (by rw [← hl]; simp) rfl hc1 hc2
          (by rw [cppScope_parts (plainName_outer hp), cppScope_parts (plainName_outer hp'), e1])]
      · exact absurd h (scope_kinds H hn (ho _ _ _ hn hk) hk hm h2 hpk)
    · by_cases h2 : '$' ∈ m
      · obtain ⟨o', k', rfl, hk'⟩ := last_dollar h2
        exact absurd h.symm (scope_kinds H hm (ho _ _ _ hm hk') hk' hn h1 hpk)
      · have e := scope_parts_eq H hn hm h
        obtain ⟨ps, s, rfl, a1, a2, a3⟩ := packages_of h1
        obtain ⟨ps', s', rfl, b1, b2, b3⟩ := packages_of h2
        rw [nameParts_packages a1 a2 a3 (H _ _ hn).1, nameParts_packages b1 b2 b3 (H _ _ hm).1] at e
        obtain ⟨rfl, e2⟩ := List.append_inj' e rfl
        cases e2
        rfl

/-! ### The whole text -/

theorem isLines_entry' {fake : Bool} {e : DumpEntry} (H : NamesAllowed ws) (hT : WellTyped ws T) (hd : e.Describes ws) :
    IsLines (headerText fake ws T e) (entryHead fake T ws e) := by
  rw [(regenerate_lines ws T e).1]
  have hD : ws.Dumps e.name e.cls := ⟨hd.isClass, hd.dumped⟩
  obtain ⟨pre, hpre⟩ := nameParts_simple hd.simple hd.dumped.1
  have hid : isIdent e.simple = true := ((H _ _ hD).2 e.simple (by rw [hpre]; simp)).1
  refine isLines_header ((good_scope H hd).chars _ (by simp)) (hT.names _ _ hd.isClass) fun l hl => ?_
  unfold classBody at hl
  rcases List.mem_append.1 hl with hl | hl
  · rcases List.mem_append.1 hl with hl | hl
    · obtain ⟨k, hk, rfl⟩ := List.mem_map.1 hl
      obtain ⟨h1, h2, j, hj⟩ := (hd.inner k).1 hk
      have hk' := ((H _ _ ⟨hj, dumped_inner hd.dumped⟩).2 k (by rw [nameParts_sep (.inr rfl), nameParts_one h1 h2]; simp)).1
      unfold innerDeclaration
      simp only [List.mem_append, not_or]
      exact ⟨⟨by decide, ident_lacks hk' (by decide)⟩, by decide⟩
    · obtain ⟨f, hf, rfl⟩ := List.mem_map.1 hl
      obtain ⟨_, h2, h3, h4⟩ := hT.fields _ _ hd.isClass hd.dumped f hf
      exact (fieldDeclaration_plain fake f.static h4 (h2 ▸ h3)).1
  · obtain ⟨m, hm, rfl⟩ := List.mem_map.1 hl
    obtain ⟨h1, h2⟩ := List.mem_filter.1 hm
    obtain ⟨h3, h4, h5⟩ := hT.methods _ _ hd.isClass hd.dumped m h1 (by simpa using h2)
    exact (declaration_plain fake h3 h4 h5 (ident_lacks hid (by decide))).1

/-- What a readable class dump looks like. -/
theorem program_inv (hr : MemReachable ws) (hT : WellTyped ws T) (H : NamesAllowed ws) : ∃ d0, ∀ d, d0 ≤ d → ∀ s P,
    ws.classDump R.fake d = .ok s → readProgram R s = some P → ∃ (L : List DumpEntry) (F pk : List Str) (t t' : CppText), ListOk ws L ∧ t.place = .top ∧ t.spaces = [] ∧ t.packages = pk ∧ t.names = F ∧
      (∀ x, x ∈ F ↔ ∃ n c, ws.Dumps n c ∧ '$' ∉ n ∧ x = cppScope n) ∧
      (∀ n c a b, ws.Dumps n c → '$' ∉ n → n = a ++ '/' :: b → cppScope a ∈ pk ∧ cppScope a ∉ F) ∧
      t.readLines R (L.flatMap (entryHead R.fake T ws)) = some t' := by
  obtain ⟨d0, h⟩ := dump_text hr hT
  refine ⟨d0, fun d hd s P hs hP => ?_⟩
  obtain ⟨pre, L, B, hpre, h1, h2, h3, h4, h5, h6, h7, tf, tt⟩ := h d hd
  obtain ⟨E, D, htr, hD, hop, htext⟩ := pre_facts H hpre
  have hlines : ∀ fake, IsLines (L.flatMap (headerText fake ws T)) (L.flatMap (entryHead fake T ws)) := fun fake =>
    isLines_flatMap fun e he => isLines_entry' H hT (h1 e he)
  have shape : ∃ inc rest, (inc = "#include <jnivm.h>".toList ∨ inc = "#include <fake-jni/fake-jni.h>".toList) ∧
      s = inc ++ "\n".toList ++ pre ++ "\n".toList ++ (L.flatMap (headerText R.fake ws T) ++ rest) := by
    cases hf : R.fake with
    | false =>
      rw [hf, tf] at hs
      refine ⟨"#include <jnivm.h>".toList, (side false B).flatMap (definitionText false ws T) ++
        ("void InitJNIBinding(jnivm::ENV* env) {\n".toList ++ (L.flatMap (fun e => registration false e.name) ++
        (B.flatMap (blockText ws T) ++ "\n}".toList))), .inl rfl, ?_⟩
      rw [← Res.ok.inj hs]
      have e1 : "#include <jnivm.h>\n".toList = "#include <jnivm.h>".toList ++ "\n".toList := by decide +kernel
      rw [e1]
      simp only [List.append_assoc]
    | true =>
      rw [hf, tt] at hs
      refine ⟨"#include <fake-jni/fake-jni.h>".toList, (side false B).flatMap (definitionText true ws T) ++
        (L.flatMap (descriptorText ws T) ++ ("\nvoid InitJNIBinding(FakeJni::Jvm* vm) {\n".toList ++
        (L.flatMap (fun e => registration true e.name) ++ "\n}".toList))), .inr rfl, ?_⟩
      rw [← Res.ok.inj hs]
      have e1 : "#include <fake-jni/fake-jni.h>\n".toList = "#include <fake-jni/fake-jni.h>".toList ++ "\n".toList := by decide +kernel
      rw [e1]
      simp only [List.append_assoc]
  obtain ⟨inc, rest, hinc, rfl⟩ := shape
  unfold readProgram at hP
  obtain ⟨tf', hP, _⟩ := Option.bind_eq_some_iff.1 hP
  rw [htext inc hinc, hlines R.fake rest] at hP
  have hP := (readLines_then (include_read R hinc) _).symm.trans hP
  have hP := (readLines_append _ _ _).symm.trans hP
  obtain ⟨t, ht, hP⟩ := Option.bind_eq_some_iff.1 hP
  rw [readLines_append] at hP
  obtain ⟨t', ht', _⟩ := Option.bind_eq_some_iff.1 hP
  have key : t = { CppText.start R with spaces := [], names := declaredBy D, packages := R.spaces ++ (opened [] E).map joinScope } ∧
      ∀ q ∈ opened [] E, joinScope q ∉ declaredBy D := by
    by_cases hE : E = []
    · subst hE
      rw [if_pos rfl, read_blank rfl] at ht
      cases ht
      cases htr
      exact ⟨by simp [CppText.start, opened, declaredBy], fun q hq => (nomatch hq)⟩
    · rw [if_neg hE] at ht
      obtain ⟨e, _, _, h4, _⟩ := pre_inv E 0 (t := CppText.start R) rfl htr ht
      exact ⟨e, fun q hq => (h4 q hq).2.2⟩
  obtain ⟨rfl, hclash⟩ := key
  refine ⟨L, _, _, _, t', ⟨h1, h2, h3, h4⟩, rfl, rfl, rfl, rfl, hD, fun n c a b hn hd hab => ?_, ht'⟩
  obtain ⟨q, hq, e⟩ := hop n c a b hn hd hab
  rw [← e]
  exact ⟨List.mem_append_right _ (List.mem_map.2 ⟨q, hq, rfl⟩), hclash q hq⟩

theorem idxOf_split {x : Str} : ∀ {a b : List Str}, x ∉ a → (a ++ x :: b).idxOf x = a.length := by
  intro a
  induction a with
  | nil =>
    intro b _
    simp
  | cons y a ih =>
    intro b h
    simp only [List.mem_cons, not_or] at h
    have hb : (y == x) = false := beq_eq_false_iff_ne.2 fun e => h.1 e.symm
    rw [List.cons_append, List.idxOf_cons, ih h.2, hb]
    rfl

theorem dollar_inj {a b x y : Str} (hx : '$' ∉ x) (hy : '$' ∉ y) (h : a ++ '$' :: x = b ++ '$' :: y) : a = b ∧ x = y := by
  have key : ∀ (l : Nat) (a b x y : Str), a.length + b.length = l → '$' ∉ x → '$' ∉ y → a ++ '$' :: x = b ++ '$' :: y → a = b ∧ x = y := by
    intro l
    induction l using Nat.strongRecOn with
    | _ l ih =>
      intro a b x y hl hx hy h
      cases a with
      | nil =>
        cases b with
        | nil => exact ⟨rfl, (List.cons.inj h).2⟩
        | cons d b =>
          have := (List.cons.inj h).2
          exact absurd (by rw [this]; simp) hx
      | cons c a =>
        cases b with
        | nil =>
          have := (List.cons.inj h).2
          exact absurd (by rw [← this]; simp) hy
        | cons d b =>
          obtain ⟨h1, h2⟩ := List.cons.inj h
          obtain ⟨rfl, rfl⟩ := ih (a.length + b.length) (by rw [← hl]; simp; omega) a b x y rfl hx hy h2
          exact ⟨by rw [h1], rfl⟩
  exact key _ a b x y rfl hx hy h

end Jnivm
