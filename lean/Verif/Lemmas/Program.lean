import Verif.Lemmas.CppAssemble
import Verif.Spec.Regenerable
/-! Lemmas about whole class dumps as programs. -/
namespace Jnivm
open Spec

variable {R : CppReader} {num : Str → Nat} {clazz : Nat} {T : Typing} {ws : World}

theorem scope_inner {n k : Str} (hp : PlainName (n ++ '$' :: k)) (h1 : '/' ∉ k) (h2 : '$' ∉ k) :
    cppScope (n ++ '$' :: k) = cppScope n ++ "::".toList ++ k := by
  rw [cppScope_parts hp, nameParts_sep (.inr rfl), nameParts_one h1 h2, cppScope_parts (plainName_outer hp), ← List.cons_append,
    joinScope_snoc (by simp)]

/-- A name without `$` is in packages. -/
theorem packages_of {n : Str} (h : '$' ∉ n) : ∃ ps s, n = inPackages ps s ∧ (∀ p ∈ ps, '/' ∉ p) ∧ '/' ∉ s ∧ '$' ∉ s := by
  induction hl : n.length using Nat.strongRecOn generalizing n with
  | _ l ih =>
    by_cases hs : '/' ∈ n
    · obtain ⟨a, b, rfl, ha⟩ : ∃ a b, n = a ++ '/' :: b ∧ '/' ∉ a := by
        clear hl ih h
        induction n with
        | nil => cases hs
        | cons c t ih =>
          by_cases hc : c = '/'
          · exact ⟨[], t, by rw [hc]; rfl, by simp⟩
          · obtain ⟨a, b, rfl, ha⟩ := ih (by simpa [Ne.symm hc] using hs)
            exact ⟨c :: a, b, rfl, by simpa [Ne.symm hc] using ha⟩
      obtain ⟨ps, s, rfl, h1, h2, h3⟩ := ih b.length (by rw [← hl]; simp; omega) (n := b) (fun hx => h (by simp [hx])) rfl
      refine ⟨a :: ps, s, by simp [inPackages, show "/".toList = ['/'] from rfl], fun p hp => ?_, h2, h3⟩
      rcases List.mem_cons.1 hp with rfl | hp
      · exact ha
      · exact h1 p hp
    · exact ⟨[], n, by simp [inPackages], fun _ hp => (nomatch hp), hs, h⟩

/-- The last `$` of a name. -/
theorem last_dollar {n : Str} (h : '$' ∈ n) : ∃ o k, n = o ++ '$' :: k ∧ '$' ∉ k := by
  induction n with
  | nil => cases h
  | cons c t ih =>
    by_cases ht : '$' ∈ t
    · obtain ⟨o, k, rfl, hk⟩ := ih ht
      exact ⟨c :: o, k, rfl, hk⟩
    · have hc : c = '$' := by
        rcases List.mem_cons.1 h with h | h
        · exact h.symm
        · exact absurd h ht
      exact ⟨[], t, by rw [hc]; rfl, ht⟩

theorem plain_tail {o k : Str} (h : PlainName (o ++ '$' :: k)) : '/' ∉ k := by
  intro hk
  obtain ⟨a, b, rfl⟩ := List.append_of_mem hk
  exact (h (o ++ '$' :: a) b (by simp)).2.2 (by simp)

/-- All outer classes of a class come before it. -/
theorem outer_first {L : List DumpEntry} (h : OuterFirst L) : ∀ (l : Nat) {a b : List DumpEntry} {e : DumpEntry} {o i : Str}, i.length = l → L = a ++ e :: b →
    e.name = o ++ '$' :: i → '/' ∉ i → ∃ e' ∈ a, e'.name = o := by
  intro l
  induction l using Nat.strongRecOn with
  | _ l ih =>
    intro a b e o i hl hL he hi
    by_cases hd : '$' ∈ i
    · obtain ⟨x, y, rfl, hy⟩ := last_dollar hd
      simp only [List.mem_append, List.mem_cons, not_or] at hi
      obtain ⟨e', he', hn⟩ := h a e b hL (o ++ '$' :: x) y (by rw [he]; simp) hi.2.2 hy
      obtain ⟨a1, a2, rfl⟩ := List.append_of_mem he'
      obtain ⟨e'', h1, h2⟩ := ih x.length (by rw [← hl]; simp) (a := a1) (b := a2 ++ e :: b) (e := e') (o := o) rfl (by rw [hL]; simp) hn hi.1
      exact ⟨e'', by simp [h1], h2⟩
    · exact h a e b hL o i he hi hd

theorem inner_mem {e : DumpEntry} (h : e.Describes ws) {k : Str} (h1 : '/' ∉ k) (h2 : '$' ∉ k) {j : Nat} (hj : ws.IsClass (e.name ++ '$' :: k) j)
    (hp' : PlainName (e.name ++ '$' :: k)) : cppScope (e.name ++ '$' :: k) ∈ innerScopes e := by
  rw [scope_inner hp' h1 h2]
  exact List.mem_map.2 ⟨k, (h.inner k).2 ⟨h1, h2, j, hj⟩, rfl⟩

/-- What is known of the names of a program that is read in part. -/
structure NamesOk (ws : World) (F : List Str) : Prop where
  sound : ∀ s ∈ F, ∃ n c, ws.Dumps n c ∧ s = cppScope n
  top : ∀ n c, ws.Dumps n c → '$' ∉ n → cppScope n ∈ F

/-- What is known of its list of classes. -/
structure ListOk (ws : World) (L : List DumpEntry) : Prop where
  describes : ∀ e ∈ L, e.Describes ws
  all : ∀ n c, ws.IsClass n c → Dumped n → ∃ e ∈ L, e.name = n
  nodup : (L.map DumpEntry.name).Nodup
  outer : OuterFirst L

theorem inner_sound {e : DumpEntry} (H : NamesAllowed ws) (h : e.Describes ws) {s : Str} (hs : s ∈ innerScopes e) :
    ∃ n c, ws.Dumps n c ∧ s = cppScope n := by
  obtain ⟨k, hk, rfl⟩ := List.mem_map.1 hs
  obtain ⟨h1, h2, j, hj⟩ := (h.inner k).1 hk
  have hd : ws.Dumps (e.name ++ '$' :: k) j := ⟨hj, dumped_inner h.dumped⟩
  exact ⟨_, j, hd, (scope_inner (H _ _ hd).1 h1 h2).symm⟩

theorem names_sound {F : List Str} {L : List DumpEntry} (H : NamesAllowed ws) (hF : NamesOk ws F) (hL : ListOk ws L) {a : List DumpEntry} (ha : ∀ e ∈ a, e ∈ L) :
    ∀ s ∈ F ++ a.flatMap innerScopes, ∃ n c, ws.Dumps n c ∧ s = cppScope n := by
  intro s hs
  rcases List.mem_append.1 hs with hs | hs
  · exact hF.sound s hs
  · obtain ⟨e, he, hs⟩ := List.mem_flatMap.1 hs
    exact inner_sound H (hL.describes e (ha e he)) hs

/-- A class is declared before its members. -/
theorem own_named {F : List Str} {L : List DumpEntry} (H : NamesAllowed ws) (hF : NamesOk ws F) (hL : ListOk ws L) {a b : List DumpEntry} {e : DumpEntry}
    (hs : L = a ++ e :: b) : cppScope e.name ∈ F ++ a.flatMap innerScopes := by
  have he : e ∈ L := by rw [hs]; simp
  have hd := hL.describes e he
  have hp := (H _ _ ⟨hd.isClass, hd.dumped⟩).1
  by_cases hx : '$' ∈ e.name
  · obtain ⟨o, k, hn, hk⟩ := last_dollar hx
    have hk' : '/' ∉ k := plain_tail (hn ▸ hp)
    obtain ⟨e', he', hn'⟩ := hL.outer a e b hs o k hn hk' hk
    refine List.mem_append_right _ (List.mem_flatMap.2 ⟨e', he', ?_⟩)
    have hc := hd.isClass
    subst hn'
    rw [hn] at hp hc ⊢
    exact inner_mem (hL.describes e' (by rw [hs]; simp [he'])) hk' hk hc hp
  · exact List.mem_append_left _ (hF.top _ _ ⟨hd.isClass, hd.dumped⟩ hx)

/-- So are the dumped classes that its members can name. -/
theorem usable_named {F : List Str} {L : List DumpEntry} (H : NamesAllowed ws) (hF : NamesOk ws F) (hL : ListOk ws L) {a b : List DumpEntry} {e : DumpEntry}
    (hs : L = a ++ e :: b) {k : Str} {c : Nat} (hk : ws.Dumps k c) (hu : ∀ o x, k = o ++ '$' :: x → '/' ∉ x → '$' ∉ x → Encloses o e.name) :
    cppScope k ∈ F ++ a.flatMap innerScopes ++ innerScopes e := by
  have he : e ∈ L := by rw [hs]; simp
  have hp := (H _ _ hk).1
  by_cases hx : '$' ∈ k
  · obtain ⟨o, x, rfl, hx2⟩ := last_dollar hx
    have hx1 : '/' ∉ x := plain_tail hp
    have hin : ∀ e' ∈ L, e'.name = o → cppScope (o ++ '$' :: x) ∈ innerScopes e' := by
      rintro e' he' rfl
      exact inner_mem (hL.describes e' he') hx1 hx2 hk.1 hp
    rcases hu o x rfl hx1 hx2 with rfl | ⟨_, i, hn, hi⟩
    · exact List.mem_append_right _ (hin e he rfl)
    · obtain ⟨e', he', hn'⟩ := outer_first hL.outer i.length rfl hs hn hi
      exact List.mem_append_left _ (List.mem_append_right _ (List.mem_flatMap.2 ⟨e', he', hin e' (by rw [hs]; simp [he']) hn'⟩))
  · exact List.mem_append_left _ (List.mem_append_left _ (hF.top _ _ hk hx))

theorem class_scope {k : Str} (fake : Bool) (hp : PlainName k) (hd : Dumped k) : cppClass fake k = cppScope k := by
  have hb : ∀ m ∈ builtin, k ≠ m := fun m hm e => hd.2 k (.inl rfl) (e ▸ hm)
  have h1 := hb "java/lang/String".toList (by decide +kernel)
  have h2 := hb "java/lang/Object".toList (by decide +kernel)
  have h3 := hb "java/lang/Throwable".toList (by decide +kernel)
  have h4 := hb "java/lang/Class".toList (by decide +kernel)
  have h5 := hb "java/lang/ref/WeakReference".toList (by decide +kernel)
  rw [cppScope_plain hp]
  unfold cppClass
  rw [if_neg h1, if_neg h2, if_neg h3, if_neg h4, if_neg h5]
  split <;> rfl

theorem known_of {N : List Str} {n : Str} {t : Ty} (H : Regenerable R num clazz T ws) (hN : ∀ s ∈ N, ∃ n c, ws.Dumps n c ∧ s = cppScope n)
    (hk : ∀ k c, ws.Dumps k c → (∀ o x, k = o ++ '$' :: x → '/' ∉ x → '$' ∉ x → Encloses o n) → cppScope k ∈ N)
    (ht : ∀ k ∈ t.classNames, Usable R num ws n k) : Known R.fake (namesKnown R N) num t := by
  intro k hm
  rcases ht k hm with ⟨⟨c, hc⟩, hu⟩ | ⟨h1, h2⟩
  · obtain ⟨hp, hi⟩ := H.names k c hc
    refine ⟨wordName_parts fun x hx => (hi x hx).1, ?_⟩
    unfold namesKnown
    simp only
    rw [class_scope R.fake hp hc.2, if_pos (hk k c hc hu), H.types k c hc]
  · refine ⟨h1, ?_⟩
    unfold namesKnown
    simp only
    rw [if_neg, h2]
    intro hx
    obtain ⟨m, d, hm, e⟩ := hN _ hx
    rw [e, (H.unused m d hm).1] at h2
    cases h2

theorem compiles_ok {N : List Str} {e : DumpEntry} (H : Regenerable R num clazz T ws) (hT : WellTyped ws T) (hd : e.Describes ws)
    (hN : ∀ s ∈ N, ∃ n c, ws.Dumps n c ∧ s = cppScope n) (hown : cppScope e.name ∈ N)
    (hk : ∀ k c, ws.Dumps k c → (∀ o x, k = o ++ '$' :: x → '/' ∉ x → '$' ∉ x → Encloses o e.name) → cppScope k ∈ N) :
    Compiles R.fake (namesKnown R N) num clazz T e.name e.simple (ws.mem e.cls).fields (dumpedMethods ws e.cls) := by
  have hD : ws.Dumps e.name e.cls := ⟨hd.isClass, hd.dumped⟩
  obtain ⟨hm1, hm2⟩ := H.members _ _ hD
  obtain ⟨pre, hpre⟩ := nameParts_simple hd.simple hd.dumped.1
  have hname : ∀ x ∈ memberNames ws e.cls, isIdent x = true ∧ x ≠ e.simple := fun x hx =>
    ⟨(hm2 x hx).1, fun h => (hm2 x hx).2.1 (h ▸ hd.simple)⟩
  have hmem : ∀ m ∈ dumpedMethods ws e.cls, m ∈ (ws.mem e.cls).methods ∧ m.native = none := by
    intro m hm
    obtain ⟨h1, h2⟩ := List.mem_filter.1 hm
    exact ⟨h1, by simpa using h2⟩
  refine ⟨⟨?_, ?_, ((H.names _ _ hD).2 e.simple (by rw [hpre]; simp)).1, fun f hf => ?_, fun m hm => ?_, fun m hm hi => ?_⟩, H.ctors _ _ hD, hm1⟩
  · unfold namesKnown
    simp only
    rw [if_pos hown, H.types _ _ hD]
  · unfold namesKnown
    simp only
    rw [if_neg, H.library.1]
    intro hx
    obtain ⟨n, c, hn, e⟩ := hN _ hx
    have := (H.unused n c hn).1
    rw [← e, H.library.1] at this
    cases this
  · have h1 := hT.fields _ _ hd.isClass hd.dumped f hf
    have h2 := hname f.name (List.mem_append_left _ (List.mem_map.2 ⟨f, hf, rfl⟩))
    exact ⟨h1.2.1, known_of H hN hk (H.fields _ _ hD f hf), h2.1, h2.2⟩
  · obtain ⟨h1, h2⟩ := hmem m hm
    have hs := H.methods _ _ hD m hm
    refine ⟨(hT.methods _ _ hd.isClass hd.dumped m h1 h2).1, fun t ht => known_of H hN hk fun k hk => hs k ?_, fun t ht => known_of H hN hk fun k hk => hs k ?_⟩
    · exact List.mem_append_left _ (List.mem_flatMap.2 ⟨t, ht, hk⟩)
    · refine List.mem_append_right _ ?_
      rw [ht]
      exact hk
  · exact hname m.name (List.mem_append_right _ (List.mem_map.2 ⟨m, List.mem_filter.2 ⟨hm, decide_eq_true hi⟩, rfl⟩))

theorem good_scope {e : DumpEntry} (H : NamesAllowed ws) (hd : e.Describes ws) : GoodScope (cppScope e.name) e.simple := by
  obtain ⟨hp, hi⟩ := H _ _ ⟨hd.isClass, hd.dumped⟩
  have hw : WordName e.name := wordName_parts fun x hx => (hi x hx).1
  obtain ⟨pre, hpre⟩ := nameParts_simple hd.simple hd.dumped.1
  have hid : isIdent e.simple = true := (hi e.simple (by rw [hpre]; simp)).1
  refine ⟨?_, fun c hc hx => ?_, ?_⟩
  · rw [cppScope_plain hp]
    exact ⟨'j', _, rfl, by decide⟩
  · rw [cppScope_plain hp] at hx
    have := cppClass_chars false hw c hx
    clear hx
    revert this
    revert hc
    revert c
    decide
  · obtain ⟨pre, h⟩ := cppScope_simple hp hd.simple hd.dumped.1
    rw [h]
    exact lastName_append (ident_lacks hid (by decide)) pre

theorem members_nodup {c : Nat} {n : Str} {inner : List Str} (hi : inner.Nodup) (hm : (memberNames ws c).Nodup)
    (hc : ∀ m ∈ dumpedMethods ws c, m.name = "<init>".toList → m.static = true ∧ T.result m = some (.cls n))
    (ho : (((dumpedMethods ws c).filter (·.name = "<init>".toList)).map fun m => (T.params m).map (typeOf num)).Nodup) :
    (membersOf R.fake R.base num clazz T inner (ws.mem c).fields (dumpedMethods ws c)).Nodup := by
  unfold memberNames at hm
  obtain ⟨hf, hs, hfs⟩ := List.nodup_append.1 hm
  unfold membersOf
  refine List.nodup_append.2 ⟨List.nodup_append.2 ⟨?_, ?_, ?_⟩, ?_, ?_⟩
  · exact List.pairwise_map.2 (hi.imp fun h e => h (CppMember.inner.inj e))
  · exact List.pairwise_map.2 ((List.pairwise_map.1 hf).imp fun h e => h (CppMember.named.inj e).1)
  · intro x hx y hy e
    obtain ⟨k, _, rfl⟩ := List.mem_map.1 hx
    obtain ⟨f, _, rfl⟩ := List.mem_map.1 hy
    cases e
  · refine List.pairwise_map.2 ?_
    have h1 := List.pairwise_filter.1 (List.pairwise_map.1 hs)
    have h2 := List.pairwise_filter.1 (List.pairwise_map.1 ho)
    refine (List.Pairwise.and_mem.1 (h1.and h2)).imp ?_
    rintro m m' ⟨hm1, hm2, h1, h2⟩ e
    by_cases hi1 : m.name = "<init>".toList
    · by_cases hi2 : m'.name = "<init>".toList
      · rw [if_pos hi1, if_pos hi2, (hc m hm1 hi1).1, (hc m' hm2 hi2).1] at e
        exact h2 (decide_eq_true hi1) (decide_eq_true hi2) (List.append_cancel_left (CppMember.ctor.inj e))
      · rw [if_pos hi1, if_neg hi2] at e
        cases e
    · by_cases hi2 : m'.name = "<init>".toList
      · rw [if_neg hi1, if_pos hi2] at e
        cases e
      · rw [if_neg hi1, if_neg hi2] at e
        exact h1 (decide_eq_true hi1) (decide_eq_true hi2) (CppMember.named.inj e).1
  · intro x hx y hy e
    subst e
    obtain ⟨m, hm, e⟩ := List.mem_map.1 hy
    rcases List.mem_append.1 hx with hx | hx
    · obtain ⟨k, _, rfl⟩ := List.mem_map.1 hx
      split at e <;> cases e
    · obtain ⟨f, hf, rfl⟩ := List.mem_map.1 hx
      by_cases hi : m.name = "<init>".toList
      · rw [if_pos hi] at e
        cases e
      · rw [if_neg hi] at e
        have := (CppMember.named.inj e).1
        exact hfs f.name (List.mem_map.2 ⟨f, hf, rfl⟩) m.name (List.mem_map.2 ⟨m, List.mem_filter.2 ⟨hm, decide_eq_true hi⟩, rfl⟩) this.symm

theorem members_apart {e : DumpEntry} (H : Regenerable R num clazz T ws) (hd : e.Describes ws) :
    membersApart (entryDecl R num clazz T ws e).1.members = true := by
  have hD : ws.Dumps e.name e.cls := ⟨hd.isClass, hd.dumped⟩
  obtain ⟨hm1, hm2⟩ := H.members _ _ hD
  have hM : (entryDecl R num clazz T ws e).1.members = membersOf R.fake R.base num clazz T e.inner (ws.mem e.cls).fields (dumpedMethods ws e.cls) := rfl
  have hnamed : ∀ x f, CppMember.named x f ∈ (entryDecl R num clazz T ws e).1.members → x ∈ memberNames ws e.cls := by
    intro x f hx
    rw [hM] at hx
    unfold membersOf at hx
    unfold memberNames
    rcases List.mem_append.1 hx with hx | hx
    · rcases List.mem_append.1 hx with hx | hx
      · obtain ⟨k, _, e⟩ := List.mem_map.1 hx
        cases e
      · obtain ⟨g, hg, e⟩ := List.mem_map.1 hx
        cases e
        exact List.mem_append_left _ (List.mem_map.2 ⟨g, hg, rfl⟩)
    · obtain ⟨m, hm, e⟩ := List.mem_map.1 hx
      by_cases hi : m.name = "<init>".toList
      · rw [if_pos hi] at e
        cases e
      · rw [if_neg hi] at e
        cases e
        exact List.mem_append_right _ (List.mem_map.2 ⟨m, List.mem_filter.2 ⟨hm, decide_eq_true hi⟩, rfl⟩)
  have hinner : ∀ k, CppMember.inner k ∈ (entryDecl R num clazz T ws e).1.members → k ∈ e.inner := by
    intro k hx
    rw [hM] at hx
    unfold membersOf at hx
    rcases List.mem_append.1 hx with hx | hx
    · rcases List.mem_append.1 hx with hx | hx
      · obtain ⟨k, hk, e⟩ := List.mem_map.1 hx
        cases e
        exact hk
      · obtain ⟨g, hg, e⟩ := List.mem_map.1 hx
        cases e
    · obtain ⟨m, hm, e⟩ := List.mem_map.1 hx
      split at e <;> cases e
  unfold membersApart
  rw [Bool.and_eq_true, decide_eq_true_eq, List.all_eq_true]
  refine ⟨members_nodup hd.nodup hm1 (H.ctors _ _ hD) (H.overloads _ _ hD), fun m hm => ?_⟩
  cases m with
  | inner k =>
    simp only [List.all_eq_true]
    intro m' hm'
    cases m' with
    | named x f =>
      simp only [bne_iff_ne, ne_eq]
      rintro rfl
      obtain ⟨_, _, j, hj⟩ := (hd.inner x).1 (hinner x hm)
      exact (hm2 x (hnamed x f hm')).2.2.2 j hj
    | inner _ => rfl
    | ctor _ => rfl
  | named _ _ => rfl
  | ctor _ => rfl

/-- The hypotheses of reading, for one class. -/
theorem header_ok {F pk : List Str} {L : List DumpEntry} (H : Regenerable R num clazz T ws) (hT : WellTyped ws T) (hF : NamesOk ws F) (hL : ListOk ws L)
    (hpk : ∀ n c, ws.Dumps n c → cppScope n ∉ pk) {a b : List DumpEntry} {e : DumpEntry} (hs : L = a ++ e :: b) :
    HeaderOk R num clazz T ws pk (F ++ a.flatMap innerScopes) e := by
  have he : e ∈ L := by rw [hs]; simp
  have hd := hL.describes e he
  have hD : ws.Dumps e.name e.cls := ⟨hd.isClass, hd.dumped⟩
  have hown := own_named H.names hF hL hs
  refine ⟨good_scope H.names hd, hown, (compiles_ok H hT hd ?_ (List.mem_append_left _ hown) fun k c hk hu => usable_named H.names hF hL hs hk hu).toDeclarable,
    fun k hk => ?_, fun x hx => ((H.members _ _ hD).2 x hx).2.2.1, members_apart H hd⟩
  · intro s hx
    rcases List.mem_append.1 hx with hx | hx
    · exact names_sound H.names hF hL (fun e' he' => by rw [hs]; simp [he']) s hx
    · exact inner_sound H.names hd hx
  · obtain ⟨h1, h2, j, hj⟩ := (hd.inner k).1 hk
    have hD' : ws.Dumps (e.name ++ '$' :: k) j := ⟨hj, dumped_inner hd.dumped⟩
    obtain ⟨hp, hi⟩ := H.names _ _ hD'
    have hk' := hi k (by rw [nameParts_sep (.inr rfl), nameParts_one h1 h2]; simp)
    rw [← scope_inner hp h1 h2]
    exact ⟨hk'.1, hk'.2, hpk _ _ hD', (H.unused _ _ hD').1⟩

/-! ### Forward declarations -/

/-- A class in its packages, as C++ sees it. -/
theorem packaged {ps : List Str} {s : Str} {c : Nat} (H : NamesAllowed ws) (hp : ∀ p ∈ ps, '/' ∉ p) (h1 : '/' ∉ s) (h2 : '$' ∉ s)
    (hd : ws.Dumps (inPackages ps s) c) : (∀ x ∈ ps ++ [s], isIdent x = true ∧ x ∉ scopelessNames) ∧ (∀ p ∈ ps, '$' ∉ p) ∧
      ps.filter (· ≠ []) = ps ∧ joinScope ("jnivm".toList :: ps ++ [s]) = cppScope (inPackages ps s) := by
  obtain ⟨hpl, hi⟩ := H _ _ hd
  have e := nameParts_packages hp h1 h2 hpl
  rw [e] at hi
  refine ⟨hi, fun p hx => (parts_lacks (n := inPackages ps s) p (by rw [e]; simp [hx])).2, List.filter_eq_self.2 fun p hx => ?_, ?_⟩
  · refine decide_eq_true ?_
    rintro rfl
    have := (hi [] (by simp [hx])).1
    cases this
  · rw [cppScope_parts hpl, e]
    rfl

/-- The namespaces around it are packages. -/
theorem package_scope {ps : List Str} {s : Str} {c : Nat} (H : NamesAllowed ws) (hp : ∀ p ∈ ps, '/' ∉ p) (h1 : '/' ∉ s) (h2 : '$' ∉ s)
    (hd : ws.Dumps (inPackages ps s) c) {q : List Str} (hq : q <+: "jnivm".toList :: ps) (hne : q ≠ []) :
    q = ["jnivm".toList] ∨ (∃ k, k ∈ ps ∧ q.getLast? = some k) ∧ ∃ a b, inPackages ps s = a ++ '/' :: b ∧ joinScope q = cppScope a := by
  obtain ⟨t, ht⟩ := hq
  cases q with
  | nil => exact absurd rfl hne
  | cons j q =>
    simp only [List.cons_append, List.cons.injEq] at ht
    obtain ⟨rfl, rfl⟩ := ht
    rcases List.eq_nil_or_concat q with rfl | ⟨q, k, rfl⟩
    · exact .inl rfl
    · rw [List.concat_eq_append] at *
      refine .inr ⟨⟨k, by simp, by rw [← List.cons_append, List.getLast?_concat]⟩, inPackages q k, inPackages t s, ?_, ?_⟩
      · simp [inPackages, show "/".toList = ['/'] from rfl]
      · have hd' := (packaged H hp h1 h2 hd).2.1 k (by simp)
        have hpl := (H _ _ hd).1
        have e : inPackages (q ++ [k] ++ t) s = inPackages q k ++ '/' :: inPackages t s := by
          simp [inPackages, show "/".toList = ['/'] from rfl]
        rw [e] at hpl
        have hpl' := plainName_before hpl
        rw [cppScope_parts hpl', nameParts_packages (fun p hx => hp p (by simp [hx])) (hp k (by simp)) hd' hpl']

theorem preLines_lack {E : List PreLine} (h : ∀ n, PreLine.opens n ∈ E ∨ PreLine.declares n ∈ E → '\n' ∉ n) : ∀ d, ∀ l ∈ preLines d E, '\n' ∉ l := by
  have hi : ∀ d l, '\n' ∉ l → '\n' ∉ indentBy d l := by
    intro d l hl
    unfold indentBy
    simp only [List.mem_append, not_or]
    exact ⟨fun hx => absurd (List.eq_of_mem_replicate hx) (by decide), hl⟩
  induction E with
  | nil => intro d l hl; cases hl
  | cons e E ih =>
    have ih := ih fun n hn => h n (by rcases hn with hn | hn <;> simp [hn])
    intro d l hl
    cases e with
    | opens n =>
      rw [preLines] at hl
      rcases List.mem_cons.1 hl with rfl | hl
      · refine hi _ _ ?_
        simp only [List.mem_append, not_or]
        exact ⟨⟨by decide, h n (by simp)⟩, by decide⟩
      · exact ih _ l hl
    | declares n =>
      rw [preLines] at hl
      rcases List.mem_cons.1 hl with rfl | hl
      · refine hi _ _ ?_
        simp only [List.mem_append, not_or]
        exact ⟨⟨by decide, h n (by simp)⟩, by decide⟩
      · exact ih _ l hl
    | closes =>
      rw [preLines] at hl
      rcases List.mem_cons.1 hl with rfl | hl
      · exact hi _ _ (by decide)
      · exact ih _ l hl

theorem include_read (R : CppReader) {s : Str} (h : s = "#include <jnivm.h>".toList ∨ s = "#include <fake-jni/fake-jni.h>".toList) :
    (CppText.start R).readLines R [s] = some (CppText.start R) := by
  have key : ∃ r, stripBlanks s = s ∧ s ≠ [] ∧ s ≠ "}".toList ∧ after "#include <".toList s = some r := by
    rcases h with rfl | rfl
    · exact ⟨"jnivm.h>".toList, by decide +kernel, by decide +kernel, by decide +kernel, by decide +kernel⟩
    · exact ⟨"fake-jni/fake-jni.h>".toList, by decide +kernel, by decide +kernel, by decide +kernel, by decide +kernel⟩
  obtain ⟨r, h0, h1, h2, h3⟩ := key
  have : (CppText.start R).readLine R (stripBlanks s) = some (CppText.start R) := by
    rw [h0, readLine_top rfl]
    unfold CppText.readTop
    rw [if_neg h1, if_neg h2, h3]
    rfl
  rw [readLines_step this]
  rfl

theorem pre_read {pre : Str} (H : Regenerable R num clazz T ws) (h : ForwardDeclares ws pre) : ∃ F pk, NamesOk ws F ∧ (∀ n c, ws.Dumps n c → cppScope n ∉ pk) ∧
    ∀ inc, inc = "#include <jnivm.h>".toList ∨ inc = "#include <fake-jni/fake-jni.h>".toList → ∀ rest,
      (CppText.start R).readLines R (textLines (inc ++ "\n".toList ++ pre ++ "\n".toList ++ rest)) =
        CppText.readLines R ⟨.top, [], pk, F, [], [], [], 0, []⟩ (textLines rest) := by
  obtain ⟨N, E, _, hN, ht, ho, rfl⟩ := h
  generalize hD : N.map (fun x => ("jnivm".toList :: x.1.filter (· ≠ []), x.2)) = D at ht
  have hx : ∀ x ∈ N, (∀ p ∈ x.1, '/' ∉ p) ∧ '/' ∉ x.2 ∧ '$' ∉ x.2 ∧ ∃ c, ws.Dumps (inPackages x.1 x.2) c := by
    rintro ⟨ps, s⟩ hx
    exact (hN ps s).1 hx
  have hfil : ∀ x ∈ N, x.1.filter (· ≠ []) = x.1 := by
    intro x hm
    obtain ⟨h1, h2, h3, c, h4⟩ := hx x hm
    exact (packaged H.names h1 h2 h3 h4).2.2.1
  have hdecl : declaredBy D = N.map fun x => cppScope (inPackages x.1 x.2) := by
    unfold declaredBy
    rw [← hD, List.map_map]
    refine List.map_congr_left fun x hm => ?_
    obtain ⟨h1, h2, h3, c, h4⟩ := hx x hm
    obtain ⟨_, _, e1, e2⟩ := packaged H.names h1 h2 h3 h4
    simp only [Function.comp_def]
    rw [e1, ← e2]
  have hscope : ∀ s ∈ declaredBy D, ∃ n c, ws.Dumps n c ∧ s = cppScope n := by
    intro s hs
    rw [hdecl] at hs
    obtain ⟨x, hm, rfl⟩ := List.mem_map.1 hs
    obtain ⟨_, _, _, c, h4⟩ := hx x hm
    exact ⟨_, c, h4, rfl⟩
  -- the namespaces
  have hopen : ∀ q ∈ opened [] E, q = ["jnivm".toList] ∨ (∃ k, isIdent k = true ∧ k ∉ scopelessNames ∧ q.getLast? = some k) ∧
      ∃ n c a b, ws.Dumps n c ∧ n = a ++ '/' :: b ∧ joinScope q = cppScope a := by
    intro q hq
    obtain ⟨x, hm, hpre⟩ := ho q hq
    obtain ⟨h1, h2, h3, c, h4⟩ := hx x hm
    rw [hfil x hm] at hpre
    rcases package_scope H.names h1 h2 h3 h4 hpre (opened_ne q hq) with e | ⟨⟨k, hk, hl⟩, a, b, e1, e2⟩
    · exact .inl e
    · have := (packaged H.names h1 h2 h3 h4).1 k (by simp [hk])
      exact .inr ⟨⟨k, this.1, this.2, hl⟩, _, c, a, b, h4, e1, e2⟩
  have hclash : ∀ q ∈ opened [] E, ∀ n c, ws.Dumps n c → cppScope n ≠ joinScope q := by
    intro q hq n c hn e
    rcases hopen q hq with rfl | ⟨_, m, d, a, b, hm, hab, e2⟩
    · have hp := (H.names n c hn).1
      rw [cppScope_plain hp] at e
      have := congrArg List.length e
      simp [joinScope] at this
    · exact (H.packages m d a b hm hab).2 n c hn (e.trans e2)
  have hident : ∀ n, PreLine.opens n ∈ E ∨ PreLine.declares n ∈ E → isIdent n = true := by
    intro n hn
    rcases hn with hn | hn
    · obtain ⟨q, hq, hl⟩ := opens_opened (st := []) hn
      rcases hopen q hq with rfl | ⟨⟨k, hk, _, hl'⟩, _⟩
      · simp only [List.getLast?_singleton, Option.some.injEq] at hl
        rw [← hl]
        decide +kernel
      · rw [hl] at hl'
        cases hl'
        exact hk
    · obtain ⟨q, hq⟩ := declares_tracked ht hn
      rw [← hD] at hq
      obtain ⟨x, hm, e⟩ := List.mem_map.1 hq
      cases e
      obtain ⟨h1, h2, h3, c, h4⟩ := hx x hm
      exact ((packaged H.names h1 h2 h3 h4).1 x.2 (by simp)).1
  have hread := read_pre (R := R) E 0 (CppText.start R) rfl _ ht hident (fun n hn => by
      obtain ⟨q, hq⟩ := declares_tracked ht hn
      rw [← hD] at hq
      obtain ⟨x, hm, e⟩ := List.mem_map.1 hq
      cases e
      obtain ⟨h1, h2, h3, c, h4⟩ := hx x hm
      exact ((packaged H.names h1 h2 h3 h4).1 x.2 (by simp)).2) (fun q hq => by
      refine ⟨?_, fun h => (nomatch h), fun hs => ?_, ?_⟩
      · rcases hopen q hq with e | ⟨⟨k, _, hk, hl⟩, _⟩
        · exact .inl e
        · refine .inr fun k' hk' => ?_
          rw [hl] at hk'
          cases hk'
          exact hk
      · obtain ⟨n, c, hn, e⟩ := hscope _ hs
        exact hclash q hq n c hn e.symm
      · rcases hopen q hq with rfl | ⟨_, n, c, a, b, hn, hab, e⟩
        · exact H.library.2
        · rw [e]
          exact (H.packages n c a b hn hab).1) (fun s hs => by
      obtain ⟨n, c, hn, rfl⟩ := hscope s hs
      exact ⟨(H.unused n c hn).2, (H.unused n c hn).1⟩)
  refine ⟨declaredBy D, R.spaces ++ (opened [] E).map joinScope, ⟨hscope, fun n c hn hd => ?_⟩, fun n c hn hx => ?_, fun inc hinc rest => ?_⟩
  · obtain ⟨ps, s, rfl, h1, h2, h3⟩ := packages_of hd
    rw [hdecl]
    exact List.mem_map.2 ⟨(ps, s), (hN ps s).2 ⟨h1, h2, h3, c, hn⟩, rfl⟩
  · rcases List.mem_append.1 hx with hx | hx
    · exact (H.unused n c hn).2 hx
    · obtain ⟨q, hq, e⟩ := List.mem_map.1 hx
      exact hclash q hq n c hn e.symm
  · have hl1 : IsLines (inc ++ "\n".toList) [inc] := by
      refine isLines_line ?_
      rcases hinc with rfl | rfl <;> decide +kernel
    by_cases hE : preLines 0 E = []
    · have : E = [] := by
        cases E with
        | nil => rfl
        | cons e E => cases e <;> cases hE
      subst this
      have hl2 : IsLines (joinLines (preLines 0 []) ++ "\n".toList) [[]] := isLines_line (l := []) (by simp)
      have := (hl1.append hl2) rest
      rw [← List.append_assoc] at this
      rw [this, List.append_assoc]
      refine (readLines_then (include_read R hinc) _).trans ?_
      refine (readLines_then (read_blank rfl) _).trans ?_
      cases ht
      simp [CppText.start, opened, declaredBy]
    · have hl2 := isLines_join (preLines_lack (fun n hn => ident_lacks (hident n hn) (by decide)) 0) hE
      have := (hl1.append hl2) rest
      rw [← List.append_assoc] at this
      rw [this, List.append_assoc]
      refine (readLines_then (include_read R hinc) _).trans ?_
      exact readLines_then hread _

theorem simple_unique {n s s' : Str} (h : SimpleName n s) (h' : SimpleName n s') (hn : n.head? ≠ some '[') : s = s' := by
  obtain ⟨a, e⟩ := nameParts_simple h hn
  obtain ⟨b, e'⟩ := nameParts_simple h' hn
  rw [e] at e'
  have := congrArg List.getLast? e'
  simpa using this

end Jnivm
