import Verif.Lemmas.ProgramNeeds
import Verif.Props.Program
/-!
C75: class dumps that no C++ compiler accepts.
-/
namespace Jnivm
open Spec

variable {R : CppReader} {T : Typing} {ws : World}

/-- C75, the conditions are needed.  If the class dump of a VM compiles, then no class has the scope of a package, no member has the
name of its class or of a member that all classes have, and the classes can be put in an order in which outer classes come before
inner ones and no member names an inner class before the outer one. -/
theorem program_needs (hr : MemReachable ws) (hT : WellTyped ws T) (H : NamesAllowed ws) (HM : MembersSpelled T ws)
    (hb : ∀ n c, ws.Dumps n c → R.base.cls (cppScope n) = none) : ∃ d0, ∀ d, d0 ≤ d → ∀ s P,
    ws.classDump R.fake d = .ok s → readProgram R s = some P →
      (∀ n c m d a b, ws.Dumps n c → n = a ++ '/' :: b → ws.Dumps m d → cppScope m ≠ cppScope a) ∧
      (∀ n c, ws.Dumps n c → ∀ x ∈ memberNames ws c, x ∉ reservedNames R.fake ∧ ¬ SimpleName n x) ∧
      ∃ rank : Str → Nat, (∀ n c m d, ws.Dumps n c → ws.Dumps m d → rank n = rank m → n = m) ∧
        (∀ o i c, ws.Dumps (o ++ '$' :: i) c → rank o < rank (o ++ '$' :: i)) ∧
        ∀ n c o x j, ws.Dumps n c → ws.Dumps (o ++ '$' :: x) j → '$' ∉ x → UsedBy T ws c (o ++ '$' :: x) → rank o ≤ rank n := by
  obtain ⟨d0, h⟩ := program_inv (R := R) hr hT H
  refine ⟨d0, fun d hd s P hs hP => ?_⟩
  obtain ⟨L, F, pk, t, t', hL, htop, hsp, rfl, rfl, hF, hpk, hread⟩ := h d hd s P hs hP
  have hall := headers_inv H HM L htop hsp hL.describes hread
  have hcls : ∀ e ∈ L, ws.Dumps e.name e.cls := fun e he => ⟨(hL.describes e he).isClass, (hL.describes e he).dumped⟩
  have one : ∀ {n c c'}, ws.Dumps n c → ws.Dumps n c' → c = c' := fun h h' => Option.some.inj (h.1.symm.trans h'.1)
  have entry : ∀ n c, ws.Dumps n c → ∃ a e b, L = a ++ e :: b ∧ e.name = n ∧ e.cls = c := by
    intro n c hn
    obtain ⟨e, he, rfl⟩ := hL.all n c hn.1 hn.2
    obtain ⟨a, b, hs⟩ := List.append_of_mem he
    exact ⟨a, e, b, hs, rfl, one (hcls e he) hn⟩
  -- outer classes
  have before : ∀ a e b o i, L = a ++ e :: b → e.name = o ++ '$' :: i → ∃ e' ∈ a, e'.name = o := by
    intro a e b o i hs hn
    have hp := (H _ _ (hcls e (by rw [hs]; simp))).1
    rw [hn] at hp
    exact outer_first hL.outer i.length rfl hs hn (plain_tail hp)
  have outer : ∀ o i c, ws.Dumps (o ++ '$' :: i) c → ∃ c', ws.Dumps o c' := by
    intro o i c hn
    obtain ⟨a, e, b, hs, hn', _⟩ := entry _ _ hn
    obtain ⟨e', he', rfl⟩ := before a e b o i hs hn'
    exact ⟨_, hcls e' (by rw [hs]; simp [he'])⟩
  -- packages
  have hclash : ∀ n c m d a b, ws.Dumps n c → n = a ++ '/' :: b → ws.Dumps m d → cppScope m ≠ cppScope a := by
    intro n c m d a b hn hab hm e
    have key : ∃ n0 c0 b0, ws.Dumps n0 c0 ∧ '$' ∉ n0 ∧ n0 = a ++ '/' :: b0 := by
      have hp := (H _ _ hn).1
      by_cases hx : '$' ∈ b
      · obtain ⟨b0, i, rfl, hb0⟩ : ∃ b0 i, b = b0 ++ '$' :: i ∧ '$' ∉ b0 := by
          clear hab
          induction b with
          | nil => cases hx
          | cons y b ih =>
            by_cases hy : y = '$'
            · exact ⟨[], b, by rw [hy]; rfl, by simp⟩
            · obtain ⟨b0, i, rfl, h0⟩ := ih (by simpa [Ne.symm hy] using hx)
              exact ⟨y :: b0, i, rfl, by simpa [Ne.symm hy] using h0⟩
        rw [hab] at hp
        obtain ⟨c0, hc0⟩ := outer (a ++ '/' :: b0) i c (by rw [hab] at hn; simpa using hn)
        refine ⟨_, c0, b0, hc0, ?_, rfl⟩
        simp only [List.mem_append, List.mem_cons, not_or]
        exact ⟨(hp a _ rfl).2.2, by decide, hb0⟩
      · refine ⟨n, c, b, hn, ?_, hab⟩
        rw [hab] at hp ⊢
        simp only [List.mem_append, List.mem_cons, not_or]
        exact ⟨(hp a b rfl).2.2, by decide, hx⟩
    obtain ⟨n0, c0, b0, hn0, hd0, e0⟩ := key
    obtain ⟨h1, h2⟩ := hpk n0 c0 a b0 hn0 hd0 e0
    by_cases hx : '$' ∈ m
    · obtain ⟨o, k, rfl, hk⟩ := last_dollar hx
      have hp := (H _ _ hm).1
      obtain ⟨c', hc'⟩ := outer o k d hm
      obtain ⟨a', e', b', hs', rfl, _⟩ := entry o c' hc'
      have hin := (hL.describes e' (by rw [hs']; simp)).inner k
      refine (hall a' e' b' hs').1 k (hin.2 ⟨plain_tail hp, hk, d, hm.1⟩) ?_
      rw [← scope_inner hp (plain_tail hp) hk, e]
      exact h1
    · exact h2 ((hF _).2 ⟨m, d, hm, hx, e.symm⟩)
  have rank : ∀ a e b, L = a ++ e :: b → (L.map DumpEntry.name).idxOf e.name = a.length := by
    intro a e b hs
    have hnd := hL.nodup
    rw [hs, List.map_append, List.map_cons] at hnd ⊢
    rw [idxOf_split fun h => (List.nodup_append.1 hnd).2.2 _ h _ (by simp) rfl, List.length_map]
  refine ⟨hclash, ?_, fun n => (L.map DumpEntry.name).idxOf n, ?_, ?_, ?_⟩
  · intro n c hn x hx
    obtain ⟨a, e, b, hs, rfl, rfl⟩ := entry n c hn
    have hd := hL.describes e (by rw [hs]; simp)
    obtain ⟨pre, hpre⟩ := nameParts_simple hd.simple hd.dumped.1
    have hid : isIdent e.simple = true := ((H _ _ hn).2 e.simple (by rw [hpre]; simp)).1
    have fin : ∀ y m, readMember (namesKnown R (t.names ++ (a.flatMap innerScopes ++ innerScopes e))) e.simple y = some m →
        MemberAllowed R t.packages (cppScope e.name) m → (∃ f, x ≠ e.simple ∧ m = .named x f) → x ∉ reservedNames R.fake ∧ ¬ SimpleName e.name x := by
      rintro y m _ ha ⟨f, hne, rfl⟩
      exact ⟨ha, fun h => hne (simple_unique h hd.simple hd.dumped.1)⟩
    unfold memberNames at hx
    rcases List.mem_append.1 hx with hx | hx
    · obtain ⟨f, hf, rfl⟩ := List.mem_map.1 hx
      obtain ⟨m, hm, ha⟩ := (hall a e b hs).2 _ (List.mem_append_left _ (List.mem_map.2 ⟨f, hf, rfl⟩))
      refine fin _ m hm ha ?_
      obtain ⟨h1, h2⟩ := HM.fields _ _ hn f hf
      rw [readMember_field_eq h2 h1] at hm
      obtain ⟨r, _, hm⟩ := Option.bind_eq_some_iff.1 hm
      by_cases hx : f.name = e.simple
      · rw [if_pos hx] at hm
        cases hm
      · rw [if_neg hx] at hm
        cases hm
        exact ⟨_, hx, rfl⟩
    · obtain ⟨g, hg, rfl⟩ := List.mem_map.1 hx
      obtain ⟨hg, hi⟩ := List.mem_filter.1 hg
      obtain ⟨m, hm, ha⟩ := (hall a e b hs).2 _ (List.mem_append_right _ (List.mem_map.2 ⟨g, hg, rfl⟩))
      refine fin _ m hm ha ?_
      obtain ⟨h1, h2⟩ := HM.methods _ _ hn g hg
      have hi : g.name ≠ "<init>".toList := of_decide_eq_true hi
      rw [readMember_method_eq (fun t ht n hn => h2 n (List.mem_append_left _ (List.mem_flatMap.2 ⟨t, ht, hn⟩)))
        (fun t ht n hn => h2 n (List.mem_append_right _ (by rw [ht]; exact hn))) (h1.resolve_right hi) hid] at hm
      obtain ⟨ps, _, hm⟩ := Option.bind_eq_some_iff.1 hm
      obtain ⟨r, _, hm⟩ := Option.bind_eq_some_iff.1 hm
      by_cases hx : g.name = e.simple
      · rw [if_pos hx] at hm
        cases hm
      · rw [if_neg hx] at hm
        cases hm
        exact ⟨_, hx, rfl⟩
  · intro n c m d hn hm e
    obtain ⟨a, x, b, hs, rfl, _⟩ := entry n c hn
    obtain ⟨a', y, b', hs', rfl, _⟩ := entry m d hm
    have e : List.idxOf x.name _ = List.idxOf y.name _ := e
    rw [rank a x b hs, rank a' y b' hs'] at e
    have h := (List.append_inj (hs.symm.trans hs') e).2
    cases h
    rfl
  · intro o i c hn
    obtain ⟨a, e, b, hs, hn', _⟩ := entry _ c hn
    obtain ⟨e', he', ho⟩ := before a e b o i hs hn'
    obtain ⟨a1, a2, rfl⟩ := List.append_of_mem he'
    have h1 := rank _ e b hs
    have h2 := rank a1 e' (a2 ++ e :: b) (by rw [hs]; simp)
    rw [ho] at h2
    rw [hn'] at h1
    show List.idxOf _ _ < List.idxOf _ _
    rw [h1, h2]
    simp
  · intro n c o x j hn ho hx hu
    obtain ⟨a, e, b, hs, rfl, rfl⟩ := entry n c hn
    have hd := hL.describes e (by rw [hs]; simp)
    obtain ⟨pre, hpre⟩ := nameParts_simple hd.simple hd.dumped.1
    have hid : isIdent e.simple = true := ((H _ _ hn).2 e.simple (by rw [hpre]; simp)).1
    have hknown : (namesKnown R (t.names ++ (a.flatMap innerScopes ++ innerScopes e))).cls (cppClass R.fake (o ++ '$' :: x)) ≠ none := by
      rcases hu with ⟨f, hf, hk⟩ | ⟨g, hg, hk⟩
      · obtain ⟨m, hm, _⟩ := (hall a e b hs).2 _ (List.mem_append_left _ (List.mem_map.2 ⟨f, hf, rfl⟩))
        obtain ⟨h1, h2⟩ := HM.fields _ _ hn f hf
        exact readMember_field_needs h2 h1 hm hk
      · obtain ⟨m, hm, _⟩ := (hall a e b hs).2 _ (List.mem_append_right _ (List.mem_map.2 ⟨g, hg, rfl⟩))
        obtain ⟨h1, h2⟩ := HM.methods _ _ hn g hg
        exact readMember_method_needs (fun t ht n hn => h2 n (List.mem_append_left _ (List.mem_flatMap.2 ⟨t, ht, hn⟩)))
          (fun t ht n hn => h2 n (List.mem_append_right _ (by rw [ht]; exact hn))) h1 hid hm hk
    have hp := (H _ _ ho).1
    rw [class_scope R.fake hp ho.2] at hknown
    have hin : cppScope (o ++ '$' :: x) ∈ t.names ++ (a.flatMap innerScopes ++ innerScopes e) := by
      refine Classical.byContradiction fun hno => hknown ?_
      unfold namesKnown
      simp only
      rw [if_neg hno, hb _ _ ho]
    have hinner : ∀ e' ∈ L, cppScope (o ++ '$' :: x) ∈ innerScopes e' → e'.name = o := by
      intro e' he' hm
      obtain ⟨k, hk, hsc⟩ := List.mem_map.1 hm
      obtain ⟨h1, h2, j', hj'⟩ := ((hL.describes e' he').inner k).1 hk
      have hD : ws.Dumps (e'.name ++ '$' :: k) j' := ⟨hj', dumped_inner (hL.describes e' he').dumped⟩
      rw [← scope_inner (H _ _ hD).1 h1 h2] at hsc
      have := scope_injective H (fun o i c h _ => outer o i c h) hclash _ rfl hD ho hsc
      exact (dollar_inj h2 hx this).1
    have fin : ∀ a1 e' b1, L = a1 ++ e' :: b1 → e'.name = o → a1.length ≤ a.length → (L.map DumpEntry.name).idxOf o ≤ (L.map DumpEntry.name).idxOf e.name := by
      intro a1 e' b1 hs' hn' hle
      rw [← hn', rank a1 e' b1 hs', rank a e b hs]
      exact hle
    rcases List.mem_append.1 hin with hin | hin
    · obtain ⟨m, d, hm, hd, hsc⟩ := (hF _).1 hin
      exact absurd hsc (scope_kinds H ho (outer _ _ _ ho) hx hm hd hclash)
    · rcases List.mem_append.1 hin with hin | hin
      · obtain ⟨e', he', hin2⟩ := List.mem_flatMap.1 hin
        obtain ⟨a1, a2, rfl⟩ := List.append_of_mem he'
        refine fin a1 e' (a2 ++ e :: b) (by rw [hs]; simp) (hinner e' (by rw [hs]; simp) hin2) ?_
        simp
      · exact fin a e b hs (hinner e (by rw [hs]; simp) hin) (Nat.le_refl _)

/-! ### Dumps that do not compile -/

/-- A VM with the classes `ns`, and no members. -/
theorem names_world (ns : List Str) : ∃ w, MemReachable w ∧ (∀ d, (w.mem d).methods = [] ∧ (w.mem d).fields = []) ∧
    ∀ m, (∃ d, w.IsClass m d) ↔ (∃ n ∈ builtinClasses.map String.toList, Encloses m n) ∨ ∃ n ∈ ns, Encloses m n := by
  induction ns with
  | nil =>
    refine ⟨World.initial, ⟨[], rfl⟩, fun d => ⟨rfl, rfl⟩, fun m => ?_⟩
    rw [initial_classes]
    simp
  | cons n ns ih =>
    obtain ⟨w, hr, hm, hc⟩ := ih
    obtain ⟨r', c, e, _, hcr⟩ := findClass_create hr.inv.reg n
    have hrun : (MemOp.findClass false n).run w = .ok { w with reg := r' } := by simp only [MemOp.run, e]
    have hr' := hr.step hrun
    refine ⟨_, hr', hm, fun m => ?_⟩
    have h1 : ∀ {w : World} {m : Str}, MemReachable w → ((∃ d, w.IsClass m d) ↔ (w.reg.byName.lookup m).isSome) := by
      intro w m hw
      rw [Option.isSome_iff_exists]
      exact exists_congr fun d => isClass_iff hw.inv
    rw [h1 hr', hcr.new, ← h1 hr, hc]
    simp only [List.mem_cons, exists_eq_or_imp]
    constructor
    · rintro ((h | h) | h)
      · exact .inl h
      · exact .inr (.inr h)
      · exact .inr (.inl h)
    · rintro (h | h | h)
      · exact .inl (.inl h)
      · exact .inr h
      · exact .inl (.inr h)

theorem encloses_take {m n : Str} (h : Encloses m n) : ∃ j ∈ List.range (n.length + 1), m = n.take j ∧ (j = n.length ∨ (n.drop j).head? = some '$') := by
  rcases h with rfl | ⟨_, i, rfl, _⟩
  · exact ⟨m.length, List.mem_range.2 (by omega), by simp, .inl rfl⟩
  · exact ⟨m.length, List.mem_range.2 (by simp; omega), by simp, .inr (by simp)⟩

theorem plainName_check {n : Str} (h : ∀ i ∈ List.range (n.length + 1), (n.drop i).head? = some '/' → n.take i ≠ [] ∧ (n.take i).getLast? ≠ some '/' ∧ '$' ∉ n.take i) :
    PlainName n := by
  intro a b e
  have ha : n.take a.length = a := by rw [e]; simp
  have hb : n.drop a.length = '/' :: b := by rw [e]; simp
  have hl := congrArg List.length e
  have := h a.length (List.mem_range.2 (by simp at hl; omega)) (by rw [hb]; rfl)
  rw [ha] at this
  exact this

/-- A library with the class `jnivm::Class` only. -/
def bareReader (fake : Bool) : CppReader :=
  ⟨fake, ⟨fun s => if s = "jnivm::Class".toList then some 1 else none, 50⟩, ["jnivm".toList], fun _ => 7, fun _ _ i => i⟩

/-- Names that C++ allows. -/
def goodNames (ns M : List Str) : Bool :=
  (ns.all fun n => (List.range (n.length + 1)).all fun j => !(j == n.length || (n.drop j).head? == some '$') || M.contains (n.take j)) &&
  M.all fun n => ns.any (fun k => k == n || (n ++ ['$']).isPrefixOf k && !((k.drop (n.length + 1)).contains '/')) && n.length < 6 && n.head? != some '[' && !n.contains '\n' &&
    ((List.range (n.length + 1)).all fun i => (n.drop i).head? != some '/' || (!(n.take i).isEmpty && (n.take i).getLast? != some '/' && !(n.take i).contains '$')) &&
    ((nameParts n).all fun x => isIdent x && !scopelessNames.contains x) && (cppScope n != "jnivm::Class".toList)

/-- A VM with classes `M` of which one has a field. -/
theorem witness_world (ns M : List Str) (n x : Str) (t : Ty) (hM : goodNames ns M = true) (hn : n ∈ M) (hx : isIdent x = true)
    (ht : t.Valid) (hw : ∀ k ∈ t.classNames, WordName k) (hp : '\n' ∉ t.render) :
    ∃ ws c f, MemReachable ws ∧ WellTyped ws ⟨fun _ => [], fun _ => none, fun _ => t⟩ ∧ NamesAllowed ws ∧ MembersSpelled ⟨fun _ => [], fun _ => none, fun _ => t⟩ ws ∧
      (∀ fake m d, ws.Dumps m d → (bareReader fake).base.cls (cppScope m) = none) ∧
      (∀ m, (∃ d, ws.Dumps m d) ↔ m ∈ M) ∧ ws.Dumps n c ∧ f ∈ (ws.mem c).fields ∧ f.name = x := by
  obtain ⟨w, hr, hmem, hcls⟩ := names_world ns
  unfold goodNames at hM
  simp only [Bool.and_eq_true, List.all_eq_true, Bool.or_eq_true, Bool.not_eq_true', bne_iff_ne, beq_iff_eq, List.any_eq_true, decide_eq_true_eq, List.contains_eq_mem, decide_eq_false_iff_not, List.isEmpty_eq_false_iff] at hM
  obtain ⟨hM1, hM2⟩ := hM
  have hdumped : ∀ m ∈ M, Dumped m := by
    intro m hm
    have hlen : ∀ m ∈ builtin, 6 ≤ m.length := by decide +kernel
    obtain ⟨⟨⟨⟨⟨⟨_, h1⟩, h2⟩, _⟩, _⟩, _⟩, _⟩ := hM2 m hm
    refine ⟨h2, fun k hk hb => ?_⟩
    have h6 := hlen k hb
    rcases hk with rfl | ⟨_, i, e, _⟩
    · omega
    · have := congrArg List.length e
      simp at this
      omega
  have hall : ∀ m, (∃ d, w.Dumps m d) ↔ m ∈ M := by
    intro m
    constructor
    · rintro ⟨d, hd, hdd⟩
      rcases (hcls m).1 ⟨d, hd⟩ with ⟨k, hk, he⟩ | ⟨k, hk, he⟩
      · have h1 : ∀ m ∈ builtinClasses.map String.toList, m ∈ builtin ∧ '$' ∉ m := by decide +kernel
        obtain ⟨h2, h3⟩ := h1 k hk
        rcases he with rfl | ⟨_, i, rfl, _⟩
        · exact absurd h2 (hdd.2 _ (.inl rfl))
        · simp at h3
      · obtain ⟨j, hj, rfl, hh⟩ := encloses_take he
        rcases hM1 k hk j hj with h | h
        · simp only [Bool.or_eq_false_iff, beq_eq_false_iff_ne] at h
          rcases hh with hh | hh
          · exact absurd hh h.1
          · exact absurd hh h.2
        · exact h
    · intro hm
      obtain ⟨⟨⟨⟨⟨⟨⟨k, hk, he⟩, _⟩, h2⟩, _⟩, _⟩, _⟩, _⟩ := hM2 m hm
      obtain ⟨d, hd⟩ := (hcls m).2 (.inr ⟨k, hk, by
        rcases he with rfl | ⟨he, hs⟩
        · exact .inl rfl
        · obtain ⟨i, rfl⟩ := List.isPrefixOf_iff_prefix.1 he
          refine .inr ⟨?_, i, by simp, by simpa using hs⟩
          intro hh
          cases m with
          | nil => exact absurd hh (by simp)
          | cons y m => exact h2 (by simpa using hh)⟩)
      exact ⟨d, hd, hdumped m hm⟩
  obtain ⟨c, hc⟩ := (hall n).2 hn
  have hrun : (MemOp.hookField c true false x t.render 0).run w = .ok (w.hookField c true false x t.render 0) := rfl
  have hr' := hr.step hrun
  generalize hws : w.hookField c true false x t.render 0 = ws at hrun hr'
  have hreg : ws.reg = w.reg := by
    rw [← hws]
    unfold World.hookField
    simp only [(hmem c).2]
    rfl
  have hcl : ∀ m d, ws.IsClass m d ↔ w.IsClass m d := by
    intro m d
    unfold World.IsClass
    rw [hreg]
  have hfields : ∀ d, (ws.mem d).methods = [] ∧ (ws.mem d).fields = if d = c then [⟨w.next, x, t.render, false, some 0, none⟩] else [] := by
    intro d
    rw [← hws]
    unfold World.hookField
    simp only [(hmem c).2]
    by_cases hd : d = c
    · subst hd
      simp [World.setMem, hmem, FieldRec.setHandle]
    · simp [World.setMem, hmem, hd]
  have hD : ∀ m d, ws.Dumps m d ↔ w.Dumps m d := fun m d => by
    unfold World.Dumps
    rw [hcl]
  have hnl := ident_lacks hx (c := '\n') (by decide)
  refine ⟨ws, c, ⟨w.next, x, t.render, false, some 0, none⟩, hr', ⟨?_, ?_, ?_⟩, ?_, ⟨?_, ?_⟩, ?_, ?_, (hD _ _).2 hc, by rw [(hfields c).2, if_pos rfl]; simp, rfl⟩
  · intro m d _ _ g hg
    rw [(hfields d).1] at hg
    cases hg
  · intro m d _ _ f hf
    rw [(hfields d).2] at hf
    split at hf
    · cases List.mem_singleton.1 hf
      exact ⟨ht, rfl, hp, hnl⟩
    · cases hf
  · intro m d h
    rcases (hcls m).1 ⟨d, (hcl m d).1 h⟩ with ⟨k, hk, he⟩ | ⟨k, hk, he⟩
    · exact sample_names (.inl ⟨k, hk, he⟩)
    · obtain ⟨j, hj, rfl, hh⟩ := encloses_take he
      rcases hM1 k hk j hj with h | h
      · simp only [Bool.or_eq_false_iff, beq_eq_false_iff_ne] at h
        rcases hh with hh | hh
        · exact absurd hh h.1
        · exact absurd hh h.2
      · exact (hM2 _ h).1.1.1.2
  · intro m d h
    obtain ⟨⟨⟨⟨_, _⟩, h5⟩, h6⟩, _⟩ := hM2 m ((hall m).1 ⟨d, (hD m d).1 h⟩)
    exact ⟨plainName_check fun i hi hh => by
      rcases h5 i hi with h | h
      · exact absurd hh h
      · exact ⟨h.1.1, h.1.2, h.2⟩, h6⟩
  · intro m d h f hf
    rw [(hfields d).2] at hf
    split at hf
    · cases List.mem_singleton.1 hf
      exact ⟨hx, hw⟩
    · cases hf
  · intro m d h g hg
    unfold dumpedMethods at hg
    rw [(hfields d).1] at hg
    cases hg
  · intro fake m d h
    have := (hM2 m ((hall m).1 ⟨d, (hD m d).1 h⟩)).2
    simp only [bareReader]
    rw [if_neg this]
  · intro m
    rw [← hall m]
    exact exists_congr fun d => hD m d

/-- The class dump is a text, but the text is not a program. -/
def Unreadable (R : CppReader) (ws : World) : Prop :=
  ∃ d0, ∀ d, d0 ≤ d → ∃ s, ws.classDump R.fake d = .ok s ∧ readProgram R s = none

theorem unreadable_of (hr : MemReachable ws) (hT : WellTyped ws T)
    (h : ∃ d0, ∀ d, d0 ≤ d → ∀ s P, ws.classDump R.fake d = .ok s → readProgram R s = some P → False) : Unreadable R ws := by
  obtain ⟨d0, h⟩ := h
  obtain ⟨d1, h1⟩ := dump_text hr hT
  refine ⟨max d0 d1, fun d hd => ?_⟩
  obtain ⟨_, _, _, _, _, _, _, _, _, _, _, tf, tt⟩ := h1 d (by omega)
  have : ∃ s, ws.classDump R.fake d = .ok s := by
    cases R.fake
    · exact ⟨_, tf⟩
    · exact ⟨_, tt⟩
  obtain ⟨s, hs⟩ := this
  refine ⟨s, hs, ?_⟩
  cases hP : readProgram R s with
  | none => rfl
  | some P => exact (h d (by omega) s P hs hP).elim

/-- If a member of a class names an inner class of one of its inner classes, then the dump does not compile: inner classes of `o` are
only declared in `o`, and `o` is only defined behind the class around it. -/
theorem program_inner (hr : MemReachable ws) (hT : WellTyped ws T) (H : NamesAllowed ws) (HM : MembersSpelled T ws)
    (hb : ∀ n c, ws.Dumps n c → R.base.cls (cppScope n) = none) {n i x : Str} {c d j : Nat} (hn : ws.Dumps n c) (ho : ws.Dumps (n ++ '$' :: i) d)
    (hx : ws.Dumps (n ++ '$' :: i ++ '$' :: x) j) (hd : '$' ∉ x) (hu : UsedBy T ws c (n ++ '$' :: i ++ '$' :: x)) : Unreadable R ws := by
  obtain ⟨d0, h⟩ := program_needs (R := R) hr hT H HM hb
  refine unreadable_of hr hT ⟨d0, fun e he s P hs hP => ?_⟩
  obtain ⟨_, _, rank, _, h2, h3⟩ := h e he s P hs hP
  have := h2 n i d ho
  have := h3 n c (n ++ '$' :: i) x j hn hx hd hu
  omega

/-- If the members of two classes name inner classes of each other, then the dump does not compile. -/
theorem program_mutual (hr : MemReachable ws) (hT : WellTyped ws T) (H : NamesAllowed ws) (HM : MembersSpelled T ws)
    (hb : ∀ n c, ws.Dumps n c → R.base.cls (cppScope n) = none) {n o x y : Str} {c d j k : Nat} (hn : ws.Dumps n c) (ho : ws.Dumps o d) (hne : n ≠ o)
    (hx : ws.Dumps (n ++ '$' :: x) j) (hy : ws.Dumps (o ++ '$' :: y) k) (hdx : '$' ∉ x) (hdy : '$' ∉ y) (hu : UsedBy T ws c (o ++ '$' :: y))
    (hv : UsedBy T ws d (n ++ '$' :: x)) : Unreadable R ws := by
  obtain ⟨d0, h⟩ := program_needs (R := R) hr hT H HM hb
  refine unreadable_of hr hT ⟨d0, fun e he s P hs hP => ?_⟩
  obtain ⟨_, _, rank, h1, _, h3⟩ := h e he s P hs hP
  have a1 := h3 n c o y k hn hy hdy hu
  have a2 := h3 o d n x j ho hx hdx hv
  exact hne (h1 n c o d hn ho (by omega))

/-- A class and a package of the same name: the dump declares both, which C++ does not allow. -/
theorem program_clash (fake : Bool) : ∃ ws T, MemReachable ws ∧ WellTyped ws T ∧ NamesAllowed ws ∧ MembersSpelled T ws ∧
    (∃ c, ws.Dumps "a".toList c) ∧ (∃ c, ws.Dumps "a/B".toList c) ∧ Unreadable (bareReader fake) ws := by
  obtain ⟨ws, c, f, hr, hT, H, HM, hb, hall, _⟩ := witness_world ["a".toList, "a/B".toList] ["a".toList, "a/B".toList] "a".toList "f".toList (.prim .int)
    (by decide +kernel) (by decide +kernel) (by decide +kernel) (by simp [Ty.Valid]) (by simp [Ty.classNames]) (by decide +kernel)
  obtain ⟨d0, h⟩ := program_needs (R := bareReader fake) hr hT H HM (hb fake)
  obtain ⟨c1, hc1⟩ := (hall "a".toList).2 (by decide +kernel)
  obtain ⟨c2, hc2⟩ := (hall "a/B".toList).2 (by decide +kernel)
  refine ⟨ws, _, hr, hT, H, HM, ⟨c1, hc1⟩, ⟨c2, hc2⟩, unreadable_of hr hT ⟨d0, fun d hd s P hs hP => ?_⟩⟩
  exact (h d hd s P hs hP).1 "a/B".toList c2 "a".toList c1 "a".toList "B".toList hc2 rfl hc1 rfl

/-- A field of "B" whose type is an inner class of its inner class. -/
theorem program_inner_inner (fake : Bool) : ∃ ws T c f, MemReachable ws ∧ WellTyped ws T ∧ NamesAllowed ws ∧ MembersSpelled T ws ∧
    ws.Dumps "B".toList c ∧ f ∈ (ws.mem c).fields ∧ T.field f = .cls "B$C$D".toList ∧ Unreadable (bareReader fake) ws := by
  obtain ⟨ws, c, f, hr, hT, H, HM, hb, hall, hc, hf, _⟩ := witness_world ["B$C$D".toList] ["B".toList, "B$C".toList, "B$C$D".toList] "B".toList "f".toList
    (.cls "B$C$D".toList) (by decide +kernel) (by decide +kernel) (by decide +kernel) (by simp [Ty.Valid])
    (fun k hk => by rw [List.mem_singleton.1 hk]; unfold WordName; decide +kernel) (by decide +kernel)
  obtain ⟨c1, hc1⟩ := (hall "B$C".toList).2 (by decide +kernel)
  obtain ⟨c2, hc2⟩ := (hall "B$C$D".toList).2 (by decide +kernel)
  exact ⟨ws, _, c, f, hr, hT, H, HM, hc, hf, rfl, program_inner hr hT H HM (hb fake) (n := "B".toList) (i := "C".toList) (x := "D".toList) hc hc1 hc2 (by decide)
    (.inl ⟨f, hf, List.mem_singleton.2 rfl⟩)⟩

/-- A field with the name of a member that all classes have. -/
theorem program_reserved (fake : Bool) : ∃ ws T c f, MemReachable ws ∧ WellTyped ws T ∧ NamesAllowed ws ∧ MembersSpelled T ws ∧
    ws.Dumps "B".toList c ∧ f ∈ (ws.mem c).fields ∧ f.name = (if fake then "getDescriptor".toList else "jint".toList) ∧ Unreadable (bareReader fake) ws := by
  have hid : isIdent (if fake then "getDescriptor".toList else "jint".toList) = true := by cases fake <;> decide +kernel
  obtain ⟨ws, c, f, hr, hT, H, HM, hb, hall, hc, hf, hx⟩ := witness_world ["B".toList] ["B".toList] "B".toList _
    (.prim .int) (by decide +kernel) (by decide +kernel) hid (by simp [Ty.Valid]) (by simp [Ty.classNames]) (by decide +kernel)
  obtain ⟨d0, h⟩ := program_needs (R := bareReader fake) hr hT H HM (hb fake)
  refine ⟨ws, _, c, f, hr, hT, H, HM, hc, hf, hx, unreadable_of hr hT ⟨d0, fun d hd s P hs hP => ?_⟩⟩
  refine ((h d hd s P hs hP).2.1 _ c hc f.name (List.mem_append_left _ (List.mem_map.2 ⟨f, hf, rfl⟩))).1 ?_
  rw [hx]
  cases fake <;> decide +kernel

/-- What `program_partial` asks for includes what `program_needs` asks for. -/
theorem regenerable_spelled {num : Str → Nat} {clazz : Nat} (H : Regenerable R num clazz T ws) : MembersSpelled T ws := by
  have hw : ∀ n k, Usable R num ws n k → WordName k := by
    rintro n k (⟨⟨c, hc⟩, _⟩ | ⟨h, _⟩)
    · exact wordName_parts fun x hx => ((H.names k c hc).2 x hx).1
    · exact h
  refine ⟨fun n c hn f hf => ⟨?_, fun k hk => hw n k (H.fields n c hn f hf k hk)⟩,
    fun n c hn m hm => ⟨?_, fun k hk => hw n k (H.methods n c hn m hm k hk)⟩⟩
  · exact ((H.members n c hn).2 f.name (List.mem_append_left _ (List.mem_map.2 ⟨f, hf, rfl⟩))).1
  · by_cases hi : m.name = "<init>".toList
    · exact .inr hi
    · refine .inl ((H.members n c hn).2 m.name (List.mem_append_right _ (List.mem_map.2 ⟨m, ?_, rfl⟩))).1
      exact List.mem_filter.2 ⟨hm, by simpa using hi⟩

/-- A VM with a class, an inner class and a method meets all hypotheses of `program_needs`, and its dump compiles. -/
example (fake : Bool) : ∃ ws c m, MemReachable ws ∧ WellTyped ws programTyping ∧ NamesAllowed ws ∧ MembersSpelled programTyping ws ∧
    (∀ n c, ws.Dumps n c → (programReader fake).base.cls (cppScope n) = none) ∧ ws.Dumps "a/B$C".toList c ∧ m ∈ dumpedMethods ws c ∧
    ∃ d0, ∀ d, d0 ≤ d → ∃ s P, ws.classDump (programReader fake).fake d = .ok s ∧ readProgram (programReader fake) s = some P := by
  obtain ⟨ws, c, m, hr, hT, H, hc, hm, _⟩ := program_sample fake
  obtain ⟨d0, h⟩ := program_partial hr hT H
  refine ⟨ws, c, m, hr, hT, H.names, regenerable_spelled H, fun n c hn => (H.unused n c hn).1, hc, hm, d0, fun d hd => ?_⟩
  obtain ⟨s, P, h1, h2, _⟩ := h d hd
  exact ⟨s, P, h1, h2⟩

end Jnivm
