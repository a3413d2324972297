import Verif.Lemmas.Program
/-!
C75: the text of a class dump, read as a whole C++ program, compiles and links, and running it brings the dumped
members back.
-/
namespace Jnivm
open Spec

variable {R : CppReader} {num : Str → Nat} {clazz : Nat} {T : Typing} {ws : World}

/-- The class dump with its reading. -/
theorem program_text (hr : MemReachable ws) (hT : WellTyped ws T) (H : Regenerable R num clazz T ws) : ∃ d0, ∀ d, d0 ≤ d →
    ∃ (s : Str) (F pk : List Str) (L : List DumpEntry) (B : List (Bool × DumpEntry)) (es : DumpEntry → List DescEntry),
      ListOk ws L ∧ ProgramOk R num clazz T ws F pk L B es ∧ ws.classDump R.fake d = .ok s ∧
      readProgram R s = some (programOf R num clazz T ws F pk L B es) := by
  obtain ⟨d0, h⟩ := dump_text hr hT
  refine ⟨d0, fun d hd => ?_⟩
  obtain ⟨pre, L, B, hpre, h1, h2, h3, h4, h5, h6, h7, tf, tt⟩ := h d hd
  have hL : ListOk ws L := ⟨h1, h2, h3, h4⟩
  obtain ⟨F, pk, hF, hpk, hread⟩ := pre_read H hpre
  generalize hN : F ++ L.flatMap innerScopes = N
  have hfin : ∀ a b e, L = a ++ e :: b → ∀ x ∈ F ++ a.flatMap innerScopes, x ∈ N := by
    intro a b e hs x hx
    rw [← hN, hs]
    simp only [List.flatMap_append, List.mem_append] at hx ⊢
    rcases hx with hx | hx
    · exact .inl hx
    · exact .inr (.inl hx)
  have hall : ∀ k c, ws.Dumps k c → cppScope k ∈ N := by
    intro k c hk
    obtain ⟨e, he, rfl⟩ := hL.all k c hk.1 hk.2
    obtain ⟨a, b, hs⟩ := List.append_of_mem he
    exact hfin a b e hs _ (own_named H.names hF hL hs)
  have hcomp : ∀ e ∈ L, Compiles R.fake (namesKnown R N) num clazz T e.name e.simple (ws.mem e.cls).fields (dumpedMethods ws e.cls) := by
    intro e he
    have hd := hL.describes e he
    refine compiles_ok H hT hd ?_ (hall _ _ ⟨hd.isClass, hd.dumped⟩) fun k c hk _ => hall k c hk
    rw [← hN]
    exact names_sound H.names hF hL fun _ h => h
  have read : ∀ e : DumpEntry, ∃ es, e ∈ L → readClass R.fake (namesKnown R N) (cppScope e.name) e.simple
      (classBody R.fake T e.inner e.simple (ws.mem e.cls).fields (dumpedMethods ws e.cls)) (entryLines R.fake T ws e) (R.fn (cppScope e.name)) = some es := by
    intro e
    by_cases he : e ∈ L
    · obtain ⟨es, h, _⟩ := regenerate_reads (hcomp e he) e.inner (R.fn (cppScope e.name))
      exact ⟨es, fun _ => h⟩
    · exact ⟨[], fun h => absurd h he⟩
  obtain ⟨es, hes⟩ := Classical.axiomOfChoice read
  have hdump : ∀ e ∈ L, ws.Dumps e.name e.cls := fun e he => ⟨(hL.describes e he).isClass, (hL.describes e he).dumped⟩
  have hok : ProgramOk R num clazz T ws F pk L B es := by
    refine ⟨?_, ⟨h5, h6, h7⟩, fun a e b hs => header_ok H hT hF hL hpk hs, fun e he => ⟨rfl, good_scope H.names (hL.describes e he),
      H.types _ _ (hdump e he), ?_, ?_⟩, fun e he => ?_⟩
    · refine List.pairwise_map.2 ((List.Pairwise.and_mem.1 (List.pairwise_map.1 h3)).imp ?_)
      rintro e e' ⟨he, he', hne⟩ hsc
      refine hne (H.injective _ _ _ _ (hdump e he) (hdump e' he') ?_)
      rw [H.types _ _ (hdump e he), H.types _ _ (hdump e' he'), hsc]
    · rw [hN]
      exact hcomp e he
    · rw [hN]
      exact hes e he
    · obtain ⟨hp, hi⟩ := H.names _ _ (hdump e he)
      exact ⟨hp, wordName_parts fun x hx => (hi x hx).1, hT.names _ _ (hL.describes e he).isClass⟩
  have hin : ∀ e ∈ L, ∀ k ∈ e.inner, isIdent k = true := by
    intro e he k hk
    obtain ⟨a, b, hs⟩ := List.append_of_mem he
    exact ((hok.heads a e b hs).inner k hk).1
  obtain ⟨l1, l2⟩ := program_lines hok hin
  have fin : ∀ s inc rest, inc = "#include <jnivm.h>".toList ∨ inc = "#include <fake-jni/fake-jni.h>".toList →
      s = inc ++ "\n".toList ++ pre ++ "\n".toList ++ rest → textLines rest = programLines R.fake T ws L B →
      readProgram R s = some (programOf R num clazz T ws F pk L B es) := by
    intro s inc rest hinc hs ht
    unfold readProgram
    rw [hs, hread inc hinc rest, ht, program_read hok, Option.bind_some, if_pos (program_linked hok)]
  cases hf : R.fake with
  | false =>
    rw [hf] at fin
    refine ⟨_, F, pk, L, B, es, hL, hok, tf, ?_⟩
    refine fin _ "#include <jnivm.h>".toList _ (.inl rfl) ?_ (l1 hf)
    have e1 : "#include <jnivm.h>\n".toList = "#include <jnivm.h>".toList ++ "\n".toList := by decide +kernel
    rw [e1]
    simp only [List.append_assoc]
  | true =>
    rw [hf] at fin
    refine ⟨_, F, pk, L, B, es, hL, hok, tt, ?_⟩
    refine fin _ "#include <fake-jni/fake-jni.h>".toList _ (.inr rfl) ?_ (l2 hf)
    have e1 : "#include <fake-jni/fake-jni.h>\n".toList = "#include <fake-jni/fake-jni.h>".toList ++ "\n".toList := by decide +kernel
    rw [e1]
    simp only [List.append_assoc]

/-- C75.  The class dump of a VM is a C++ program: its text compiles line by line and links.  Run in any VM in which
the classes of the library have their Java names, it installs each field and each method of each dumped class:
`GetFieldID` and `GetMethodID` find it, and it calls the generated function.  Partial: only if the names and types of the
dumped classes and members allow it (see `Regenerable`), only if no constructor hides another one, and only for methods that
the application does not implement. -/
theorem program_partial (hr : MemReachable ws) (hT : WellTyped ws T) (H : Regenerable R num clazz T ws) : ∃ d0, ∀ d, d0 ≤ d →
    ∃ s P, ws.classDump R.fake d = .ok s ∧ readProgram R s = some P ∧
      ∀ (compat : Bool) (ci : CppInfo) (bases : Nat → List (Option Nat)) (w : World), MemReachable w → ci.clazz = clazz →
        (R.fake = false → ∀ n c, ws.Dumps n c → CtorsApart T (dumpedMethods ws c)) →
        (∀ n c, ws.Dumps n c → ∀ t k, UsesName num clazz T n (ws.mem c).fields (dumpedMethods ws c) t k →
          (JavaName ci w (.cls t) k ∨ (R.fake = false ∧ ∃ n' c', ws.Dumps n' c' ∧ ci.id (.cls t) = ci.id (.cls (num n')))) ∧
          ∀ n' c', ws.Dumps n' c' → ci.id (.cls t) = ci.id (.cls (num n')) → k = n') →
        ∃ w', P.run compat ci bases w = .ok w' ∧ MemReachable w' ∧ ∀ n c0 s, ws.Dumps n c0 → SimpleName n s → ∃ c, w'.IsClass n c ∧
          (∀ f ∈ (ws.mem c0).fields, FieldAnswers w' c f (R.fn (cppScope n) (fieldLine R.fake (cppScope n) s f) 0)) ∧
          ((∀ m ∈ (w.mem c).methods, m.native = none) → ∀ m ∈ dumpedMethods ws c0,
            MethodAnswers w' c m (R.fn (cppScope n) (methodLine R.fake T (cppScope n) s m)
              (if R.fake then 0 else if m.static then 2 else 1))) := by
  obtain ⟨d0, h⟩ := program_text hr hT H
  refine ⟨d0, fun d hd => ?_⟩
  obtain ⟨s, F, pk, L, B, es, hL, hok, hs, hP⟩ := h d hd
  refine ⟨s, _, hs, hP, fun compat ci bases w hw hcl hA hU => ?_⟩
  subst hcl
  have hdump : ∀ e ∈ L, ws.Dumps e.name e.cls := fun e he => ⟨(hL.describes e he).isClass, (hL.describes e he).dumped⟩
  have hin : ∀ n c, ws.Dumps n c → ∃ e ∈ L, e.name = n ∧ e.cls = c := by
    intro n c hn
    obtain ⟨e, he, rfl⟩ := hL.all n c hn.1 hn.2
    refine ⟨e, he, rfl, ?_⟩
    have h1 := (hL.describes e he).isClass
    have h2 := hn.1
    unfold World.IsClass at h1 h2
    rw [h1] at h2
    exact Option.some.inj h2
  have hnames : ∀ e ∈ L, ∀ t k, UsesName num ci.clazz T e.name (ws.mem e.cls).fields (dumpedMethods ws e.cls) t k →
      JavaName ci w (.cls t) k ∨ (R.fake = false ∧ ∃ e' ∈ L, ci.id (.cls t) = ci.id (.cls (num e'.name))) := by
    intro e he t k hu
    rcases (hU _ _ (hdump e he) t k hu).1 with h | ⟨hf, n', c', hn', h⟩
    · exact .inl h
    · obtain ⟨e', he', rfl, _⟩ := hin n' c' hn'
      exact .inr ⟨hf, e', he', h⟩
  have hids : ∀ e ∈ L, ∀ t k, UsesName num ci.clazz T e.name (ws.mem e.cls).fields (dumpedMethods ws e.cls) t k →
      ∀ e' ∈ L, ci.id (.cls t) = ci.id (.cls (num e'.name)) → k = e'.name := fun e he t k hu e' he' hi =>
    (hU _ _ (hdump e he) t k hu).2 _ _ (hdump e' he') hi
  have hcomp := fun e he => (hok.entries e he).compiles
  obtain ⟨es', hes', w', e1, hr', hans⟩ := regenerate_partial (compat := compat) hw hL.nodup hok.sides.2.1 hcomp
    (fun hf e he => hA hf _ _ (hdump e he)) hnames hids (fun e => bases (num e.name)) (fun n => R.fn (cppScope n))
  have heq : ∀ e ∈ L, es' e = es e := by
    intro e he
    have h1 := hes' e he
    have h2 := (hok.entries e he).reads
    unfold entryLines at h2
    rw [h1] at h2
    exact Option.some.inj h2
  have hmap : ∀ l : List DumpEntry, (∀ e ∈ l, e ∈ L) →
      (l.map fun e => (⟨ci.id (.cls (num e.name)), e.name, bases (num e.name), true, es' e⟩ : DescClass)) = l.map (entryClass ci num bases es) := by
    intro l hl
    refine List.map_congr_left fun e he => ?_
    unfold entryClass
    rw [heq e (hl e he)]
  rw [hmap L fun _ h => h, hmap (side false B) fun e he => hok.sides.2.1.mem_iff.1 he] at e1
  -- all names of the program
  generalize hUU : (fun t k => ∃ e ∈ L, UsesName num ci.clazz T e.name (ws.mem e.cls).fields (dumpedMethods ws e.cls) t k) = U
  have hUi : ∀ e ∈ L, ∀ t k, UsesName num ci.clazz T e.name (ws.mem e.cls).fields (dumpedMethods ws e.cls) t k → U t k := by
    intro e he t k h
    rw [← hUU]
    exact ⟨e, he, h⟩
  have hUe : ∀ t k, U t k → ∃ e ∈ L, UsesName num ci.clazz T e.name (ws.mem e.cls).fields (dumpedMethods ws e.cls) t k := by
    intro t k h
    rw [← hUU] at h
    exact h
  have hbind : ∀ d ∈ L.map (entryClass ci num bases es), ∀ t k, U t k → ci.id (.cls t) = d.type → k = d.name := by
    intro d hd t k h ht
    obtain ⟨e', he', rfl⟩ := List.mem_map.1 hd
    obtain ⟨e, he, h⟩ := hUe t k h
    exact hids e he t k h e' he' ht
  have hrun := program_run (compat := compat) (bases := bases) (U := U) (w := w) (w' := w')
    (pr := fun e => classPromises R.fake T (cppScope e.name) e.simple (ws.mem e.cls).fields (dumpedMethods ws e.cls) (R.fn (cppScope e.name))) hok ?_ ?_ ?_ e1
  · refine ⟨w', hrun, hr', fun n c0 s hn hsn => ?_⟩
    obtain ⟨e, he, rfl, rfl⟩ := hin n c0 hn
    have := simple_unique hsn (hL.describes e he).simple hn.2.1
    subst this
    exact hans e he
  · refine List.pairwise_map.2 ((List.Pairwise.and_mem.1 (List.pairwise_map.1 hL.nodup)).imp ?_)
    rintro e e' ⟨he, he', hne⟩ h
    exact hne (H.injective _ _ _ _ (hdump e he) (hdump e' he') h)
  · intro e he w c hN
    obtain ⟨es'', h1, h2⟩ := regenerate_reads (hcomp e he) e.inner (R.fn (cppScope e.name))
    have h3 := (hok.entries e he).reads
    unfold entryLines at h3
    rw [h1] at h3
    cases h3
    exact h2 false ci w c rfl fun t k h => hN t k (hUi e he t k h)
  · intro hf
    obtain ⟨hr1, _, c1, j1, _⟩ := bindTypes_ok (ci := ci) (U := U) hbind hw
    refine ⟨hr1, fun t k h => j1 t k h ?_, fun e he => c1 _ (List.mem_map.2 ⟨e, he, rfl⟩)⟩
    obtain ⟨e, he, h⟩ := hUe t k h
    rcases hnames e he t k h with h | ⟨_, e', he', h⟩
    · exact .inl h
    · exact .inr ⟨entryClass ci num bases es e', List.mem_map.2 ⟨e', he', rfl⟩, h⟩

/-! ### A VM with the classes "a/B" and "a/B$C" -/

def programReader (fake : Bool) : CppReader :=
  ⟨fake, ⟨fun s => if s = "jnivm::Class".toList then some 1 else none, 50⟩, ["jnivm".toList],
    fun s => if s = "jnivm::a::B".toList then 7 else 8, fun _ _ i => i⟩

def programNum (n : Str) : Nat := if n = "a/B".toList then 7 else 8

/-- All methods take objects of both classes and return one of the inner class. -/
def programTyping : Typing :=
  ⟨fun _ => [.cls "a/B".toList, .cls "a/B$C".toList], fun _ => some (.cls "a/B$C".toList), fun _ => .prim .int⟩

def programInfo : CppInfo where
  id := fun c => match c with | .cls t => t | _ => 1000
  declared := fun c => match c with
    | .cls t => some (if t = 1 then "java/lang/Class".toList else if t = 7 then "a/B".toList else "a/B$C".toList)
    | _ => none
  isObject := fun _ => true
  object := 0
  clazz := 1
  nulls := fun _ => false

theorem sample_declare (w : World) (b c : Nat) (hb : w.IsClass "a/B".toList b) (hc : w.IsClass "a/B$C".toList c) :
    declare w.reg "(La/B;La/B$C;)La/B$C;".toList = .ok w.reg := by
  have h := declare_sig (params := [.cls "a/B".toList, .cls "a/B$C".toList]) (ret := some (.cls "a/B$C".toList))
    (by simp [Ty.Valid]) (by simp [Ty.Valid]) w.reg
  have e : createAll w.reg (sigClassNames [.cls "a/B".toList, .cls "a/B$C".toList] (some (.cls "a/B$C".toList))) = w.reg := by
    simp only [sigClassNames, createAll, Ty.classNames, List.flatMap_cons, List.flatMap_nil, List.append_nil, List.cons_append, List.nil_append,
      Option.map_some, Option.getD_some, List.foldl_cons, List.foldl_nil, findClass_existing hb, findClass_existing hc]
  rw [e] at h
  exact h

theorem sample_encloses {m : Str} (h : Encloses m "a/B$C".toList) : m = "a/B".toList ∨ m = "a/B$C".toList := by
  rcases h with rfl | ⟨_, i, e, _⟩
  · exact .inr rfl
  · left
    have h1 : ∀ j ∈ List.range 6, ("a/B$C".toList.drop j).head? = some '$' → "a/B$C".toList.take j = "a/B".toList := by decide +kernel
    have ha : "a/B$C".toList.take m.length = m := by rw [e]; simp
    have hb : "a/B$C".toList.drop m.length = '$' :: i := by rw [e]; simp
    have hl := congrArg List.length e
    rw [← ha]
    exact h1 _ (List.mem_range.2 (by simp at hl; omega)) (by rw [hb]; rfl)

theorem sample_dumps {ws : World} (hn : ∀ m d, ws.IsClass m d → (∃ n ∈ builtinClasses.map String.toList, Encloses m n) ∨ Encloses m "a/B$C".toList)
    {n : Str} {c : Nat} (h : ws.Dumps n c) : n = "a/B".toList ∨ n = "a/B$C".toList := by
  rcases hn n c h.1 with ⟨m, hm, he⟩ | he
  · have h1 : ∀ m ∈ builtinClasses.map String.toList, m ∈ builtin ∧ '$' ∉ m := by decide +kernel
    obtain ⟨h2, h3⟩ := h1 m hm
    rcases he with rfl | ⟨_, i, rfl, _⟩
    · exact absurd h2 (h.2.2 _ (.inl rfl))
    · simp at h3
  · exact sample_encloses he

theorem sample_plain : PlainName "a/B".toList ∧ PlainName "a/B$C".toList := by
  have key : ∀ n : Str, (∀ i ∈ List.range (n.length + 1), (n.drop i).head? = some '/' → n.take i ≠ [] ∧ (n.take i).getLast? ≠ some '/' ∧ '$' ∉ n.take i) →
      PlainName n := by
    intro n h a b e
    have ha : n.take a.length = a := by rw [e]; simp
    have hb : n.drop a.length = '/' :: b := by rw [e]; simp
    have hl := congrArg List.length e
    have := h a.length (List.mem_range.2 (by simp at hl; omega)) (by rw [hb]; rfl)
    rw [ha] at this
    exact this
  exact ⟨key _ (by decide +kernel), key _ (by decide +kernel)⟩

/-- The hypotheses of `program_partial` hold for a VM with a class, an inner class and a method. -/
theorem program_sample (fake : Bool) : ∃ ws c m, MemReachable ws ∧ WellTyped ws programTyping ∧
    Regenerable (programReader fake) programNum 1 programTyping ws ∧ ws.Dumps "a/B$C".toList c ∧ m ∈ dumpedMethods ws c ∧
    (∀ n c, ws.Dumps n c → CtorsApart programTyping (dumpedMethods ws c)) ∧
    ∀ n c, ws.Dumps n c → ∀ t k, UsesName programNum 1 programTyping n (ws.mem c).fields (dumpedMethods ws c) t k →
      JavaName programInfo World.initial (.cls t) k ∧ ∀ n' c', ws.Dumps n' c' → programInfo.id (.cls t) = programInfo.id (.cls (programNum n')) → k = n' := by
  obtain ⟨ws, c, id, hr, hc, ⟨b, hb⟩, hm, hm', hf, hn⟩ := sample_dump _ sample_declare
  have hD := fun {n d} => sample_dumps hn (n := n) (c := d)
  have hdc : ws.Dumps "a/B$C".toList c := ⟨hc, sample_dumped⟩
  have hdb : ws.Dumps "a/B".toList b := by
    refine ⟨hb, by decide, fun m hm hbm => ?_⟩
    refine sample_dumped.2 m ?_ hbm
    rcases hm with rfl | ⟨_, i, e, _⟩
    · exact .inr ⟨by decide, "C".toList, by decide, by decide⟩
    · have : '$' ∉ "a/B".toList := by decide
      rw [e] at this
      simp at this
  have hmeth : ∀ n d, ws.Dumps n d → dumpedMethods ws d = [] ∨ (n = "a/B$C".toList ∧ dumpedMethods ws d = [⟨id, "q".toList, "(La/B;La/B$C;)La/B$C;".toList, false, none, none⟩]) := by
    intro n d h
    unfold dumpedMethods
    by_cases hd : d = c
    · subst hd
      right
      refine ⟨?_, by rw [hm]; rfl⟩
      rcases hD h with rfl | rfl
      · exact absurd rfl (isClass_ne hr.inv h.1 hc (by decide))
      · rfl
    · left
      rw [hm' d hd]
      rfl
  have hclass : cppScope "a/B".toList = "jnivm::a::B".toList ∧ cppScope "a/B$C".toList = "jnivm::a::B::C".toList := by decide +kernel
  refine ⟨ws, c, _, hr, ⟨?_, ?_, ?_⟩, ⟨⟨?_, ?_, ?_, ?_, ?_, ?_⟩, ?_, ?_, ?_, ?_, ?_⟩, hdc, by unfold dumpedMethods; rw [hm]; exact List.mem_singleton.2 rfl, ?_, ?_⟩
  · intro n d _ _ m hmm _
    by_cases hd : d = c
    · rw [hd, hm, List.mem_singleton] at hmm
      rw [hmm]
      refine ⟨⟨rfl, ?_, ?_, show "(La/B;La/B$C;)La/B$C;".toList = renderSig [.cls "a/B".toList, .cls "a/B$C".toList] (some (.cls "a/B$C".toList)) by decide +kernel⟩,
        show '\n' ∉ "(La/B;La/B$C;)La/B$C;".toList by decide, show '\n' ∉ "q".toList by decide⟩
      · simp [programTyping, Ty.Valid]
      · simp [programTyping, Ty.Valid]
    · rw [hm' d hd] at hmm; cases hmm
  · intro n d _ _ f hff
    rw [hf] at hff; cases hff
  · intro n d h
    exact sample_names (hn n d h)
  · simp only [programReader]; decide +kernel
  · intro n d h
    rcases hD h with rfl | rfl
    · exact ⟨sample_plain.1, by decide +kernel⟩
    · exact ⟨sample_plain.2, by decide +kernel⟩
  · intro n d h
    rcases hD h with rfl | rfl <;> simp only [programReader] <;> decide +kernel
  · intro n d x y h e
    have hx : x = "a".toList := by
      have h1 : ∀ z ∈ ["a/B".toList, "a/B$C".toList], ∀ j ∈ List.range 6, (z.drop j).head? = some '/' → z.take j = "a".toList := by decide +kernel
      have hz : n ∈ ["a/B".toList, "a/B$C".toList] := by
        rcases hD h with h | h <;> rw [h] <;> simp
      have hlen : ∀ z ∈ ["a/B".toList, "a/B$C".toList], z.length ≤ 5 := by decide +kernel
      have hl := hlen n hz
      have ha : n.take x.length = x := by rw [e]; simp
      have hb : n.drop x.length = '/' :: y := by rw [e]; simp
      rw [← ha]
      exact h1 n hz _ (List.mem_range.2 (by rw [e] at hl; simp at hl; omega)) (by rw [hb]; rfl)
    subst hx
    refine ⟨by simp only [programReader]; decide +kernel, fun m d' h' => ?_⟩
    rcases hD h' with rfl | rfl <;> decide +kernel
  · intro n d h
    rcases hD h with rfl | rfl <;> simp only [programReader] <;> decide +kernel
  · intro n d n' d' h h' e
    rcases hD h with rfl | rfl <;> rcases hD h' with rfl | rfl <;> first | rfl | exact absurd e (by decide +kernel)
  · intro n d h
    unfold memberNames
    rw [hf]
    rcases hmeth n d h with e | ⟨rfl, e⟩
    · rw [e]; exact ⟨List.nodup_nil, fun _ hx => (nomatch hx)⟩
    · rw [e]
      have e1 : (List.map (·.name) ([] : List FieldRec)) ++ (([⟨id, "q".toList, "(La/B;La/B$C;)La/B$C;".toList, false, none, none⟩] : List MethodRec).filter (·.name ≠ "<init>".toList)).map (·.name) = ["q".toList] := by rfl
      rw [e1]
      refine ⟨by simp, fun x hx => ?_⟩
      rw [List.mem_singleton] at hx
      subst hx
      refine ⟨by decide, ?_, by cases fake <;> decide +kernel, fun j hj => ?_⟩
      · rintro ⟨_, h⟩
        rw [if_neg (by decide)] at h
        rcases h.2 with h | ⟨pre, h⟩ | ⟨pre, h⟩
        · exact absurd h (by decide)
        · have h := congrArg List.getLast? h
          rw [List.getLast?_append, show (_ :: "q".toList).getLast? = some 'q' from rfl, Option.some_or] at h
          exact absurd h (by decide)
        · have h := congrArg List.getLast? h
          rw [List.getLast?_append, show (_ :: "q".toList).getLast? = some 'q' from rfl, Option.some_or] at h
          exact absurd h (by decide)
      · rcases hn _ _ hj with ⟨m, hm, he⟩ | he
        · have h1 : ∀ m ∈ builtinClasses.map String.toList, '$' ∉ m := by decide +kernel
          have h2 := h1 m hm
          rcases he with rfl | ⟨_, i, rfl, _⟩
          · exact h2 (by simp)
          · exact h2 (by simp)
        · rcases sample_encloses he with h | h
          · exact absurd (congrArg List.length h) (by decide)
          · exact absurd (congrArg List.length h) (by decide)
  · intro n d _ f hff
    rw [hf] at hff; cases hff
  · intro n d h m hmm k hk
    rcases hmeth n d h with e | ⟨rfl, e⟩
    · rw [e] at hmm; cases hmm
    · have hk' : k = "a/B".toList ∨ k = "a/B$C".toList := by
        have : k ∈ ["a/B".toList, "a/B$C".toList, "a/B$C".toList] := hk
        simpa only [List.mem_cons, List.not_mem_nil, or_false, or_self] using this
      left
      rcases hk' with rfl | rfl
      · refine ⟨⟨b, hdb⟩, fun o x e _ _ => ?_⟩
        have h1 : '$' ∉ "a/B".toList := by decide
        rw [e] at h1
        simp at h1
      · refine ⟨⟨c, hdc⟩, fun o x e hx _ => ?_⟩
        exact .inr ⟨by decide, x, e, hx⟩
  · intro n d h m hmm hi
    rcases hmeth n d h with e | ⟨rfl, e⟩
    · rw [e] at hmm; cases hmm
    · rw [e, List.mem_singleton] at hmm
      rw [hmm] at hi
      exact absurd (show "q".toList = "<init>".toList from hi) (by decide)
  · intro n d h
    rcases hmeth n d h with e | ⟨rfl, e⟩ <;> rw [e] <;> exact List.nodup_nil
  · intro n d h m hmm m' _ hi _
    rcases hmeth n d h with e | ⟨rfl, e⟩
    · rw [e] at hmm; cases hmm
    · rw [e, List.mem_singleton] at hmm
      rw [hmm] at hi
      exact absurd (show "q".toList = "<init>".toList from hi) (by decide)
  · intro n d h t k hu
    have hk : (t = 1 ∧ k = "java/lang/Class".toList) ∨ (t = programNum k ∧ (k = "a/B".toList ∨ k = "a/B$C".toList)) := by
      rcases hu with h | ⟨ht, hu⟩
      · exact .inl h
      · refine .inr ⟨ht, ?_⟩
        rcases hu with rfl | ⟨f, hff, _⟩ | ⟨m, _, ⟨u, hu, hk⟩ | ⟨u, hu, hk⟩⟩
        · exact hD h
        · rw [hf] at hff; cases hff
        · have hu : u = .cls "a/B".toList ∨ u = .cls "a/B$C".toList := by
            simpa only [programTyping, List.mem_cons, List.not_mem_nil, or_false] using hu
          rcases hu with rfl | rfl
          · exact .inl (List.mem_singleton.1 hk)
          · exact .inr (List.mem_singleton.1 hk)
        · cases hu
          exact .inr (List.mem_singleton.1 hk)
    refine ⟨.inr ⟨rfl, rfl, ?_⟩, fun n' d' h' e => ?_⟩
    · rcases hk with ⟨rfl, rfl⟩ | ⟨rfl, rfl | rfl⟩ <;> decide +kernel
    · have e : t = programNum n' := e
      rcases hk with ⟨rfl, rfl⟩ | ⟨rfl, rfl | rfl⟩ <;> rcases hD h' with rfl | rfl <;> first | rfl | exact absurd e (by decide +kernel)

example (fake : Bool) : ∃ (ws : World) (c : Nat) (m : MethodRec), ws.Dumps "a/B$C".toList c ∧ m ∈ dumpedMethods ws c ∧ ∃ d0, ∀ d, d0 ≤ d →
    ∃ s P, ws.classDump fake d = .ok s ∧ readProgram (programReader fake) s = some P ∧
      ∃ w', P.run false programInfo (fun _ => []) World.initial = .ok w' ∧ ∃ c', w'.IsClass "a/B$C".toList c' := by
  obtain ⟨ws, c, m, hr, hT, H, hc, hm, hA, hU⟩ := program_sample fake
  obtain ⟨d0, h⟩ := program_partial hr hT H
  refine ⟨ws, c, m, hc, hm, d0, fun d hd => ?_⟩
  obtain ⟨s, P, h1, h2, h3⟩ := h d hd
  obtain ⟨w', e, _, hw⟩ := h3 false programInfo (fun _ => []) World.initial ⟨[], rfl⟩ rfl (fun _ => hA)
    fun n c hn t k hu => ⟨.inl (hU n c hn t k hu).1, (hU n c hn t k hu).2⟩
  obtain ⟨c', hc', _⟩ := hw _ c "C".toList hc ⟨by decide, by rw [if_neg (by decide)]; exact ⟨by decide, .inr (.inr ⟨"a/B".toList, rfl⟩)⟩⟩
  exact ⟨s, P, h1, h2, w', e, c', hc'⟩

end Jnivm
