import Verif.Lemmas.HeapEffect
import Verif.Spec.Refs
/-!
The specification of references agrees with the model.
-/
namespace Jnivm
open Spec

/-- The result is a value with the given property. -/
def Res.holds {α : Type} (p : α → Bool) : Res α → Bool
  | .ok a => p a
  | _ => false

theorem Res.holds_iff {α : Type} {p : α → Bool} {r : Res α} :
    r.holds p = true ↔ ∃ a, r = .ok a ∧ p a = true := by
  cases r <;> simp [Res.holds]

theorem mem_edges {k : Kind} {i : Nat} :
    i ∈ k.edges ↔ k = .global i ∨ (∃ slots, k = .array slots ∧ some i ∈ slots) ∨
      ∃ vars, k = .record vars ∧ some i ∈ vars := by
  cases k <;> simp [Kind.edges, eq_comm]

theorem owns_iff {h : Heap} {j i : Nat} : Owns h j i ↔ h.Edge j i := by
  simp only [Owns, Heap.Edge, mem_edges]

theorem root_iff {h : Heap} (hp : h.Pre) {i : Nat} : Root h i ↔ i ∈ h.roots := by
  rw [Heap.mem_roots]
  refine or_congr Iff.rfl (or_congr Iff.rfl ⟨?_, ?_⟩)
  · rintro (⟨t, e, he, hf⟩ | ⟨t, e, he, hpd⟩)
    · exact ⟨t, e, hp.thread t e he, he, .inl hf⟩
    · exact ⟨t, e, hp.thread t e he, he, .inr hpd⟩
  · rintro ⟨t, e, _, he, hf | hpd⟩
    · exact .inl ⟨t, e, he, hf⟩
    · exact .inr ⟨t, e, he, hpd⟩

theorem reachable_iff {h : Heap} (hp : h.Pre) {i : Nat} : Reachable h i ↔ h.Reach i := by
  constructor
  · intro hr
    induction hr with
    | root hr => exact .root ((root_iff hp).1 hr)
    | owned _ ho ih => exact .edge ih (owns_iff.1 ho)
  · intro hr
    induction hr with
    | root hr => exact .root ((root_iff hp).2 hr)
    | edge _ ho ih => exact .owned ih (owns_iff.2 ho)

theorem isWrapper_iff {k : Kind} : k.isWrapper = false ↔ ∀ t, k ≠ .weak t ∧ k ≠ .global t := by
  cases k <;> simp [Kind.isWrapper]

namespace Heap

theorem unwrap_direct {h : Heap} {n i : Nat} {o : Obj} (ho : h.objs i = some o)
    (hw : o.kind.isWrapper = false) : h.unwrap (n + 1) i = .ok (some i) := by
  rw [unwrap]; simp only [ho]
  cases hk : o.kind <;> simp [hk, Kind.isWrapper] at hw ⊢

theorem denotes_fun {h : Heap} {r x y : Option Nat} (hx : Denotes h r x) (hy : Denotes h r y) :
    x = y := by
  induction hx generalizing y with
  | null => cases hy; rfl
  | direct ho hw =>
    cases hy with
    | direct => rfl
    | global ho' hk' _ => rw [ho] at ho'; cases ho'; exact absurd hk' (hw _).2
    | weak ho' hk' _ => rw [ho] at ho'; cases ho'; exact absurd hk' (hw _).1
    | cleared ho' hk' _ => rw [ho] at ho'; cases ho'; exact absurd hk' (hw _).1
  | global ho hk _ ih =>
    cases hy with
    | direct ho' hw => rw [ho] at ho'; cases ho'; exact absurd hk (hw _).2
    | global ho' hk' h' => rw [ho] at ho'; cases ho'; rw [hk] at hk'; cases hk'; exact ih h'
    | weak ho' hk' _ => rw [ho] at ho'; cases ho'; rw [hk] at hk'; cases hk'
    | cleared ho' hk' _ => rw [ho] at ho'; cases ho'; rw [hk] at hk'; cases hk'
  | weak ho hk h1 ih =>
    cases hy with
    | direct ho' hw => rw [ho] at ho'; cases ho'; exact absurd hk (hw _).1
    | global ho' hk' h' => rw [ho] at ho'; cases ho'; rw [hk] at hk'; cases hk'
    | weak ho' hk' h' => rw [ho] at ho'; cases ho'; rw [hk] at hk'; cases hk'; exact ih h'
    | cleared ho' hk' hl =>
      rw [ho] at ho'; cases ho'; rw [hk] at hk'; cases hk'
      exfalso; apply hl
      cases h1 with
      | direct ho _ => exact ⟨_, ho⟩
      | global ho _ _ => exact ⟨_, ho⟩
      | weak ho _ _ => exact ⟨_, ho⟩
      | cleared ho _ _ => exact ⟨_, ho⟩
  | cleared ho hk hl =>
    cases hy with
    | direct ho' hw => rw [ho] at ho'; cases ho'; exact absurd hk (hw _).1
    | global ho' hk' h' => rw [ho] at ho'; cases ho'; rw [hk] at hk'; cases hk'
    | weak ho' hk' h1 =>
      rw [ho] at ho'; cases ho'; rw [hk] at hk'; cases hk'
      exfalso; apply hl
      cases h1 with
      | direct ho _ => exact ⟨_, ho⟩
      | global ho _ _ => exact ⟨_, ho⟩
      | weak ho _ _ => exact ⟨_, ho⟩
      | cleared ho _ _ => exact ⟨_, ho⟩
    | cleared => rfl

/-- The cast computes the denotation. -/
theorem denote_iff {h : Heap} (hp : h.Pre) {r x : Option Nat} :
    h.denote r = .ok x ↔ Denotes h r x := by
  have fwd : ∀ {r x}, h.denote r = .ok x → Denotes h r x := by
    intro r x hd
    cases r with
    | none => cases hd; exact .null
    | some i =>
      rcases unwrap_le hp hd with ⟨o, ho, hw, rfl⟩ | ⟨o, t, ho, hk, hr⟩
      · exact .direct ho (isWrapper_iff.1 hw)
      · rcases hr with ⟨rfl, ot, hot⟩ | ⟨rfl, hl, hk'⟩
        · have hd : Denotes h (some t) (some t) :=
            .direct hot (isWrapper_iff.1 ((hp.target i o t ho hk).2 ot hot))
          rcases hk with hk | hk
          · exact .weak ho hk hd
          · exact .global ho hk hd
        · exact .cleared ho hk' hl
  refine ⟨fwd, fun hd => ?_⟩
  have total : ∃ y, h.denote r = .ok y := by
    cases r with
    | none => exact ⟨none, rfl⟩
    | some i =>
      obtain ⟨o, ho⟩ : ∃ o, h.objs i = some o := by
        cases hd with
        | direct ho _ => exact ⟨_, ho⟩
        | global ho _ _ => exact ⟨_, ho⟩
        | weak ho _ _ => exact ⟨_, ho⟩
        | cleared ho _ _ => exact ⟨_, ho⟩
      have hi := hp.bound i o ho
      obtain ⟨m, hm⟩ : ∃ m, h.next = m + 1 := ⟨h.next - 1, by omega⟩
      by_cases hw : o.kind.isWrapper = false
      · exact ⟨_, unwrap_direct ho hw⟩
      · simp only [denote, hm]
        rw [unwrap]; simp only [ho]
        cases hk : o.kind <;> simp [hk, Kind.isWrapper] at hw
        · rename_i t
          cases hot : h.objs t with
          | none => exact ⟨none, by simp only [hot]⟩
          | some ot =>
            simp only [hot]
            exact ⟨_, unwrap_direct hot ((hp.target i o t ho (.inl hk)).2 ot hot)⟩
        · rename_i t
          obtain ⟨ot, hot⟩ := hp.edges i t ⟨o, ho, by simp [hk, Kind.edges]⟩
          exact ⟨_, unwrap_direct hot ((hp.target i o t ho (.inr hk)).2 ot hot)⟩
  obtain ⟨y, hy⟩ := total
  rw [hy, denotes_fun hd (fwd hy)]

/-- Every valid reference denotes something. -/
theorem denote_total {h : Heap} (hp : h.Pre) {r : Option Nat} (hv : Valid h r) :
    ∃ x, h.denote r = .ok x ∧ Denotes h r x := by
  cases r with
  | none => exact ⟨none, rfl, .null⟩
  | some i =>
    obtain ⟨o, ho⟩ := hv
    have direct : ∀ {j oj}, h.objs j = some oj → oj.kind.isWrapper = false →
        Denotes h (some j) (some j) := fun hj hw => .direct hj (isWrapper_iff.1 hw)
    have : ∃ x, Denotes h (some i) x := by
      by_cases hw : o.kind.isWrapper = false
      · exact ⟨_, direct ho hw⟩
      · cases hk : o.kind <;> simp [hk, Kind.isWrapper] at hw
        · rename_i t
          by_cases hl : Live h t
          · obtain ⟨ot, hot⟩ := hl
            exact ⟨_, .weak ho hk (direct hot ((hp.target i o t ho (.inl hk)).2 ot hot))⟩
          · exact ⟨_, .cleared ho hk hl⟩
        · rename_i t
          obtain ⟨ot, hot⟩ := hp.edges i t ⟨o, ho, by simp [hk, Kind.edges]⟩
          exact ⟨_, .global ho hk (direct hot ((hp.target i o t ho (.inr hk)).2 ot hot))⟩
    obtain ⟨x, hx⟩ := this
    exact ⟨x, (denote_iff hp).2 hx, hx⟩

theorem denotes_valid {h : Heap} {r x : Option Nat} (hd : Denotes h r x) : Valid h r := by
  cases hd with
  | null => trivial
  | direct ho _ => exact ⟨_, ho⟩
  | global ho _ _ => exact ⟨_, ho⟩
  | weak ho _ _ => exact ⟨_, ho⟩
  | cleared ho _ _ => exact ⟨_, ho⟩

theorem denotes_ok {h : Heap} (hp : h.Pre) {r : Option Nat} {i : Nat} (hd : Denotes h r (some i)) :
    ∃ o, h.objs i = some o ∧ ∀ t, o.kind ≠ .weak t ∧ o.kind ≠ .global t := by
  obtain ⟨o, ho, hw⟩ := denote_ok hp ((denote_iff hp).2 hd)
  exact ⟨o, ho, isWrapper_iff.1 hw⟩

end Heap

/-! ### Histories -/

theorem Along.induct {P : Heap → Nat → HeapOp → Prop} {Q : Heap → Prop}
    (step : ∀ h t op h' out, h.Inv → Q h → P h t op → op.run h t = .ok (h', out) → Q h') :
    ∀ {ops h h'}, h.Inv → Q h → Along P h ops → runHeap h ops = .ok h' → Q h' := by
  intro ops
  induction ops with
  | nil => intro h h' _ hq _ hx; cases hx; exact hq
  | cons x ops ih =>
    obtain ⟨t, op⟩ := x
    intro h h' hi hq ha hx
    obtain ⟨⟨h1, out⟩, hx1, hx2⟩ := Res.bind_eq_ok.1 hx
    exact ih (hi.run hx1) (step h t op h1 out hi hq ha.1 hx1) (ha.2 h1 out hx1) hx2

theorem Along.trivial {ops : List (Nat × HeapOp)} {h : Heap} : Along (fun _ _ _ => True) h ops := by
  induction ops generalizing h with
  | nil => exact True.intro
  | cons x ops ih => exact ⟨True.intro, fun _ _ _ => ih⟩

theorem runHeap_append {h : Heap} {a b : List (Nat × HeapOp)} :
    runHeap h (a ++ b) = (runHeap h a).bind fun h' => runHeap h' b := by
  induction a generalizing h with
  | nil => rfl
  | cons x a ih =>
    obtain ⟨t, op⟩ := x
    simp only [List.cons_append, runHeap]
    cases op.run h t with
    | ok p => simp only [Res.bind_ok]; exact ih
    | _ => rfl

theorem HeapReachable.step {h h' : Heap} (hr : HeapReachable h) {t : Nat} {op : HeapOp} {out : Out}
    (hx : op.run h t = .ok (h', out)) : HeapReachable h' := by
  obtain ⟨ops, ho⟩ := hr
  refine ⟨ops ++ [(t, op)], ?_⟩
  rw [runHeap_append, ho, Res.bind_ok]
  simp only [runHeap, hx, Res.bind_ok]

theorem HeapReachable.steps {h h' : Heap} (hr : HeapReachable h) {ops : List (Nat × HeapOp)}
    (hx : runHeap h ops = .ok h') : HeapReachable h' := by
  obtain ⟨ops0, ho⟩ := hr
  refine ⟨ops0 ++ ops, ?_⟩
  rw [runHeap_append, ho, Res.bind_ok, hx]

theorem HeapReachable.initial : HeapReachable Heap.initial := ⟨[], rfl⟩

/-- What a whole call changes. -/
structure RunStep (t : Nat) (h h' : Heap) : Prop where
  next : h.next ≤ h'.next
  old : ∀ i o', i < h.next → h'.objs i = some o' → ∃ o, h.objs i = some o ∧ o.kind.Same o'.kind ∧
    ∀ c, o.cls = some c → o'.cls = some c
  others : ∀ u, u ≠ t → h'.envs u = h.envs u
  classes : ∀ n c, h.classes.lookup n = some c → h'.classes.lookup n = some c

theorem runStep {h h' : Heap} (hp : h.Pre) {t : Nat} {op : HeapOp} {out : Out}
    (hx : op.run h t = .ok (h', out)) : RunStep t h h' := by
  obtain ⟨h1, hx1, rfl⟩ := Heap.run_ok hx
  have s := Heap.step_exec hp hx1
  refine ⟨?_, ?_, ?_, ?_⟩
  · simpa using s.next
  · intro i o' hi ho'
    exact s.old hi (Heap.collect_sub ho')
  · simpa using s.others
  · simpa using s.classes

/-- An object that is reachable after the body of a call is live after the call. -/
theorem run_keep {h h' : Heap} (hp : h.Pre) {t : Nat} {op : HeapOp} {out : Out}
    (hx : op.run h t = .ok (h', out)) {i : Nat} (hr : Reachable h' i) : Live h' i := by
  have hi : h'.Inv := by
    obtain ⟨h1, hx1, rfl⟩ := Heap.run_ok hx
    exact (Heap.step_exec hp hx1).pre.collect
  have := (reachable_iff hi.toPre).1 hr
  cases this with
  | root h1 => exact hi.roots i h1
  | edge _ h2 => exact hi.edges _ _ h2

/-! ### Frames -/

namespace Heap

theorem addFront_append {l : List Nat} {a b : List (List Nat)} (ha : a ≠ []) :
    addFront l (a ++ b) = addFront l a ++ b := by
  cases a with
  | nil => exact absurd rfl ha
  | cons f fs => rfl

theorem addFront_ne {l : List Nat} {a : List (List Nat)} (ha : a ≠ []) : addFront l a ≠ [] := by
  cases a with
  | nil => exact absurd rfl ha
  | cons f fs => simp [addFront]

theorem addFront_length (l : List Nat) (a : List (List Nat)) : (addFront l a).length = a.length := by
  cases a <;> simp [addFront]

theorem dropFront_append {a b : List (List Nat)} (ha : 2 ≤ a.length) :
    dropFront (a ++ b) = dropFront a ++ b ∧ dropFront a ≠ [] ∧ (dropFront a).length + 1 = a.length := by
  match a, ha with
  | _ :: _ :: _, _ => simp [dropFront]

theorem dropFront_one {f : List Nat} {b : List (List Nat)} (hb : b ≠ []) : dropFront (f :: b) = b := by
  cases b with
  | nil => exact absurd rfl hb
  | cons g b => rfl

theorem eraseLocal_append {i : Nat} {a b : List (List Nat)} (ha : ∃ f ∈ a, i ∈ f) :
    eraseLocal i (a ++ b) = eraseLocal i a ++ b := by
  induction a with
  | nil => obtain ⟨f, hf, _⟩ := ha; cases hf
  | cons g a ih =>
    rw [List.cons_append, eraseLocal, eraseLocal]
    split
    · rfl
    · rename_i hg
      rw [ih, List.cons_append]
      obtain ⟨f, hf, hi⟩ := ha
      rcases List.mem_cons.1 hf with rfl | hf
      · exact absurd (List.contains_iff_mem.2 hi) hg
      · exact ⟨f, hf, hi⟩

theorem eraseLocal_absent {i : Nat} {a : List (List Nat)} (ha : ∀ f ∈ a, i ∉ f) :
    eraseLocal i a = a := by
  induction a with
  | nil => rfl
  | cons g a ih =>
    rw [eraseLocal, if_neg (fun hc => ha g (by simp) (List.contains_iff_mem.1 hc)),
      ih (fun f hf => ha f (by simp [hf]))]

theorem eraseLocal_mem_other {i j : Nat} {a : List (List Nat)} (hij : j ≠ i)
    (ha : ∃ f ∈ a, j ∈ f) : ∃ f ∈ eraseLocal i a, j ∈ f := by
  induction a with
  | nil => obtain ⟨f, hf, _⟩ := ha; cases hf
  | cons g a ih =>
    rw [eraseLocal]
    obtain ⟨f, hf, hj⟩ := ha
    split
    · rcases List.mem_cons.1 hf with rfl | hf
      · exact ⟨f.erase i, by simp, (List.mem_erase_of_ne hij).2 hj⟩
      · exact ⟨f, by simp [hf], hj⟩
    · rcases List.mem_cons.1 hf with rfl | hf
      · exact ⟨f, by simp, hj⟩
      · obtain ⟨f', hf', hj'⟩ := ih ⟨f, hf, hj⟩
        exact ⟨f', by simp [hf'], hj'⟩

/-- Removing a reference keeps the split into inner and outer frames. -/
theorem eraseLocal_split (i : Nat) (a b : List (List Nat)) :
    ∃ a' b', eraseLocal i (a ++ b) = a' ++ b' ∧ a'.length = a.length ∧ b'.length = b.length ∧
      ∀ j, j ≠ i → (∃ f ∈ b, j ∈ f) → ∃ f ∈ b', j ∈ f := by
  by_cases ha : ∃ f ∈ a, i ∈ f
  · exact ⟨_, _, eraseLocal_append ha, eraseLocal_length _ _, rfl, fun _ _ h => h⟩
  · have ha' : ∀ f ∈ a, i ∉ f := fun f hf hi => ha ⟨f, hf, hi⟩
    have : eraseLocal i (a ++ b) = a ++ eraseLocal i b := by
      clear ha
      induction a with
      | nil => rfl
      | cons g a ih =>
        rw [List.cons_append, eraseLocal,
          if_neg (fun hc => ha' g (by simp) (List.contains_iff_mem.1 hc)),
          ih (fun f hf => ha' f (by simp [hf]))]
        rfl
    exact ⟨_, _, this, rfl, eraseLocal_length _ _, fun j hj h => eraseLocal_mem_other hj h⟩

/-- Calls that only append local references. -/
theorem effect_add {h : Heap} {e : Env} {fs' : List (List Nat)} {out : Out} {op : HeapOp}
    (he : FrameEffect h e fs' out op) (h1 : op ≠ .pushLocalFrame) (h2 : ∀ r, op ≠ .popLocalFrame r)
    (h3 : ∀ r, op ≠ .deleteLocalRef r) : ∃ l, fs' = addFront l e.frames := by
  cases op <;> simp only [FrameEffect] at he <;>
    first
      | exact absurd rfl h1
      | exact absurd rfl (h2 _)
      | exact absurd rfl (h3 _)
      | exact ⟨_, he⟩
      | exact he
      | exact ⟨[], he.trans (addFront_nil _).symm⟩
      | exact he.elim

/-- The environment of the calling thread after a call. -/
theorem effect_run {h h' : Heap} (hp : h.Pre) {t : Nat} {e : Env} (he : h.envs t = some e)
    {op : HeapOp} {out : Out} (hx : op.run h t = .ok (h', out)) (hd : op ≠ .detach) :
    ∃ e', h'.envs t = some e' ∧ e'.eid = e.eid ∧ FrameEffect h e e'.frames out op := by
  obtain ⟨h1, hx1, rfl⟩ := run_ok hx
  obtain ⟨⟨e', h2, h3, h4, _⟩, _⟩ := effect_exec hp he hx1 hd
  exact ⟨e', by simpa using h2, h3, h4⟩

/-- One call inside a bracket. -/
theorem inside_run {h h' : Heap} (hp : h.Pre) {t u : Nat} {outer : List (List Nat)} {op : HeapOp}
    {out : Out} (hx : op.run h u = .ok (h', out)) (hin : u = t → Inside t outer h op)
    (hq : ∃ e inner, h.envs t = some e ∧ e.frames = inner ++ outer ∧ inner ≠ []) :
    ∃ e inner, h'.envs t = some e ∧ e.frames = inner ++ outer ∧ inner ≠ [] := by
  obtain ⟨e, inner, he, hf, hne⟩ := hq
  by_cases hut : u = t
  · subst hut
    have hin := hin rfl e inner he hf
    have hd : op ≠ .detach := by rintro rfl; exact hin
    obtain ⟨e', he', _, heff⟩ := effect_run hp he hx hd
    by_cases h1 : op = .pushLocalFrame
    · subst h1
      exact ⟨e', [] :: inner, he', by rw [show e'.frames = _ from heff, hf]; rfl, by simp⟩
    · by_cases h2 : ∃ r, op = .popLocalFrame r
      · obtain ⟨r, rfl⟩ := h2
        obtain ⟨x, _, hfr, _⟩ := heff
        obtain ⟨d1, d2, _⟩ := dropFront_append (b := outer) hin
        refine ⟨e', addFront x.toList (dropFront inner), he', ?_, addFront_ne d2⟩
        rw [hfr, hf, d1, addFront_append d2]
      · by_cases h3 : ∃ r, op = .deleteLocalRef r
        · obtain ⟨r, rfl⟩ := h3
          obtain ⟨x, hx, hfr⟩ := heff
          cases x with
          | none => exact ⟨e', inner, he', by rw [hfr, hf], hne⟩
          | some i =>
            simp only at hfr
            by_cases hi : ∃ f ∈ inner, i ∈ f
            · refine ⟨e', eraseLocal i inner, he', by rw [hfr, hf, eraseLocal_append hi], ?_⟩
              intro hnil
              have := eraseLocal_length i inner
              rw [hnil] at this
              exact hne (List.length_eq_zero_iff.1 this.symm)
            · rcases hin i ((denote_iff hp).1 hx) with h4 | h4
              · exact absurd h4 hi
              · refine ⟨e', inner, he', ?_, hne⟩
                rw [hfr, hf, eraseLocal_absent]
                intro f hf hif
                rcases List.mem_append.1 hf with hf | hf
                · exact hi ⟨f, hf, hif⟩
                · exact h4 f hf hif
        · obtain ⟨l, hfr⟩ := effect_add heff h1 (fun r hr => h2 ⟨r, hr⟩) (fun r hr => h3 ⟨r, hr⟩)
          exact ⟨e', addFront l inner, he', by rw [hfr, hf, addFront_append hne], addFront_ne hne⟩
  · exact ⟨e, inner, by rw [(runStep hp hx).others t (fun h => hut h.symm), he], hf, hne⟩

/-- One call that spares a local reference. -/
theorem spares_run {h h' : Heap} (hp : h.Pre) {t u i d : Nat} {op : HeapOp} {out : Out}
    (hd0 : 0 < d) (hx : op.run h u = .ok (h', out)) (hin : u = t → Spares t i d h op)
    (hq : ∃ e inner outer, h.envs t = some e ∧ e.frames = inner ++ outer ∧ outer.length = d ∧
      ∃ f ∈ outer, i ∈ f) :
    ∃ e inner outer, h'.envs t = some e ∧ e.frames = inner ++ outer ∧ outer.length = d ∧
      ∃ f ∈ outer, i ∈ f := by
  obtain ⟨e, inner, outer, he, hf, hl, hi⟩ := hq
  by_cases hut : u = t
  · subst hut
    have hin := hin rfl e he
    have hd : op ≠ .detach := by rintro rfl; exact hin
    have hone : outer ≠ [] := by rintro rfl; simp at hl; omega
    -- appending to the front keeps the reference
    have add : ∀ {inner outer : List (List Nat)} {l}, (∃ f ∈ outer, i ∈ f) → outer.length = d →
        ∃ inner' outer', addFront l (inner ++ outer) = inner' ++ outer' ∧ outer'.length = d ∧
          ∃ f ∈ outer', i ∈ f := by
      intro inner outer l hi hl
      cases inner with
      | cons g inner => exact ⟨(g ++ l) :: inner, outer, rfl, hl, hi⟩
      | nil =>
        refine ⟨[], addFront l outer, rfl, by rw [addFront_length, hl], ?_⟩
        obtain ⟨f, hf, hif⟩ := hi
        cases outer with
        | nil => cases hf
        | cons g outer =>
          rcases List.mem_cons.1 hf with rfl | hf
          · exact ⟨f ++ l, by simp [addFront], by simp [hif]⟩
          · exact ⟨f, by simp [addFront, hf], hif⟩
    obtain ⟨e', he', _, heff⟩ := effect_run hp he hx hd
    by_cases h1 : op = .pushLocalFrame
    · subst h1
      exact ⟨e', [] :: inner, outer, he', by rw [show e'.frames = _ from heff, hf]; rfl, hl, hi⟩
    · by_cases h2 : ∃ r, op = .popLocalFrame r
      · obtain ⟨r, rfl⟩ := h2
        obtain ⟨x, _, hfr, _⟩ := heff
        simp only at hin
        rw [hf, List.length_append] at hin
        cases inner with
        | nil => simp at hin; omega
        | cons g inner =>
          have hdrop : dropFront (g :: inner ++ outer) = inner ++ outer := by
            rw [List.cons_append, dropFront_one]
            intro hnil; exact hone (List.append_eq_nil_iff.1 hnil).2
          obtain ⟨a, b, hab, hb, hib⟩ := add (inner := inner) (l := x.toList) hi hl
          exact ⟨e', a, b, he', by rw [hfr, hf, hdrop, hab], hb, hib⟩
      · by_cases h3 : ∃ r, op = .deleteLocalRef r
        · obtain ⟨r, rfl⟩ := h3
          obtain ⟨x, hx, hfr⟩ := heff
          cases x with
          | none => exact ⟨e', inner, outer, he', by rw [hfr, hf], hl, hi⟩
          | some k =>
            simp only at hfr
            have hki : i ≠ k := by
              rintro rfl; exact hin ((denote_iff hp).1 hx)
            obtain ⟨a, b, hab, _, hb, hk⟩ := eraseLocal_split k inner outer
            exact ⟨e', a, b, he', by rw [hfr, hf, hab], hb.trans hl, hk i hki hi⟩
        · obtain ⟨l, hfr⟩ := effect_add heff h1 (fun r hr => h2 ⟨r, hr⟩) (fun r hr => h3 ⟨r, hr⟩)
          obtain ⟨a, b, hab, hb, hib⟩ := add (inner := inner) (l := l) hi hl
          exact ⟨e', a, b, he', by rw [hfr, hf, hab], hb, hib⟩
  · exact ⟨e, inner, outer, by rw [(runStep hp hx).others t (fun h => hut h.symm), he], hf, hl, hi⟩

end Heap
end Jnivm

/-! ### Checking conditions along a concrete history -/

namespace Jnivm
open Spec

def alongB (P : Heap → Nat → HeapOp → Bool) : Heap → List (Nat × HeapOp) → Bool
  | _, [] => true
  | h, (t, op) :: ops => P h t op && match op.run h t with
    | .ok (h', _) => alongB P h' ops
    | _ => true

theorem alongB_sound {P : Heap → Nat → HeapOp → Bool} {Q : Heap → Nat → HeapOp → Prop}
    (hPQ : ∀ h t op, h.Inv → P h t op = true → Q h t op) {ops : List (Nat × HeapOp)} :
    ∀ {h}, h.Inv → alongB P h ops = true → Along Q h ops := by
  induction ops with
  | nil => intro h _ _; trivial
  | cons x ops ih =>
    obtain ⟨t, op⟩ := x
    intro h hi ha
    simp only [alongB, Bool.and_eq_true] at ha
    refine ⟨hPQ h t op hi ha.1, fun h' out hx => ?_⟩
    have h2 := ha.2
    rw [hx] at h2
    exact ih (hi.run hx) h2

def insideB (t : Nat) (outer : List (List Nat)) (h : Heap) (op : HeapOp) : Bool :=
  match h.envs t with
  | none => true
  | some e => match op with
    | .popLocalFrame _ => decide (outer.length + 2 ≤ e.frames.length)
    | .deleteLocalRef r => match h.denote r with
      | .ok (some i) => (e.frames.take (e.frames.length - outer.length)).any (·.contains i) ||
          outer.all (fun f => !f.contains i)
      | _ => true
    | .detach => false
    | _ => true

theorem insideB_sound {t : Nat} {outer : List (List Nat)} {h : Heap} {op : HeapOp} (hi : h.Inv)
    (hb : insideB t outer h op = true) : Inside t outer h op := by
  intro e inner he hf
  simp only [insideB, he] at hb
  have htake : e.frames.take (e.frames.length - outer.length) = inner := by
    rw [hf]; simp
  cases op <;> simp only at hb ⊢
  case popLocalFrame =>
    have := of_decide_eq_true hb
    rw [hf, List.length_append] at this; omega
  case deleteLocalRef r =>
    intro i hd
    rw [(Heap.denote_iff hi.toPre).2 hd, htake] at hb
    simp only [Bool.or_eq_true, List.any_eq_true, List.contains_iff_mem, List.all_eq_true,
      Bool.not_eq_true'] at hb
    rcases hb with hb | hb
    · exact .inl hb
    · refine .inr fun f hf hif => ?_
      have := hb f hf
      rw [List.contains_iff_mem.2 hif] at this; cases this
  case detach => cases hb

def sparesB (t i depth : Nat) (h : Heap) (op : HeapOp) : Bool :=
  match h.envs t with
  | none => true
  | some e => match op with
    | .popLocalFrame _ => decide (depth < e.frames.length)
    | .deleteLocalRef r => h.denote r != .ok (some i)
    | .detach => false
    | _ => true

theorem sparesB_sound {t i depth : Nat} {h : Heap} {op : HeapOp} (hi : h.Inv)
    (hb : sparesB t i depth h op = true) : Spares t i depth h op := by
  intro e he
  simp only [sparesB, he] at hb
  cases op <;> simp only at hb ⊢
  case popLocalFrame => exact of_decide_eq_true hb
  case deleteLocalRef r =>
    intro hd
    rw [(Heap.denote_iff hi.toPre).2 hd] at hb
    simp at hb
  case detach => cases hb

/-- A reachable heap given by a concrete history. -/
theorem reachable_of {ops : List (Nat × HeapOp)} {p : Heap → Bool}
    (hx : (runHeap Heap.initial ops).holds p = true) :
    ∃ h, runHeap Heap.initial ops = .ok h ∧ HeapReachable h ∧ p h = true := by
  obtain ⟨h, h1, h2⟩ := Res.holds_iff.1 hx
  exact ⟨h, h1, ⟨ops, h1⟩, h2⟩

namespace Heap

/-! ### Progress -/

theorem pushLocal_exists {h : Heap} (hp : h.Pre) {t i : Nat} {e : Env} (he : h.envs t = some e) :
    ∃ h', h.pushLocal t i = .ok h' := by
  have := hp.frames t e he
  cases hf : e.frames with
  | nil => exact absurd hf this
  | cons f fs => exact ⟨_, by rw [pushLocal, env_ok.2 he, Res.bind_ok]; simp only [hf]; rfl⟩

theorem toJNI_exists {h : Heap} (hp : h.Pre) {t i : Nat} {s : Option Nat} {e : Env}
    (he : h.envs t = some e) (hl : h.Live i) (hs : ∀ c, s = some c → ∃ n, (n, c) ∈ h.classes) :
    ∃ h', h.toJNI t s i = .ok h' := by
  obtain ⟨o, ho⟩ := hl
  simp only [toJNI, ho]
  cases hc : o.cls with
  | some c =>
    simp only [Option.isNone_some]
    exact pushLocal_exists hp he
  | none =>
    simp only [Option.isNone_none, if_true]
    have s1 : Step t h (h.setObj i { o with cls := s }) :=
        hp.setObj t ho (Kind.Same.refl _) (by simp [hc])
          (fun j hj => hp.edges i j ⟨o, ho, hj⟩) hs
    exact pushLocal_exists s1.pre he

theorem toJNI?_exists {h : Heap} (hp : h.Pre) {t : Nat} {s i : Option Nat} {e : Env}
    (he : h.envs t = some e) (hl : ∀ j, i = some j → h.Live j)
    (hs : ∀ c, s = some c → ∃ n, (n, c) ∈ h.classes) :
    ∃ h', h.toJNI? t s i = .ok (h', i) := by
  cases i with
  | none => exact ⟨h, rfl⟩
  | some i =>
    obtain ⟨h', hx⟩ := toJNI_exists hp he (hl i rfl) hs
    exact ⟨h', by rw [toJNI?, hx, Res.bind_ok]⟩

theorem exec_of_body {h : Heap} {t : Nat} {op : HeapOp} {e : Env} (he : h.envs t = some e) :
    op.exec h t = op.body h t := by
  simp [HeapOp.exec, he]

/-! ### Acyclic ownership -/

theorem path_trans {h : Heap} {a b c : Nat} (x : OwnsPath h a b) (y : OwnsPath h b c) :
    OwnsPath h a c := by
  induction x with
  | one h1 => exact .cons h1 y
  | cons h1 _ ih => exact .cons h1 (ih y)

theorem path_lt {h : Heap} (hp : h.Pre) {a b : Nat} (x : OwnsPath h a b) : a < h.next := by
  cases x with
  | one h1 => obtain ⟨o, ho, _⟩ := h1; exact hp.bound a o ho
  | cons h1 _ => obtain ⟨o, ho, _⟩ := h1; exact hp.bound a o ho

open Classical in
/-- The number of objects that own `i` directly or indirectly. -/
noncomputable def rank (h : Heap) (i : Nat) : Nat :=
  (List.range h.next).countP fun j => decide (OwnsPath h j i)

open Classical in
theorem rank_lt {h : Heap} (hp : h.Pre) (hac : ∀ i, ¬ OwnsPath h i i) {j i : Nat}
    (ho : Owns h j i) : h.rank j < h.rank i := by
  refine countP_lt_of _ (fun k _ hk => ?_) ⟨j, List.mem_range.2 (path_lt hp (.one ho)), ?_, ?_⟩
  · exact decide_eq_true (path_trans (of_decide_eq_true hk) (.one ho))
  · exact decide_eq_true (.one ho)
  · exact decide_eq_false (hac j)

theorem reachable_of_acyclic {h : Heap} (hi : h.Inv) (hac : ∀ i, ¬ OwnsPath h i i) {i : Nat}
    (hl : Spec.Live h i) : Reachable h i := by
  induction hn : h.rank i using Nat.strongRecOn generalizing i with
  | _ n ih =>
    obtain ⟨o, ho⟩ := hl
    rcases (held_iff hi.bound).1 (hi.held i o ho) with hr | ⟨j, he⟩
    · exact .root ((root_iff hi.toPre).2 hr)
    · have hown := owns_iff.2 he
      have hlt := rank_lt hi.toPre hac hown
      rw [hn] at hlt
      obtain ⟨oj, hoj, _⟩ := he
      exact .owned (ih _ hlt ⟨oj, hoj⟩ rfl) hown

end Heap
end Jnivm
