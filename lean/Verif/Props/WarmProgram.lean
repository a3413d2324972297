import Verif.Props.Warm
import Verif.Props.Asserts
/-!
C83 for programs: what a program has to observe when it gives its C++ types to the VM so that lookups can be
repeated by threads without races.
-/
namespace Jnivm
open Spec

theorem basesFirst_mem {pre post : List Declared} {d : Declared} : ∀ {seen : List Nat},
    BasesFirst seen (pre ++ d :: post) → ∀ t, some t ∈ d.bases → t ∈ seen ∨ t ∈ pre.map (·.type) := by
  induction pre with
  | nil => intro seen h t ht; exact .inl (h.1 _ ht t rfl)
  | cons p pre ih =>
    intro seen h t ht
    rcases ih h.2 t ht with h1 | h1
    · rcases List.mem_cons.1 h1 with rfl | h1
      · exact .inr (by simp)
      · exact .inl h1
    · exact .inr (by rw [List.map_cons]; exact List.mem_cons_of_mem _ h1)

/-- Types given after their base types have bases that are given, and no cycles. -/
theorem bases_first_acyclic {ds : List Declared} (h1 : OneToOne ds) (hf : BasesFirst [] ds) :
    BasesGiven ds ∧ TypesAcyclic ds := by
  constructor
  · intro d hd t ht
    obtain ⟨pre, post, rfl, _⟩ := List.eq_append_cons_of_mem hd
    rcases basesFirst_mem hf t ht with h | h
    · cases h
    · obtain ⟨e, he, rfl⟩ := List.mem_map.1 h
      exact ⟨e, List.mem_append_left _ he, rfl⟩
  · refine ⟨fun t => (ds.map (·.type)).idxOf t, ?_⟩
    rintro t u ⟨d, hd, rfl, hu⟩
    obtain ⟨pre, post, rfl, hpre⟩ := List.eq_append_cons_of_mem hd
    have hup : u ∈ pre.map (·.type) := (basesFirst_mem hf u hu).resolve_left (fun h => nomatch h)
    have hdp : d.type ∉ pre.map (·.type) := by
      intro hm
      obtain ⟨e, he, heq⟩ := List.mem_map.1 hm
      have := h1 e (List.mem_append_left _ he) d hd (.inl heq)
      exact hpre (this ▸ he)
    dsimp only
    rw [List.map_append, List.map_cons, List.idxOf_append, if_pos hup, List.idxOf_append, if_neg hdp,
      List.idxOf_cons_self]
    have := List.idxOf_lt_length_iff.2 hup
    omega

/-- The hierarchy of a program whose types have one class each, whose base types are all given to the VM in
whatever order, and whose types have no cycle. -/
theorem program_hierarchy {ops : List MemOp} {w : World} (h : runMem .initial ops = .ok w)
    (h1 : OneToOne (declareds ops)) (hg : BasesGiven (declareds ops)) (ha : TypesAcyclic (declareds ops)) :
    BasesKnown w ∧ ∃ rank, Ranked rank w := by
  have inv := rawInv h
  constructor
  · intro c ts t hts ht
    obtain ⟨d, hd, rfl, _⟩ := inv.bases c ts hts
    obtain ⟨e, he, rfl⟩ := hg d hd t ht
    exact (inv.types e.type).2 ⟨e, he, rfl⟩
  · obtain ⟨rank, hr⟩ := types_acyclic h h1 ha
    exact ⟨rank, fun c bs b hbs hb => hr c b ⟨bs, hbs, hb⟩⟩

/-- A program that gives each of its types to the VM under one name, base types first, hooks what it likes, and then
makes on one thread the lookups it will need: any number of threads may repeat them, on any schedule, without races,
and all come to their end. -/
theorem program_race_free {ops : List MemOp} {depth n : Nat} {w w' : World} {threads : Bool}
    {calls : Nat → List Call} {qs : List MemQuery} {as : List (Option Nat)} (h : runMem .initial ops = .ok w)
    (h1 : OneToOne (declareds ops)) (hf : BasesFirst [] (declareds ops)) (hq : ∀ q ∈ qs, NamesClass w q)
    (hx : runQueries depth w qs = .ok (w', as)) (hn : ∀ t, n ≤ t → calls t = [])
    (hc : ∀ t, ∀ x ∈ calls t, Beside threads x ∨ ∃ q ∈ qs, ∃ cl ds, x = q.call w' cl ds)
    {s : LockState} (hs : (LockState.start false depth calls).Reach s) :
    (∀ l, ¬ Racing s.next l) ∧
    ∃ s', s.Reach s' ∧ (∀ t, s'.turn t = .finished) ∧ ∀ m, s'.owner m = none := by
  obtain ⟨hg, ha⟩ := bases_first_acyclic h1 hf
  obtain ⟨hb, rank, hk⟩ := program_hierarchy h h1 hg ha
  exact warmed_race_free ⟨ops, h⟩ hb hk hq hx hn hc hs

/-- One name for two types does not do: in whatever state, a type given under the name of its base type makes a class
that is its own base class. -/
theorem shared_name_cycle {w : World} (hr : MemReachable w) {t u : Nat} (htu : t ≠ u) (n : Str)
    (bs rest : List (Option Nat)) :
    ∃ w' c, runMem w [.bindType t n bs, .bindType u n (some t :: rest)] = .ok w' ∧ w'.IsClass n c ∧
      Direct w'.bases c c ∧ ∀ rank, ¬ Ranked rank w' := by
  obtain ⟨w1, c, r1, c1, t1, _, _, _⟩ := bindType_spec hr.inv t n bs
  obtain ⟨w2, d, r2, c2, t2, m2, k2, _⟩ := bindType_spec (step_memInv hr.inv r1) u n (some t :: rest)
  have hcd : c = d := isClass_fun (k2 _ _ c1) c2
  subst hcd
  have hb : w2.bases c = some (some c :: rest.map fun x => x.bind w2.types) := by
    have ht : w2.types t = some c := by rw [t2, if_neg htu, t1, if_pos rfl]
    unfold World.bases
    rw [m2, if_pos rfl]
    simp [ht]
  refine ⟨w2, c, by simp only [runMem, r1, r2, Res.bind_ok], c2, ⟨_, hb, List.mem_cons_self⟩, fun rank hk => ?_⟩
  exact absurd (hk c _ c hb List.mem_cons_self) (Nat.lt_irrefl _)

/-- A program with a derived class whose types are given in order; the classes of a new VM are among them. -/
example : ∃ w, runMem .initial typesOps = .ok w ∧ OneToOne (declareds typesOps) ∧
    BasesFirst [] (declareds typesOps) ∧ (declareds typesOps).length = 12 := by
  refine ⟨_, rfl, by decide +kernel, ?_, by decide +kernel⟩
  simp [typesOps, startOps, declareds, BasesFirst]

end Jnivm
