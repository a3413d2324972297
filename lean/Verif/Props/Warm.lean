import Verif.Lemmas.Warm
/-!
Property C83: once made, lookups of classes and members change nothing; threads that repeat them at the same time
do not race.
-/
namespace Jnivm
open Spec

/-! ### On one thread -/

/-- A lookup made again at once changes nothing and answers the same. -/
theorem lookup_repeat {depth : Nat} {w w' : World} (hr : MemReachable w) {q : MemQuery} {a : Option Nat}
    (hn : NamesClass w q) (h : q.run depth w = .ok (w', a)) : q.run depth w' = .ok (w', a) :=
  (warm_after hr h hn).1

/-- What changes nothing now changes nothing after any history that leaves the found members. -/
theorem warm_stays {depth : Nat} {q : MemQuery} {ops : List MemOp} : ∀ {w w' : World}, MemReachable w →
    NamesClass w q → Warm depth w q → (∀ op ∈ ops, LeavesFound q op) → runMem w ops = .ok w' →
    Warm depth w' q ∧ NamesClass w' q := by
  induction ops with
  | nil => intro w w' _ hn hq _ h; cases h; exact ⟨hq, hn⟩
  | cons op ops ih =>
    intro w w' hr hn hq hops h
    obtain ⟨w1, h1, h2⟩ := Res.bind_eq_ok.1 h
    obtain ⟨k1, k2⟩ := warm_step hr h1 (hops op List.mem_cons_self) hq hn
    exact ih (hr.step h1) k2 k1 (fun op ho => hops op (List.mem_cons_of_mem _ ho)) h2

theorem queries_reachable {depth : Nat} {qs : List MemQuery} : ∀ {w w' : World} {as : List (Option Nat)},
    MemReachable w → runQueries depth w qs = .ok (w', as) → MemReachable w' := by
  induction qs with
  | nil => intro w w' as hr h; cases h; exact hr
  | cons q qs ih =>
    intro w w' as hr h
    obtain ⟨⟨w1, a⟩, h1, h2⟩ := Res.bind_eq_ok.1 h
    obtain ⟨⟨w2, as'⟩, h3, h4⟩ := Res.bind_eq_ok.1 h2
    cases h4
    exact ih (hr.step (query_op h1)) h3

theorem queries_warm {depth : Nat} {q : MemQuery} {qs : List MemQuery} : ∀ {w w' : World} {as : List (Option Nat)},
    MemReachable w → NamesClass w q → Warm depth w q → runQueries depth w qs = .ok (w', as) →
    Warm depth w' q ∧ NamesClass w' q := by
  induction qs with
  | nil => intro w w' as hr hn hq h; cases h; exact ⟨hq, hn⟩
  | cons p qs ih =>
    intro w w' as hr hn hq h
    obtain ⟨⟨w1, a⟩, h1, h2⟩ := Res.bind_eq_ok.1 h
    obtain ⟨⟨w2, as'⟩, h3, h4⟩ := Res.bind_eq_ok.1 h2
    cases h4
    obtain ⟨k1, k2⟩ := warm_step hr (query_op h1) (MemQuery.op_leaves depth p q) hq hn
    exact ih (hr.step (query_op h1)) k2 k1 h3

/-- Any lookups, made once one after the other, change nothing from then on, in whatever order and however often
they are made. -/
theorem warm_up {depth : Nat} {qs : List MemQuery} : ∀ {w w' : World} {as : List (Option Nat)}, MemReachable w →
    (∀ q ∈ qs, NamesClass w q) → runQueries depth w qs = .ok (w', as) →
    ∀ q ∈ qs, Warm depth w' q ∧ NamesClass w' q := by
  induction qs with
  | nil => intro _ _ _ _ _ _ q hq; cases hq
  | cons p qs ih =>
    intro w w' as hr hn h q hq
    obtain ⟨⟨w1, a⟩, h1, h2⟩ := Res.bind_eq_ok.1 h
    obtain ⟨⟨w2, as'⟩, h3, h4⟩ := Res.bind_eq_ok.1 h2
    cases h4
    have hr1 := hr.step (query_op h1)
    rcases List.mem_cons.1 hq with rfl | hq
    · obtain ⟨k1, k2⟩ := warm_after hr h1 (hn _ List.mem_cons_self)
      exact queries_warm hr1 k2 ⟨a, k1⟩ h3
    · refine ih hr1 (fun q hq => ?_) h3 q hq
      have := hn q (List.mem_cons_of_mem _ hq)
      cases q with
      | cls => trivial
      | method => obtain ⟨m, hm⟩ := this; exact ⟨m, names_step hr (query_op h1) hm⟩
      | field => obtain ⟨m, hm⟩ := this; exact ⟨m, names_step hr (query_op h1) hm⟩

/-- Lookups that change nothing, made in any order, leave the VM as it is, and each answers as if it were alone. -/
theorem warm_runs {depth : Nat} {w : World} {qs : List MemQuery} (h : ∀ q ∈ qs, Warm depth w q) :
    ∃ as, runQueries depth w qs = .ok (w, as) ∧ as.length = qs.length ∧
      ∀ (i : Nat) q a, qs[i]? = some q → as[i]? = some a → q.run depth w = .ok (w, a) := by
  induction qs with
  | nil => exact ⟨[], rfl, rfl, fun i q a e => by simp at e⟩
  | cons p qs ih =>
    obtain ⟨a, ha⟩ := h p List.mem_cons_self
    obtain ⟨as, h1, h2, h3⟩ := ih fun q hq => h q (List.mem_cons_of_mem _ hq)
    refine ⟨a :: as, ?_, by simp [h2], fun i q b e1 e2 => ?_⟩
    · unfold runQueries
      rw [ha, Res.bind_ok]
      dsimp only
      rw [h1]
      rfl
    · cases i with
      | zero => simp at e1 e2; subst e1; subst e2; exact ha
      | succ i => exact h3 i q b (by simpa using e1) (by simpa using e2)

/-! ### On several threads -/

theorem call_quiet {threads : Bool} {x : Call} (h : Beside threads x) {rank : Nat → Nat} :
    x.Acyclic rank ∧ x.Silent ∧ x.Quiet ∧ (threads = true → x.NotCppGetEnv) := by
  cases x with
  | attach known user =>
    obtain ⟨rfl, _⟩ := h
    exact ⟨trivial, rfl, nofun, fun _ => trivial⟩
  | detach known user =>
    obtain ⟨rfl, _⟩ := h
    exact ⟨trivial, rfl, nofun, fun _ => trivial⟩
  | cppGetEnv known => exact ⟨trivial, trivial, trivial, fun e => by rw [e] at h; cases h.1⟩
  | getFieldID => exact h.elim
  | _ => exact ⟨trivial, trivial, trivial, fun _ => trivial⟩

theorem query_quiet {rank : Nat → Nat} {w : World} (hk : Ranked rank w) (q : MemQuery) (cl : Bool) (ds : List Named) :
    (q.call w cl ds).Acyclic rank ∧ (q.call w cl ds).Silent ∧ (q.call w cl ds).Quiet ∧
      (q.call w cl ds).NotCppGetEnv := by
  cases q with
  | cls => exact ⟨trivial, trivial, trivial, trivial⟩
  | method => exact ⟨trivial, trivial, trivial, trivial⟩
  | field => exact ⟨fun _ c bs b => hk c bs b, trivial, trivial, trivial⟩

/-- Any number of threads that repeat lookups of classes and members which were made before, beside calls like those
on references, on any schedule: nobody ever writes anything but the tables of references and environments, which are
locked then, so no two threads touch one table at the same time with one of them writing; and all can be brought to
their end. -/
theorem warm_race_free {rank : Nat → Nat} {depth n : Nat} {w : World} {threads : Bool} {calls : Nat → List Call}
    (hr : MemReachable w) (hb : BasesKnown w) (hk : Ranked rank w) (hn : ∀ t, n ≤ t → calls t = [])
    (hc : ∀ t, ∀ x ∈ calls t, Beside threads x ∨
      ∃ q cl ds, Warm depth w q ∧ NamesClass w q ∧ x = q.call w cl ds)
    {s : LockState} (hs : (LockState.start false depth calls).Reach s) :
    (∀ l, ¬ Racing s.next l) ∧
    (∀ t l, s.next t = some (.write l) → (l = .globals ∨ l = .envs) ∧ s.owner .vm = some t) ∧
    ∃ s', s.Reach s' ∧ (∀ t, s'.turn t = .finished) ∧ ∀ m, s'.owner m = none := by
  have hq : ∀ t, ∀ x ∈ calls t, x.Acyclic rank ∧ x.Silent ∧ x.Quiet ∧ (threads = true → x.NotCppGetEnv) := by
    intro t x hx
    rcases hc t x hx with h | ⟨q, cl, ds, _, _, rfl⟩
    · exact call_quiet h
    · obtain ⟨h1, h2, h3, h4⟩ := query_quiet hk q cl ds
      exact ⟨h1, h2, h3, fun _ => h4⟩
  have hg := globals_natives_guarded (fun t x hx => ⟨(hq t x hx).1, (hq t x hx).2.1⟩) hs
  have hw : ∀ t l, s.next t = some (.write l) → l = .globals ∨ (l = .envs ∧ threads = true) := by
    intro t l hl
    have hm : Action.write l ∈ s.todo t := List.mem_of_mem_head? hl
    have hm := reach_mem hs t _ hm
    obtain ⟨x, hx, hm⟩ := List.mem_flatMap.1 hm
    rcases hc t x hx with h | ⟨q, cl, ds, h1, h2, rfl⟩
    · exact beside_writes h _ hm l rfl
    · exact absurd rfl (warm_noWrite hr hb h1 h2 cl ds _ hm l)
  have he : threads = true → ¬ Racing s.next .envs ∧
      ∀ t a, s.next t = some a → a.touches .envs → s.owner .vm = some t := fun e =>
    envs_guarded_partial (fun t x hx => ⟨(hq t x hx).1, (hq t x hx).2.1, (hq t x hx).2.2.2 e⟩) hs
  refine ⟨fun l hl => ?_, fun t l hl => ?_, ?_⟩
  · obtain ⟨t, u, a, h1, h2, h3⟩ := hl
    rcases hw t l h2 with rfl | ⟨rfl, e⟩
    · exact hg.1.1 ⟨t, u, a, h1, h2, h3⟩
    · exact (he e).1 ⟨t, u, a, h1, h2, h3⟩
  · rcases hw t l hl with rfl | ⟨rfl, e⟩
    · exact ⟨.inl rfl, (hg.2 t _ hl).1 rfl⟩
    · exact ⟨.inr rfl, (he e).2 t _ hl rfl⟩
  · exact (locks_complete hn (fun t x hx => ⟨(hq t x hx).1, (hq t x hx).2.2.1⟩) hs).2.2

/-- One thread makes the lookups that will be needed; then any number of threads repeat them as they like: no races,
and all come to their end. -/
theorem warmed_race_free {rank : Nat → Nat} {depth n : Nat} {w w' : World} {threads : Bool} {calls : Nat → List Call}
    {qs : List MemQuery} {as : List (Option Nat)} (hr : MemReachable w) (hb : BasesKnown w) (hk : Ranked rank w)
    (hq : ∀ q ∈ qs, NamesClass w q) (h : runQueries depth w qs = .ok (w', as)) (hn : ∀ t, n ≤ t → calls t = [])
    (hc : ∀ t, ∀ x ∈ calls t, Beside threads x ∨ ∃ q ∈ qs, ∃ cl ds, x = q.call w' cl ds)
    {s : LockState} (hs : (LockState.start false depth calls).Reach s) :
    (∀ l, ¬ Racing s.next l) ∧
    ∃ s', s.Reach s' ∧ (∀ t, s'.turn t = .finished) ∧ ∀ m, s'.owner m = none := by
  obtain ⟨e1, e2⟩ := queries_hierarchy h
  have hw := warm_up hr hq h
  refine (fun H => ⟨H.1, H.2.2⟩) (warm_race_free (rank := rank) (w := w') (threads := threads) (queries_reachable hr h) ?_ ?_ hn
    (fun t x hx => ?_) hs)
  · intro c ts t h1 h2
    rw [e1]
    exact hb c ts t (by rw [← e2 c]; exact h1) h2
  · intro c bs b h1
    have : w'.bases c = w.bases c := by unfold World.bases; rw [e1, e2]
    exact hk c bs b (this ▸ h1)
  · rcases hc t x hx with h | ⟨q, hq, cl, ds, e⟩
    · exact .inl h
    · exact .inr ⟨q, cl, ds, (hw q hq).1, (hw q hq).2, e⟩

/-- The program of one thread that makes one lookup of a method. -/
theorem method_acts {w : World} {depth c : Nat} {s r a cl : Bool} {n sig : Str} {ds : List Named} :
    ∃ tail, ((MemQuery.method s r a c n sig).call w cl ds).acts false (depth + 1) =
      (if (!s && n == "<init>".toList) then guarded (.cls c) [] else []) ++
        (.lock (.cls c) :: .read (.methods c) :: tail) := by
  simp only [MemQuery.call, Call.acts, List.append_assoc]
  have h : ∀ tour : Tour, ∃ tail, (methodSearch tour (depth + 1) [] c).1 =
      .lock (.cls c) :: .read (.methods c) :: tail := by
    intro tour
    unfold methodSearch
    split
    · exact ⟨_, rfl⟩
    · split <;> exact ⟨_, rfl⟩
  obtain ⟨tail, h⟩ := h fun _ => w.visit (w.ownMethod (w.methodKey s a c n sig))
  rw [h]
  exact ⟨_, rfl⟩

/-- The first time is different: a lookup that makes the method it does not find races with any lookup of a method
in the same class, be it made for the first time or not. -/
theorem cold_lookup_races {w : World} {depth c : Nat} {s s' r' a' cl cl' : Bool} {n sig n' sig' : Str}
    {ds ds' : List Named} (hr : MemReachable w) (hn : NamesClass w (.method s false false c n sig))
    (hcold : ¬ Warm (depth + 1) w (.method s false false c n sig))
    (hend : ∃ v, (MemQuery.method s false false c n sig).run (depth + 1) w = .ok v) {calls : Nat → List Call}
    (h0 : calls 0 = [(MemQuery.method s false false c n sig).call w cl ds])
    (h1 : calls 1 = [(MemQuery.method s' r' a' c n' sig').call w cl' ds']) :
    ∃ st, (LockState.start false (depth + 1) calls).Reach st ∧ Racing st.next (.methods c) := by
  obtain ⟨m, hm⟩ := hn
  obtain ⟨⟨w', v⟩, hv⟩ := hend
  have key := (getMethodID_methodKey hr.inv hm (depth + 1) s (false || false) false n sig).1
  have hmiss : dfs w.bases (w.ownMethod (w.methodKey s false c n sig)) (depth + 1) c = .ok none := by
    simp only [MemQuery.run] at hv
    rw [key] at hv
    rcases methodOf_ok hv with ⟨rfl, k1, k2⟩ | ⟨_, k1, _⟩
    · exact absurd ⟨v, by simp only [MemQuery.run]; rw [key]; exact methodOf_warm k1 k2⟩ hcold
    · exact k1
  have hinit : ∀ (b : Bool) (c : Nat), KeepsLocks (lockRank fun _ => 0) (fun _ => none) []
      (if b then guarded (.cls c) [] else []) := by
    intro b c
    split
    · exact .guarded nofun .nil
    · exact .nil
  let pre := (if (!s && n == "<init>".toList) then guarded (Mutex.cls c) [] else []) ++
    (methodSearch (fun _ => w.visit (w.ownMethod (w.methodKey s false c n sig))) (depth + 1) [] c).1
  have hpre : Orderly (lockRank fun _ => 0) (fun _ => none) [] pre := by
    have := KeepsLocks.append (hinit (!s && n == "<init>".toList) c) (methodSearch_keeps (rank := fun _ => 0)
      (g := fun _ => none) (tour := fun _ => w.visit (w.ownMethod (w.methodKey s false c n sig))) rfl (fun _ => rfl)
      (fun _ => rfl) (depth + 1) [] c) [] rfl
    rw [List.append_nil] at this
    exact this
  have e0 : (LockState.start false (depth + 1) calls).todo 0 =
      pre ++ (.write (.methods c) :: declareActs false ds) := by
    show (calls 0).flatMap _ = _
    rw [h0, List.flatMap_singleton]
    simp only [MemQuery.call, Call.acts]
    rw [dfs_misses hmiss]
    rfl
  obtain ⟨s1, r1, o1, t1, u1⟩ := lock_solo (s := LockState.start false (depth + 1) calls) pre [] _ _ .nil hpre
    (fun m => rfl) e0 (fun _ _ => rfl)
  obtain ⟨tail, ht⟩ := method_acts (w := w) (depth := depth) (c := c) (s := s') (r := r') (a := a') (cl := cl')
    (n := n') (sig := sig') (ds := ds')
  have e1 : s1.todo 1 = (if (!s' && n' == "<init>".toList) then guarded (.cls c) [] else []) ++
        (.lock (.cls c) :: .read (.methods c) :: tail) := by
    rw [u1 1 (by decide)]
    show (calls 1).flatMap _ = _
    rw [h1, List.flatMap_singleton, ht]
  obtain ⟨s2, r2, o2, t2, u2⟩ := lock_solo (s := s1) (t := 1) (rk := lockRank fun _ => 0) (g := fun _ => none) _ [] _ _ .nil
    (by have := hinit (!s' && n' == "<init>".toList) c [] rfl; rw [List.append_nil] at this; exact this)
    (fun m => o1 m) e1 (fun _ _ => rfl)
  have t3 : s2.turn 1 = .moves ((s2.advance 1 (.read (.methods c) :: tail)).setOwner (.cls c) (some 1)) := by
    unfold LockState.turn
    rw [t2]
    simp only [o2]
  refine ⟨_, .step 1 (r1.trans r2) t3, 0, 1, .read (.methods c), by decide, ?_, rfl, rfl⟩
  show (if (0 : Nat) = 1 then .read (.methods c) :: tail else s2.todo 0).head? = _
  rw [if_neg (by decide : ¬ (0 : Nat) = 1), u2 0 (by decide), t1]
  rfl

/-- Binding types can take away what was found: after class "D" was bound again without its base class, a lookup that
found the method there makes a new one. -/
theorem rebinding_cools : ∃ w w' q, ∃ op : MemOp, MemReachable w ∧ NamesClass w q ∧ Warm 2 w q ∧ op.run w = .ok w' ∧
    ¬ Warm 2 w' q := by
  obtain ⟨w, w1, a, d, x, y, hr, ha, hd, had, hb, hk, hA, _, hD, hm⟩ := sample_warm
  have hr1 := hr.step (query_op hA)
  have hd1 := names_step hr (query_op hA) hd
  obtain ⟨w2, d', h2, hd2, t2, m2, k2, n2⟩ := bindType_spec hr1.inv 2 "D".toList [none]
  have hd1' := k2 _ _ hd1
  have edd : d' = d := by
    unfold World.IsClass at hd2 hd1'
    rw [hd2] at hd1'
    exact Option.some.inj hd1'
  subst edd
  refine ⟨w1, w2, .method false false false d' "q".toList "()V".toList, _, hr1, ⟨_, hd1⟩, ⟨_, hD⟩, h2, fun ⟨v, hv⟩ => ?_⟩
  have hr2 := hr1.step h2
  simp only [MemQuery.run] at hv
  rw [(getMethodID_methodKey hr2.inv hd2 2 false (false || false) false _ _).1] at hv
  obtain ⟨h3, h4⟩ := methodOf_same hv
  have hmd : (w2.mem d').methods = [] := by rw [m2, if_pos rfl]; exact hm d' had.symm
  have hown : ∀ k, w2.ownMethod k d' = none := fun k => by unfold World.ownMethod; rw [hmd]; rfl
  have hbas : w2.bases d' = some [none] := by unfold World.bases; rw [m2, if_pos rfl]; rfl
  unfold dfs at h3
  rw [hown, hbas] at h3
  simp only [firstAnswer] at h3
  cases h3
  cases h4 rfl

/-! ### The hypotheses are met -/

/-- A class with a base class, a lookup in both: `lookup_repeat`, `warm_stays`, `warm_up`, `warm_runs` and
`warmed_race_free`. -/
example : ∃ w w' rank qs as, MemReachable w ∧ BasesKnown w ∧ Ranked rank w ∧ (∀ q ∈ qs, NamesClass w q) ∧
    runQueries 2 w qs = .ok (w', as) ∧ w' ≠ w ∧ qs.length = 2 ∧ (∀ q ∈ qs, Warm 2 w' q) ∧
    ∃ calls : Nat → List Call, (calls 0).length = 2 ∧ calls 0 = calls 1 ∧ (∀ t, 2 ≤ t → calls t = []) ∧
      ∀ t, ∀ x ∈ calls t, Beside true x ∨ ∃ q ∈ qs, ∃ cl ds, x = q.call w' cl ds := by
  obtain ⟨w, w1, a, d, x, y, hr, ha, hd, had, hb, hk, hA, hcold, hD, hm⟩ := sample_warm
  have hn : ∀ q ∈ [MemQuery.method false false false a "q".toList "()V".toList,
      .method false false false d "q".toList "()V".toList], NamesClass w q := by
    intro q hq
    rcases List.mem_cons.1 hq with rfl | hq
    · exact ⟨_, ha⟩
    · cases List.mem_singleton.1 hq; exact ⟨_, hd⟩
  have hrun : runQueries 2 w [MemQuery.method false false false a "q".toList "()V".toList,
      .method false false false d "q".toList "()V".toList] = .ok (w1, [some x, some y]) := by
    simp only [runQueries, hA, hD, Res.bind_ok]
  refine ⟨w, w1, _, [.method false false false a "q".toList "()V".toList,
    .method false false false d "q".toList "()V".toList], [some x, some y], hr, hb, hk, hn, hrun,
    fun e => hcold ⟨some x, e ▸ hA⟩, rfl, fun q hq => (warm_up hr hn hrun q hq).1,
    fun t => if t < 2 then [.attach false [], (MemQuery.method false false false d "q".toList "()V".toList).call w1
      false []] else [], rfl, rfl, fun t ht => if_neg (by omega), ?_⟩
  intro t c hc
  dsimp only at hc
  split at hc
  · rcases List.mem_cons.1 hc with rfl | hc
    · exact .inl ⟨rfl, .inl rfl⟩
    · cases List.mem_singleton.1 hc
      exact .inr ⟨_, List.mem_cons_of_mem _ List.mem_cons_self, _, _, rfl⟩
  · cases hc

/-- Lookups made for the first time: `cold_lookup_races`. -/
example : ∃ w c, MemReachable w ∧ NamesClass w (.method false false false c "q".toList "()V".toList) ∧
    ¬ Warm 2 w (.method false false false c "q".toList "()V".toList) ∧
    ∃ v, (MemQuery.method false false false c "q".toList "()V".toList).run 2 w = .ok v := by
  obtain ⟨w, w1, a, d, x, y, hr, ha, _, _, _, _, hA, hcold, _⟩ := sample_warm
  exact ⟨w, a, hr, ⟨_, ha⟩, hcold, _, hA⟩

/-- A history that leaves what was found: `warm_stays`. -/
example : ∀ op ∈ [MemOp.hookMethod 3 false "q".toList "()V".toList 7, .unregisterNatives (some 3),
    .findClass false "x/Y".toList], LeavesFound (.method false false false 3 "q".toList "()V".toList) op := by
  intro op hop
  simp only [List.mem_cons, List.not_mem_nil, or_false] at hop
  rcases hop with rfl | rfl | rfl
  · trivial
  · nofun
  · trivial

end Jnivm
