import Verif.Spec.Warm
import Verif.Props.Locks
import Verif.Lemmas.Calls
import Verif.Props.Members
/-!
Lemmas on lookups that find what they look for.
-/
namespace Jnivm
open Spec

/-! ### The search in the tables and its locks -/

theorem firstAnswer_hit {α : Type} {f : Nat → Res (Option α)} {x : α} : ∀ {bs : List (Option Nat)},
    firstAnswer f bs = .ok (some x) → ∃ (i : Nat) (b : Nat), bs[i]? = some (some b) ∧ f b = .ok (some x) := by
  intro bs
  induction bs with
  | nil => intro h; cases h
  | cons b bs ih =>
    intro h
    cases b with
    | none =>
      obtain ⟨i, b, h1, h2⟩ := ih h
      exact ⟨i + 1, b, h1, h2⟩
    | some b =>
      obtain ⟨r, h1, h2⟩ := Res.bind_eq_ok.1 h
      cases r with
      | some y => cases h2; exact ⟨0, b, rfl, h1⟩
      | none =>
        obtain ⟨i, b', h3, h4⟩ := ih h2
        exact ⟨i + 1, b', h3, h4⟩

theorem dfs_finds {w : World} {own : Nat → Option Nat} : ∀ {d : Nat} {c x : Nat} {path : List Nat},
    dfs w.bases own d c = .ok (some x) → Tour.Finds (fun _ => w.visit own) d path c := by
  intro d
  induction d with
  | zero => intro c x path h; cases h
  | succ d ih =>
    intro c x path h
    unfold dfs at h
    cases ho : own c with
    | some y => exact .here (by simp [World.visit, ho])
    | none =>
      rw [ho] at h
      dsimp only at h
      cases hb : w.bases c with
      | none => rw [hb] at h; cases h
      | some bs =>
        rw [hb] at h
        obtain ⟨i, b, h1, h2⟩ := firstAnswer_hit h
        exact .base (i := i) (bs := bs) hb h1 (ih h2)

theorem overBases_false {f : Nat → Nat → List Act × Bool} {bs : List (Option Nat)}
    (h : ∀ i b, some b ∈ bs → (f i b).2 = false) (i : Nat) : (overBases f i bs).2 = false := by
  induction bs generalizing i with
  | nil => rfl
  | cons b bs ih =>
    have ih := ih (fun i c hc => h i c (List.mem_cons_of_mem _ hc))
    cases b with
    | none => exact ih (i + 1)
    | some b =>
      unfold overBases
      rw [if_neg (by rw [h i b List.mem_cons_self]; nofun)]
      exact ih (i + 1)

theorem dfs_misses {w : World} {own : Nat → Option Nat} : ∀ {d : Nat} {c : Nat} {path : List Nat},
    dfs w.bases own d c = .ok none → (methodSearch (fun _ => w.visit own) d path c).2 = false := by
  intro d
  induction d with
  | zero => intro c path h; cases h
  | succ d ih =>
    intro c path h
    unfold dfs at h
    cases ho : own c with
    | some y => rw [ho] at h; cases h
    | none =>
      rw [ho] at h
      dsimp only at h
      unfold methodSearch
      rw [if_neg (by simp [World.visit, ho]), if_neg (by simp [World.visit])]
      refine overBases_false (fun i b hb => ih ?_) 0
      cases hbs : w.bases c with
      | none => simp [World.visit, hbs] at hb
      | some bs =>
        rw [hbs] at h
        exact firstAnswer_none h b (by simpa [World.visit, hbs] using hb)

/-- More members answer at least as much. -/
theorem dfs_more {bases : Nat → Option (List (Option Nat))} {own own' : Nat → Option Nat}
    (ho : ∀ c, own c ≠ none → own' c ≠ none) : ∀ {d : Nat} {c : Nat} {r : Option Nat},
    dfs bases own d c = .ok r → ∃ r', dfs bases own' d c = .ok r' ∧ (r ≠ none → r' ≠ none) := by
  intro d
  induction d with
  | zero => intro c r h; cases h
  | succ d ih =>
    intro c r h
    unfold dfs at h ⊢
    cases e' : own' c with
    | some y => exact ⟨_, rfl, nofun⟩
    | none =>
      have e : own c = none := Decidable.byContradiction fun hne => ho c hne e'
      rw [e] at h
      dsimp only at h ⊢
      cases hb : bases c with
      | none => rw [hb] at h; cases h; exact ⟨none, rfl, fun h => h⟩
      | some bs =>
        rw [hb] at h
        dsimp only at h ⊢
        clear hb
        induction bs with
        | nil => cases h; exact ⟨none, rfl, fun h => h⟩
        | cons b bs ihb =>
          cases b with
          | none => exact ihb h
          | some b =>
            obtain ⟨x, h1, h2⟩ := Res.bind_eq_ok.1 h
            obtain ⟨x', k1, k2⟩ := ih h1
            unfold firstAnswer
            rw [k1, Res.bind_ok]
            cases x' with
            | some y => exact ⟨some y, rfl, nofun⟩
            | none =>
              cases x with
              | some y => exact absurd rfl (k2 nofun)
              | none => exact ihb h2

/-! ### Actions that write nothing -/

/-- The action is no write. -/
def NoWrite (a : Act) : Prop := ∀ l, a ≠ .write l

theorem noWrite_guarded {m : Mutex} {body : List Act} (h : ∀ a ∈ body, NoWrite a) :
    ∀ a ∈ guarded m body, NoWrite a := by
  intro a ha
  simp [guarded] at ha
  rcases ha with rfl | ha | rfl
  · nofun
  · exact h a ha
  · nofun

theorem noWrite_readBases {c : Nat} {v : Visit} (hv : v.inserts = false) : ∀ a ∈ readBases c v, NoWrite a := by
  intro a ha
  unfold readBases access at ha
  rw [hv] at ha
  split at ha
  · simp at ha; rcases ha with rfl | rfl <;> nofun
  · simp at ha; subst ha; nofun

theorem noWrite_find {n : Named} (hn : n.creates = false) : ∀ a ∈ internalFind n, NoWrite a := by
  intro a ha
  simp [internalFind, access, hn] at ha
  subst ha
  nofun

theorem noWrite_handOut {b : Bool} : ∀ a ∈ handOut false b, NoWrite a := by
  intro a ha
  cases b <;> simp [handOut, typeClass] at ha
  subst ha
  nofun

theorem noWrite_append {as bs : List Act} (h : ∀ a ∈ as, NoWrite a) (k : ∀ a ∈ bs, NoWrite a) :
    ∀ a ∈ as ++ bs, NoWrite a := fun a ha => (List.mem_append.1 ha).elim (h a) (k a)

theorem methodSearch_noWrite {tour : Tour} (ht : ∀ p c, (tour p c).inserts = false) (d : Nat) (path : List Nat)
    (c : Nat) : ∀ a ∈ (methodSearch tour d path c).1, NoWrite a := by
  induction d generalizing path c with
  | zero => exact fun a ha => nomatch ha
  | succ d ih =>
    have hg : ∀ a ∈ guarded (.cls c) [.read (.methods c)], NoWrite a :=
      noWrite_guarded fun a ha => by rw [List.mem_singleton.1 ha]; nofun
    unfold methodSearch
    split
    · exact hg
    · split
      · exact noWrite_append hg (noWrite_readBases (ht _ _))
      · exact noWrite_append (noWrite_append hg (noWrite_readBases (ht _ _)))
          (overBases_unwritten (fun i b => ih _ _) 0)

theorem fieldSearch_noWrite {tour : Tour} (ht : ∀ p c, (tour p c).inserts = false) {create : List Act} (d : Nat)
    (path : List Nat) (c : Nat) (h : (fieldSearch tour create d path c).2 = true ∨ create = []) :
    ∀ a ∈ (fieldSearch tour create d path c).1, NoWrite a := by
  induction d generalizing path c create with
  | zero => exact fun a ha => nomatch ha
  | succ d ih =>
    have hr : NoWrite (.read (.fields c)) := nofun
    unfold fieldSearch at h ⊢
    split
    · exact noWrite_guarded fun a ha => by rw [List.mem_singleton.1 ha]; exact hr
    · next hf =>
      split
      · refine noWrite_guarded fun a ha => ?_
        rcases List.mem_cons.1 ha with rfl | ha
        · exact hr
        · exact noWrite_readBases (ht _ _) a ha
      · next ht' =>
        rw [if_neg hf, if_neg ht'] at h
        refine noWrite_guarded fun a ha => ?_
        rcases List.mem_cons.1 ha with rfl | ha
        · exact hr
        · rcases List.mem_append.1 ha with ha | ha
          · exact noWrite_readBases (ht _ _) a ha
          · rcases List.mem_append.1 ha with ha | ha
            · exact overBases_unwritten (fun i b => ih _ _ (.inr rfl)) 0 a ha
            · rcases h with h | h
              · rw [if_pos h] at ha; cases ha
              · rw [h] at ha; split at ha <;> cases ha

theorem visit_inserts {w : World} (hb : BasesKnown w) (own : Nat → Option Nat) (c : Nat) :
    (w.visit own c).inserts = false := by
  simp only [World.visit]
  rw [List.any_eq_false]
  intro t ht
  cases t with
  | none => nofun
  | some t =>
    cases e : (w.mem c).bases with
    | none => rw [e] at ht; cases ht
    | some ts =>
      rw [e] at ht
      have := hb c ts t e ht
      simp only [Option.isNone_iff_eq_none]
      exact this

/-! ### Lookups that change nothing -/

theorem getMethodID_methodKey {w : World} {c : Nat} {n : Str} (inv : MemInv w) (hc : w.IsClass n c) (depth : Nat)
    (s rn a : Bool) (name sig : Str) :
    w.getMethodID depth s rn a (some c) name sig = w.methodOf depth rn c (w.methodKey s a c name sig) ∧
    w.methodKey s a c name sig = effKey n s a name sig := by
  obtain ⟨cd, h1, h2, _⟩ := lookup_record inv.reg ((isClass_iff inv).1 hc)
  constructor
  · simp only [World.getMethodID, World.methodKey, h1]
    split <;> rfl
  · simp only [World.methodKey, h1, effKey, h2]

theorem methodOf_same {w : World} {depth c : Nat} {rn : Bool} {k : MethodKey} {a : Option Nat}
    (h : w.methodOf depth rn c k = .ok (w, a)) :
    dfs w.bases (w.ownMethod k) depth c = .ok a ∧ (a = none → rn = true) := by
  rcases methodOf_ok h with ⟨_, h1, h2⟩ | ⟨_, _, _, reg, _, e⟩
  · exact ⟨h1, h2⟩
  · have := congrArg World.next e
    rw [addMethod_next] at this
    omega

theorem getFieldID_same {w : World} {depth c : Nat} {s rn : Bool} {name type : Str} {a : Option Nat}
    (h : w.getFieldID depth s rn (some c) name type = .ok (w, a)) :
    dfs w.bases (w.ownField ⟨s, name, type⟩) depth c = .ok a ∧ (a = none → rn = true) := by
  obtain ⟨c', cd, e1, _, ⟨_, h1, h2⟩ | ⟨_, _, _, reg, _, e⟩⟩ := getFieldID_ok h
  · cases e1; exact ⟨h1, h2⟩
  · have := congrArg World.next e
    rw [addField_next] at this
    omega

/-- The locks of such a lookup: nothing is written. -/
theorem warm_noWrite {depth : Nat} {w : World} (hr : MemReachable w) (hb : BasesKnown w) {q : MemQuery}
    (hq : Warm depth w q) (hn : NamesClass w q) (classless : Bool) (ds : List Named) :
    ∀ a ∈ (q.call w classless ds).acts false depth, NoWrite a := by
  have inv := hr.inv
  obtain ⟨ans, hq⟩ := hq
  cases q with
  | cls z n =>
    refine noWrite_guarded (noWrite_append (noWrite_find ?_) noWrite_handOut)
    cases z with
    | true => rfl
    | false =>
      simp only [MemQuery.run, Res.ok.injEq, Prod.mk.injEq] at hq
      have e : (findClass false w.reg n).1 = w.reg := congrArg World.reg hq.1
      obtain ⟨r', c, e1, e2, _⟩ := findClass_create inv.reg n
      rw [e1] at e
      dsimp only at e
      subst e
      have : w.IsClass n c := (isClass_iff inv).2 e2
      unfold World.IsClass at this
      simp [this]
  | method s r a c n sig =>
    obtain ⟨m, hm⟩ := hn
    simp only [MemQuery.run] at hq
    rw [(getMethodID_methodKey inv hm depth s (r || a) a n sig).1] at hq
    obtain ⟨h1, h2⟩ := methodOf_same hq
    simp only [MemQuery.call, Call.acts]
    refine noWrite_append (noWrite_append ?_ (methodSearch_noWrite (fun _ _ => visit_inserts hb _ _) _ _ _)) ?_
    · split
      · exact noWrite_guarded nofun
      · nofun
    · cases ans with
      | some x => rw [if_pos (methodSearch_finds (dfs_finds h1))]; nofun
      | none =>
        rw [h2 rfl]
        split
        · nofun
        · exact fun a ha => by simp [createActs] at ha
  | field s r c n t =>
    obtain ⟨h1, h2⟩ := getFieldID_same hq
    simp only [MemQuery.call, Call.acts]
    refine fieldSearch_noWrite (fun _ _ => visit_inserts hb _ _) _ _ _ ?_
    cases ans with
    | some x => exact .inl (fieldSearch_finds (dfs_finds h1) _)
    | none => rw [h2 rfl]; exact .inr rfl

theorem beside_writes {threads : Bool} {depth : Nat} {x : Call} (h : Beside threads x) :
    ∀ a ∈ x.acts false depth, ∀ l, a = .write l → l = .globals ∨ (l = .envs ∧ threads = true) := by
  have none : ∀ {as : List Act}, (∀ a ∈ as, NoWrite a) → ∀ a ∈ as, ∀ l, a = .write l →
      l = .globals ∨ (l = .envs ∧ threads = true) := fun h a ha l e => absurd e (h a ha l)
  cases x with
  | subtype visits =>
    refine none fun a ha => ?_
    obtain ⟨v, hv, ha⟩ := List.mem_flatMap.1 ha
    exact noWrite_readBases (h v hv) a ha
  | newGlobalRef n =>
    intro a ha l e
    simp only [Call.acts, List.mem_append] at ha
    rcases ha with ha | ha
    · exact absurd e (noWrite_find h a ha l)
    · subst e; simp [guarded] at ha; exact .inl ha
  | newArray n => exact none (noWrite_find h)
  | deleteGlobalRef f =>
    intro a ha l e
    subst e
    cases f <;> simp [Call.acts, guarded] at ha
    exact .inl ha
  | toJni b => exact none noWrite_handOut
  | getJavaVM => exact none (noWrite_guarded nofun)
  | dump cs =>
    refine none fun a ha => ?_
    rcases List.mem_cons.1 ha with rfl | ha
    · nofun
    · obtain ⟨c, _, ha⟩ := List.mem_flatMap.1 ha
      simp at ha
      rcases ha with rfl | rfl <;> nofun
  | attach known user =>
    intro a ha l e
    subst e
    obtain ⟨rfl, ht⟩ := h
    cases known <;> simp [Call.acts, guarded, access] at ha
    exact .inr ⟨ha, ht.resolve_right nofun⟩
  | detach known user =>
    intro a ha l e
    subst e
    obtain ⟨rfl, ht⟩ := h
    cases known <;> simp [Call.acts, guarded] at ha
    exact .inr ⟨ha, ht.resolve_right nofun⟩
  | cppGetEnv known =>
    obtain ⟨_, rfl⟩ := h
    refine none fun a ha => ?_
    simp [Call.acts, access] at ha
    subst ha
    nofun
  | findClass => exact h.elim
  | bindType => exact h.elim
  | hookMethod => exact h.elim
  | hookField => exact h.elim
  | getMethodID => exact h.elim
  | getFieldID => exact h.elim
  | registerNatives => exact h.elim
  | unregisterNatives => exact h.elim

theorem reach_mem {s s' : LockState} (h : s.Reach s') : ∀ t a, a ∈ s'.todo t → a ∈ s.todo t := by
  induction h with
  | refl => exact fun _ _ h => h
  | step u _ e ih =>
    intro t a ha
    obtain ⟨b, rest, e1, e2, _⟩ := LockState.turn_moves e
    rw [e2] at ha
    refine ih t a ?_
    have ha : a ∈ (if t = u then rest else _) := ha
    split at ha
    · next h => rw [h, e1]; exact List.mem_cons_of_mem _ ha
    · exact ha

/-! ### A thread alone -/

variable {rk : Mutex → Nat} {g : Loc → Option Mutex}

/-- While nobody else owns a mutex, a thread can do a part of its program that leaves no mutex locked. -/
theorem lock_solo {s : LockState} {t : Nat} : ∀ (as : List Act) (H : List Mutex) (r : LockState) (rest : List Act),
    H.Nodup → Orderly rk g H as → (∀ m, r.owner m = if m ∈ H then some t else none) → r.todo t = as ++ rest →
    (∀ u, u ≠ t → r.todo u = s.todo u) →
    ∃ s', r.Reach s' ∧ (∀ m, s'.owner m = none) ∧ s'.todo t = rest ∧ ∀ u, u ≠ t → s'.todo u = s.todo u := by
  intro as
  induction as with
  | nil =>
    intro H r rest hnd ho hown htodo hoth
    cases ho
    exact ⟨r, .refl, fun m => by rw [hown]; simp, htodo, hoth⟩
  | cons a as ih =>
    intro H r rest hnd ho hown htodo hoth
    have go : ∀ (H' : List Mutex) (r' : LockState), r.turn t = .moves r' → H'.Nodup → Orderly rk g H' as →
        (∀ m, r'.owner m = if m ∈ H' then some t else none) →
        r'.todo = (r.advance t (as ++ rest)).todo →
        ∃ s', r.Reach s' ∧ (∀ m, s'.owner m = none) ∧ s'.todo t = rest ∧ ∀ u, u ≠ t → s'.todo u = s.todo u := by
      intro H' r' hr' hnd' ho' hown' ht'
      obtain ⟨s', h1, h2⟩ := ih H' r' rest hnd' ho' hown' (by rw [ht']; simp [LockState.advance])
        (fun u hu => by rw [ht']; simp only [LockState.advance, hu, if_false]; exact hoth u hu)
      exact ⟨s', (LockState.Reach.step t .refl hr').trans h1, h2⟩
    cases a with
    | read l =>
      refine go H (r.advance t (as ++ rest)) ?_ hnd ho.2 hown rfl
      unfold LockState.turn; rw [htodo]; rfl
    | write l =>
      refine go H (r.advance t (as ++ rest)) ?_ hnd ho.2 hown rfl
      unfold LockState.turn; rw [htodo]; rfl
    | lock m =>
      have hmH := not_mem_of_rank ho.1
      refine go (m :: H) ((r.advance t (as ++ rest)).setOwner m (some t)) ?_ (List.nodup_cons.2 ⟨hmH, hnd⟩) ho.2
        (fun k => ?_) rfl
      · unfold LockState.turn; rw [htodo]
        simp only [List.cons_append, hown m, if_neg hmH]
      · show (if k = m then some t else r.owner k) = _
        by_cases hk : k = m
        · simp [hk]
        · simp [hk, hown k]
    | unlock m =>
      obtain ⟨K, rfl, ho⟩ := ho
      have hmK := (List.nodup_cons.1 hnd).1
      refine go K ((r.advance t (as ++ rest)).setOwner m none) ?_ (List.nodup_cons.1 hnd).2 ho
        (fun k => ?_) rfl
      · unfold LockState.turn; rw [htodo]
        simp [hown m]
      · show (if k = m then none else r.owner k) = _
        by_cases hk : k = m
        · simp [hk, hmK]
        · simp [hk, hown k]

/-! ### What was looked up once -/

/-- The lookup as an operation of a history. -/
def MemQuery.op (depth : Nat) : MemQuery → MemOp
  | .cls z n => .findClass z n
  | .method s r a c n sig => .getMethodID depth s r a (some c) n sig
  | .field s r c n t => .getFieldID depth s r (some c) n t

theorem query_op {depth : Nat} {w w' : World} {q : MemQuery} {a : Option Nat} (h : q.run depth w = .ok (w', a)) :
    (q.op depth).run w = .ok w' := by
  cases q with
  | cls z n => cases h; rfl
  | method s r a c n sig =>
    simp only [MemQuery.op, MemOp.run]
    simp only [MemQuery.run] at h
    rw [h]; rfl
  | field s r c n t =>
    simp only [MemQuery.op, MemOp.run]
    simp only [MemQuery.run] at h
    rw [h]; rfl

theorem MemQuery.op_leaves (depth : Nat) (q p : MemQuery) : LeavesFound p (q.op depth) := by cases q <;> trivial

theorem names_step {w w' : World} (hr : MemReachable w) {op : MemOp} (h : op.run w = .ok w') {n : Str} {c : Nat}
    (hc : w.IsClass n c) : w'.IsClass n c :=
  (isClass_iff (hr.step h).inv).2 ((step_reg hr.inv.reg h).2 n c ((isClass_iff hr.inv).1 hc))

/-- What a search answered, it answers later, unless it made what it looked for. -/
theorem dfs_later {w w' : World} {op : MemOp} (h : op.run w = .ok w') (hb : ∀ t n bs, op ≠ .bindType t n bs)
    {k : MethodKey} {f : FieldKey} {depth c : Nat} :
    ((k.native = true → ∀ c, op ≠ .unregisterNatives c) → ∀ r, dfs w.bases (w.ownMethod k) depth c = .ok r →
      ∃ r', dfs w'.bases (w'.ownMethod k) depth c = .ok r' ∧ (r ≠ none → r' ≠ none)) ∧
    ∀ r, dfs w.bases (w.ownField f) depth c = .ok r →
      ∃ r', dfs w'.bases (w'.ownField f) depth c = .ok r' ∧ (r ≠ none → r' ≠ none) := by
  rw [step_bases h hb]
  refine ⟨fun hu r => dfs_more fun d hd => ?_, fun r => dfs_more fun d hd => ?_⟩
  · obtain ⟨x, hx⟩ := Option.ne_none_iff_exists'.1 hd
    rw [step_ownMethod_keep h hx fun e => hu e _]
    nofun
  · obtain ⟨x, hx⟩ := Option.ne_none_iff_exists'.1 hd
    rw [step_ownField_keep h hx]
    nofun

theorem methodOf_warm {w : World} {depth c : Nat} {rn : Bool} {k : MethodKey} {r : Option Nat}
    (h : dfs w.bases (w.ownMethod k) depth c = .ok r) (hn : r = none → rn = true) :
    w.methodOf depth rn c k = .ok (w, r) := by
  unfold World.methodOf
  rw [h, Res.bind_ok]
  cases r with
  | some x => rfl
  | none => rw [hn rfl]; rfl

theorem getFieldID_warm {w : World} {depth c : Nat} {s rn : Bool} {name type : Str} {r : Option Nat} {cd : ClassNode}
    (hc : w.reg.cls[c]? = some cd)
    (h : dfs w.bases (w.ownField ⟨s, name, type⟩) depth c = .ok r) (hn : r = none → rn = true) :
    w.getFieldID depth s rn (some c) name type = .ok (w, r) := by
  unfold World.getFieldID
  simp only [hc]
  rw [h, Res.bind_ok]
  cases r with
  | some x => rfl
  | none => rw [hn rfl]; rfl

/-- A lookup that changes nothing stays one. -/
theorem warm_step {depth : Nat} {w w' : World} (hr : MemReachable w) {op : MemOp} (h : op.run w = .ok w')
    {q : MemQuery} (ha : LeavesFound q op) (hq : Warm depth w q) (hn : NamesClass w q) : Warm depth w' q ∧ NamesClass w' q := by
  have inv := hr.inv
  have inv' := (hr.step h).inv
  obtain ⟨ans, hq⟩ := hq
  cases q with
  | cls z n =>
    refine ⟨?_, trivial⟩
    cases z with
    | true =>
      refine ⟨(findClass true w'.reg n).2, ?_⟩
      simp only [MemQuery.run]
      rw [findClass_find inv'.reg]
    | false =>
      simp only [MemQuery.run, Res.ok.injEq, Prod.mk.injEq] at hq
      have e : (findClass false w.reg n).1 = w.reg := congrArg World.reg hq.1
      obtain ⟨r', c, e1, e2, _⟩ := findClass_create inv.reg n
      rw [e1] at e
      dsimp only at e
      subst e
      have hc := names_step hr h ((isClass_iff inv).2 e2)
      refine ⟨some c, ?_⟩
      simp only [MemQuery.run]
      rw [findClass_existing hc]
  | method s r a c n sig =>
    obtain ⟨m, hm⟩ := hn
    have hm' := names_step hr h hm
    refine ⟨?_, m, hm'⟩
    obtain ⟨k1, k2⟩ := getMethodID_methodKey inv hm depth s (r || a) a n sig
    obtain ⟨k1', k2'⟩ := getMethodID_methodKey inv' hm' depth s (r || a) a n sig
    simp only [MemQuery.run] at hq
    rw [k1, k2] at hq
    obtain ⟨h1, h2⟩ := methodOf_same hq
    have hu : (effKey m s a n sig).native = true → ∀ cl, op ≠ .unregisterNatives cl := fun hk cl e => by
      rw [e] at ha
      have hk : a = true := by unfold effKey at hk; split at hk <;> exact hk
      exact ha s r c n sig (by rw [hk])
    obtain ⟨r', h3, h4⟩ := (dfs_later h (fun t n bs e => (by rw [e] at ha; exact ha))
      (k := effKey m s a n sig) (f := ⟨false, [], []⟩)).1 hu _ h1
    refine ⟨r', ?_⟩
    simp only [MemQuery.run]
    rw [k1', k2']
    exact methodOf_warm h3 fun e => h2 (Decidable.byContradiction fun hne => h4 hne e)
  | field s r c n t =>
    obtain ⟨m, hm⟩ := hn
    have hm' := names_step hr h hm
    refine ⟨?_, m, hm'⟩
    obtain ⟨h1, h2⟩ := getFieldID_same hq
    obtain ⟨r', h3, h4⟩ := (dfs_later h (fun t n bs e => (by rw [e] at ha; exact ha))
      (k := ⟨false, false, [], []⟩) (f := ⟨s, n, t⟩)).2 _ h1
    obtain ⟨cd, hcd, _⟩ := lookup_record inv'.reg ((isClass_iff inv').1 hm')
    exact ⟨r', getFieldID_warm hcd h3 fun e => h2 (Decidable.byContradiction fun hne => h4 hne e)⟩

theorem dfs_here {bases : Nat → Option (List (Option Nat))} {own own' : Nat → Option Nat} {d c : Nat} {r : Option Nat}
    (hd : dfs bases own d c = .ok r) {x : Nat} (hx : own' c = some x) :
    dfs bases own' d c = .ok (some x) := by
  cases d with
  | zero => cases hd
  | succ d => unfold dfs; rw [hx]

theorem dfs_miss_here {bases : Nat → Option (List (Option Nat))} {own : Nat → Option Nat} {d c : Nat}
    (h : dfs bases own d c = .ok none) : own c = none := by
  cases d with
  | zero => cases h
  | succ d =>
    unfold dfs at h
    cases e : own c with
    | none => rfl
    | some x => rw [e] at h; cases h

/-- Made again at once, a lookup changes nothing and answers the same. -/
theorem warm_after {depth : Nat} {w w' : World} (hr : MemReachable w) {q : MemQuery} {a : Option Nat}
    (h : q.run depth w = .ok (w', a)) (hn : NamesClass w q) : q.run depth w' = .ok (w', a) ∧ NamesClass w' q := by
  have inv := hr.inv
  have hop := query_op h
  have inv' := (hr.step hop).inv
  cases q with
  | cls z n =>
    refine ⟨?_, trivial⟩
    simp only [MemQuery.run, Res.ok.injEq, Prod.mk.injEq] at h
    obtain ⟨rfl, rfl⟩ := h
    cases z with
    | true =>
      have e : (findClass true w.reg n).1 = w.reg := by rw [findClass_find inv.reg]
      simp only [e]
      simp only [MemQuery.run, e]
    | false =>
      obtain ⟨r', c, e1, e2, _⟩ := findClass_create inv.reg n
      simp only [e1] at inv' ⊢
      simp only [MemQuery.run]
      have : (({ w with reg := r' } : World)).IsClass n c := (isClass_iff inv').2 e2
      rw [show findClass false r' n = (r', some c) from findClass_existing this]
  | method s r b c n sig =>
    obtain ⟨m, hm⟩ := hn
    have hm' := names_step hr hop hm
    refine ⟨?_, m, hm'⟩
    obtain ⟨k1, k2⟩ := getMethodID_methodKey inv hm depth s (r || b) b n sig
    obtain ⟨k1', k2'⟩ := getMethodID_methodKey inv' hm' depth s (r || b) b n sig
    simp only [MemQuery.run] at h ⊢
    rw [k1, k2] at h
    rw [k1', k2']
    rcases methodOf_ok h with ⟨rfl, h1, h2⟩ | ⟨hrn, h1, rfl, reg, _, e⟩
    · exact methodOf_warm h1 h2
    · have hb : b = false := by cases b <;> simp_all
      obtain ⟨r', h3, h4⟩ := (dfs_later hop (by nofun) (k := effKey m s b n sig)
        (f := ⟨false, [], []⟩)).1 (fun _ => nofun) _ h1
      have own : w'.ownMethod (effKey m s b n sig) c = some w.next := by
        have h0 := dfs_miss_here h1
        subst e
        subst hb
        unfold World.ownMethod at h0 ⊢
        unfold World.addMethod
        have hnat : (effKey m s false n sig).native = false := by unfold effKey; split <;> rfl
        simp only [setMem_mem, if_true]
        rw [List.find?_append]
        simp only [Option.map_eq_none_iff] at h0
        rw [h0]
        simp [MethodKey.hits, hnat]
      exact methodOf_warm (dfs_here h3 own) nofun
  | field s r c n t =>
    obtain ⟨m, hm⟩ := hn
    have hm' := names_step hr hop hm
    refine ⟨?_, m, hm'⟩
    obtain ⟨cd', hcd', _⟩ := lookup_record inv'.reg ((isClass_iff inv').1 hm')
    simp only [MemQuery.run] at h
    obtain ⟨c', cd, e1, e2, ⟨rfl, h1, h2⟩ | ⟨hrn, h1, rfl, reg, _, e⟩⟩ := getFieldID_ok h
    · cases e1
      exact getFieldID_warm hcd' h1 h2
    · cases e1
      obtain ⟨r', h3, h4⟩ := (dfs_later hop (by nofun) (k := ⟨false, false, [], []⟩)
        (f := ⟨s, n, t⟩)).2 _ h1
      have own : w'.ownField ⟨s, n, t⟩ c = some w.next := by
        have h0 := dfs_miss_here h1
        subst e
        unfold World.ownField at h0 ⊢
        unfold World.addField
        simp only [setMem_mem, if_true]
        rw [List.find?_append]
        simp only [Option.map_eq_none_iff] at h0
        rw [h0]
        simp [FieldKey.hits]
      exact getFieldID_warm hcd' (dfs_here h3 own) nofun

/-- Lookups change no base class and bind no type. -/
theorem query_hierarchy {depth : Nat} {w w' : World} {q : MemQuery} {a : Option Nat}
    (h : q.run depth w = .ok (w', a)) : w'.types = w.types ∧ ∀ c, (w'.mem c).bases = (w.mem c).bases := by
  have hm : ∀ (c : Nat) (m : MethodRec) (reg : Registry), (w.addMethod c m reg).types = w.types ∧
      ∀ d, ((w.addMethod c m reg).mem d).bases = (w.mem d).bases := fun c m reg => ⟨rfl, fun d => by
    unfold World.addMethod
    simp only [setMem_mem]
    split
    · next e => rw [e]
    · rfl⟩
  have hf : ∀ (c : Nat) (m : FieldRec) (reg : Registry), (w.addField c m reg).types = w.types ∧
      ∀ d, ((w.addField c m reg).mem d).bases = (w.mem d).bases := fun c m reg => ⟨rfl, fun d => by
    unfold World.addField
    simp only [setMem_mem]
    split
    · next e => rw [e]
    · rfl⟩
  cases q with
  | cls z n => cases h; exact ⟨rfl, fun _ => rfl⟩
  | method s r b c n sig =>
    simp only [MemQuery.run] at h
    obtain ⟨e, _⟩ | ⟨e, _⟩ | ⟨_, _, _, _, h⟩ := getMethodID_ok h
    · cases e
    · cases e
    rcases methodOf_ok h with ⟨rfl, _⟩ | ⟨_, _, _, reg, _, rfl⟩
    · exact ⟨rfl, fun _ => rfl⟩
    · exact hm _ _ _
  | field s r c n t =>
    simp only [MemQuery.run] at h
    obtain ⟨_, _, _, _, ⟨rfl, _⟩ | ⟨_, _, _, reg, _, rfl⟩⟩ := getFieldID_ok h
    · exact ⟨rfl, fun _ => rfl⟩
    · exact hf _ _ _

theorem queries_hierarchy {depth : Nat} {qs : List MemQuery} : ∀ {w w' : World} {as : List (Option Nat)},
    runQueries depth w qs = .ok (w', as) → w'.types = w.types ∧ ∀ c, (w'.mem c).bases = (w.mem c).bases := by
  induction qs with
  | nil => intro w w' as h; cases h; exact ⟨rfl, fun _ => rfl⟩
  | cons q qs ih =>
    intro w w' as h
    obtain ⟨⟨w1, a⟩, h1, h2⟩ := Res.bind_eq_ok.1 h
    obtain ⟨⟨w2, as'⟩, h3, h4⟩ := Res.bind_eq_ok.1 h2
    cases h4
    obtain ⟨k1, k2⟩ := query_hierarchy h1
    obtain ⟨k3, k4⟩ := ih h3
    exact ⟨k3.trans k1, fun c => (k4 c).trans (k2 c)⟩

/-- A fresh VM in which class "D" was registered with the superclass "A", a method looked up in "A", after which "D"
has it too. -/
theorem sample_warm : ∃ w w' a d x y, MemReachable w ∧ w.IsClass "A".toList a ∧ w.IsClass "D".toList d ∧ a ≠ d ∧
    BasesKnown w ∧ Ranked (fun c => if c = d then 1 else 0) w ∧
    (MemQuery.method false false false a "q".toList "()V".toList).run 2 w = .ok (w', some x) ∧
    ¬ Warm 2 w (.method false false false a "q".toList "()V".toList) ∧
    (MemQuery.method false false false d "q".toList "()V".toList).run 2 w' = .ok (w', some y) ∧
    ∀ c, c ≠ a → (w'.mem c).methods = [] := by
  have i0 := initial_memInv
  obtain ⟨w1, a, r1, c1, t1, m1, _, _⟩ := bindType_spec i0 0 "A".toList [none]
  have i1 := step_memInv i0 r1
  obtain ⟨w, d, r3, hd, t3, m3, k3, _⟩ := bindType_spec i1 2 "D".toList [some 0]
  have i3 := step_memInv i1 r3
  have ha : w.IsClass "A".toList a := k3 _ _ c1
  have had := isClass_ne i3 ha hd (by decide)
  have hr : MemReachable w := ⟨[.bindType 0 "A".toList [none], .bindType 2 "D".toList [some 0]], by
    simp only [runMem, r1, Res.bind, r3]⟩
  have raw : ∀ c, (w.mem c).bases = if c = d then some [some 0] else if c = a then some [none] else none := by
    intro c
    rw [m3]
    split
    · rfl
    · rw [m1]; split <;> rfl
  have types : ∀ u, w.types u = if u = 2 then some d else if u = 0 then some a else none := by
    intro u
    rw [t3, t1]; rfl
  have meth : ∀ c, (w.mem c).methods = [] := by
    have e0 : ∀ c, (World.initial.mem c).methods = [] := fun _ => rfl
    have e1 : ∀ c, (w1.mem c).methods = [] := by
      intro c; rw [m1]; split
      · exact e0 a
      · exact e0 c
    intro c
    rw [m3]; split
    · exact e1 d
    · exact e1 c
  have bases : ∀ c, w.bases c = if c = d then some [some a] else if c = a then some [none] else none := by
    intro c
    unfold World.bases
    rw [raw]
    split
    · simp [types]
    · split <;> rfl
  have hcore : ∀ c, w.cores c = [] := fun c => by simp [World.cores, meth c]
  generalize hk : (⟨false, false, "q".toList, "()V".toList⟩ : MethodKey) = k
  have hkey : ∀ n, effKey n false false "q".toList "()V".toList = k := fun n => by
    rw [effKey_plain (by decide)]; exact hk
  let m0 : MethodRec := ⟨w.next, "q".toList, "()V".toList, false, none, none⟩
  let w' := w.addMethod a m0 w.reg
  have hA : (MemQuery.method false false false a "q".toList "()V".toList).run 2 w = .ok (w', some w.next) := by
    simp only [MemQuery.run]
    rw [getMethodID_isClass hr.inv ha, hkey]
    unfold World.methodOf
    have : dfs w.bases (w.ownMethod k) 2 a = .ok none := by
      simp only [dfs, ownMethod_cores, hcore, bases, if_neg had]; rfl
    rw [this]; subst hk
    simp only [Res.bind_ok, Bool.or_false, Bool.false_eq_true, if_false, World.createMethod, declare_unit]
    rfl
  have hr1 := hr.step (query_op hA)
  have hd1 := names_step hr (query_op hA) hd
  have hh : k.hits m0.core = true := by subst hk; exact hits_iff.2 ⟨rfl, rfl, rfl, rfl⟩
  have hcw : ∀ c, w'.cores c = if c = a then [m0.core] else [] := fun c => by
    simp only [w', addMethod_cores, hcore]; rfl
  have hbw : w'.bases = w.bases := addMethod_bases ..
  refine ⟨w, w', a, d, w.next, w.next, hr, ha, hd, had, ?_, ?_, hA, ?_, ?_, ?_⟩
  · intro c ts t h1 h2
    rw [raw] at h1
    split at h1
    · cases h1
      simp only [List.mem_singleton, Option.some.injEq] at h2
      subst h2
      rw [types]
      nofun
    · split at h1
      · cases h1; simp at h2
      · cases h1
  · intro c bs b h1 h2
    rw [bases] at h1
    split at h1
    · next e =>
      cases h1
      simp only [List.mem_singleton, Option.some.injEq] at h2
      subst h2
      simp only [if_neg had, e, if_true]
      decide
    · split at h1
      · cases h1; simp at h2
      · cases h1
  · rintro ⟨v, hv⟩
    rw [hA] at hv
    have := congrArg World.next (Prod.mk.inj (Res.ok.inj hv)).1
    simp only [w', addMethod_next] at this
    omega
  · simp only [MemQuery.run]
    rw [getMethodID_isClass hr1.inv hd1, hkey]
    refine methodOf_warm ?_ nofun
    simp only [dfs, ownMethod_cores, hcw, hbw, bases, if_neg had.symm, if_true, firstAnswer, List.find?_cons, hh]
    rfl
  · intro c hc
    have : w'.mem c = w.mem c := by
      simp only [w', World.addMethod, setMem_mem, if_neg hc]
    rw [this]
    exact meth c

end Jnivm
