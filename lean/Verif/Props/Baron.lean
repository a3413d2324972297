import Verif.Spec.Deny
import Verif.Props.Registry
import Verif.Props.Members
import Verif.Lemmas.Calls
import Verif.Lemmas.CallSample
/-! Properties of the Baron VM: its rules (C43) and their effect (C44). -/
namespace Jnivm
open Spec

/-! ## C43: the rules -/

/-- C43, exact. A query with this name is denied exactly if some rule whose name is empty or equal
covers it in signature and class. -/
theorem deniedBy_iff (rules : List DenyRule) (name : Str) (sig clazz : Option Str) :
    deniedBy rules name sig clazz = true ↔
      ∃ r ∈ rules, (r.name = [] ∨ r.name = name) ∧ Covers r.signature sig ∧ Covers r.classname clazz := by
  have hwild : ∀ s : Option Str, s.getD [] = [] ↔ Wild s := by intro s; cases s <;> simp [Wild]
  unfold deniedBy
  rw [List.any_eq_true]
  constructor
  · rintro ⟨r, hr, h⟩
    have hn : r ∈ rules ∧ (r.name = [] ∨ r.name = name) := by
      rw [List.mem_append, List.mem_filter, List.mem_filter] at hr
      simp only [beq_iff_eq] at hr
      rcases hr with ⟨h1, h2⟩ | ⟨h1, h2⟩
      · exact ⟨h1, .inl h2⟩
      · exact ⟨h1, .inr h2⟩
    refine ⟨r, hn.1, hn.2, ?_⟩
    split at h
    · cases h
    · split at h
      · cases h
      · rename_i h1 h2
        refine ⟨?_, ?_⟩
        · by_cases ha : r.signature = []
          · exact .inl ha
          · by_cases hb : sig.getD [] = []
            · exact .inr (.inl ((hwild _).1 hb))
            · by_cases hc : some r.signature = sig
              · exact .inr (.inr hc.symm)
              · exact absurd ⟨hb, ha, hc⟩ h2
        · simp only [Bool.or_eq_true, beq_iff_eq] at h
          rcases h with (h | h) | h
          · exact .inr (.inl ((hwild _).1 h))
          · exact .inl h
          · exact .inr (.inr h.symm)
  · rintro ⟨r, hr, hn, hs, hc⟩
    refine ⟨r, ?_, ?_⟩
    · rw [List.mem_append, List.mem_filter, List.mem_filter]
      simp only [beq_iff_eq]
      rcases hn with h | h
      · exact .inl ⟨hr, h⟩
      · exact .inr ⟨hr, h⟩
    · rw [if_neg (by rintro ⟨_, h1, h2⟩; exact hn.elim h1 h2)]
      rw [if_neg (by
        rintro ⟨h1, h2, h3⟩
        rcases hs with h | h | h
        · exact h2 h
        · exact h1 ((hwild _).2 h)
        · exact h3 h.symm)]
      simp only [Bool.or_eq_true, beq_iff_eq]
      rcases hc with h | h | h
      · exact .inl (.inr h)
      · exact .inl (.inl ((hwild _).2 h))
      · exact .inr h.symm

theorem denyAll_mem (ops : List DenyOp) : ∀ d : Deny,
    (∀ n, n ∈ (ops.foldl DenyOp.run d).classes ↔ n ∈ d.classes ∨ .cls n ∈ ops) ∧
    (∀ n s c, ⟨n, c, s⟩ ∈ (ops.foldl DenyOp.run d).methods ↔ ⟨n, c, s⟩ ∈ d.methods ∨ .method n s c ∈ ops) ∧
    (∀ n s c, ⟨n, c, s⟩ ∈ (ops.foldl DenyOp.run d).fields ↔ ⟨n, c, s⟩ ∈ d.fields ∨ .field n s c ∈ ops) := by
  induction ops with
  | nil => intro d; simp
  | cons op ops ih =>
    intro d
    obtain ⟨h1, h2, h3⟩ := ih (op.run d)
    simp only [List.foldl_cons]
    refine ⟨fun n => ?_, fun n s c => ?_, fun n s c => ?_⟩
    · rw [h1]
      cases op with
      | cls m =>
        simp only [DenyOp.run, Deny.denyClass]
        cases hm : d.classes.contains m with
        | true =>
          have : m ∈ d.classes := by simpa using hm
          simp only [if_true, List.mem_cons, DenyOp.cls.injEq]
          constructor
          · exact fun h => h.elim .inl fun h => .inr (.inr h)
          · rintro (h | h | h)
            · exact .inl h
            · rw [h]; exact .inl this
            · exact .inr h
        | false => simp [or_assoc]
      | method a b e => simp [DenyOp.run, Deny.denyMethod]
      | field a b e => simp [DenyOp.run, Deny.denyField]
    · rw [h2]
      cases op with
      | cls m => simp only [DenyOp.run, Deny.denyClass]; split <;> simp
      | method a b e => simp [DenyOp.run, Deny.denyMethod, and_comm, or_assoc]
      | field a b e => simp [DenyOp.run, Deny.denyField]
    · rw [h3]
      cases op with
      | cls m => simp only [DenyOp.run, Deny.denyClass]; split <;> simp
      | method a b e => simp [DenyOp.run, Deny.denyMethod]
      | field a b e => simp [DenyOp.run, Deny.denyField, and_comm, or_assoc]

/-- C43: after adding rules in any order, exactly the classes named by a rule are denied. -/
theorem class_denied_iff (ops : List DenyOp) (n : Str) :
    (denyAll ops).isClassDenied n = true ↔ .cls n ∈ ops := by
  have := (denyAll_mem ops Deny.empty).1 n
  simp only [Deny.isClassDenied, List.contains_iff_mem, denyAll, this]
  simp [Deny.empty]

/-- C43: after adding rules in any order, exactly the methods covered by a rule are denied, for queries
by the name of the method. -/
theorem method_denied_iff (ops : List DenyOp) (name : Str) (sig clazz : Option Str) (hn : name ≠ []) :
    (denyAll ops).isMethodDenied name sig clazz = true ↔
      ∃ n s c, .method n s c ∈ ops ∧ Forbids ⟨n, c, s⟩ name sig clazz := by
  rw [Deny.isMethodDenied, deniedBy_iff]
  have hm := (denyAll_mem ops Deny.empty).2.1
  simp only [denyAll, Forbids, Covers, Wild]
  constructor
  · rintro ⟨⟨n, c, s⟩, h1, h2, h3, h4⟩
    rcases (hm n s c).1 h1 with h | h
    · simp [Deny.empty] at h
    · exact ⟨n, s, c, h, h2.elim .inl fun h => .inr (.inr (by rw [← h])), h3, h4⟩
  · rintro ⟨n, s, c, h, h2, h3, h4⟩
    refine ⟨⟨n, c, s⟩, (hm n s c).2 (.inr h), ?_, h3, h4⟩
    rcases h2 with h | h | h
    · exact .inl h
    · exact absurd h hn
    · exact .inr (Option.some.inj h).symm

/-- The same for fields. -/
theorem field_denied_iff (ops : List DenyOp) (name : Str) (sig clazz : Option Str) (hn : name ≠ []) :
    (denyAll ops).isFieldDenied name sig clazz = true ↔
      ∃ n s c, .field n s c ∈ ops ∧ Forbids ⟨n, c, s⟩ name sig clazz := by
  rw [Deny.isFieldDenied, deniedBy_iff]
  have hm := (denyAll_mem ops Deny.empty).2.2
  simp only [denyAll, Forbids, Covers, Wild]
  constructor
  · rintro ⟨⟨n, c, s⟩, h1, h2, h3, h4⟩
    rcases (hm n s c).1 h1 with h | h
    · simp [Deny.empty] at h
    · exact ⟨n, s, c, h, h2.elim .inl fun h => .inr (.inr (by rw [← h])), h3, h4⟩
  · rintro ⟨n, s, c, h, h2, h3, h4⟩
    refine ⟨⟨n, c, s⟩, (hm n s c).2 (.inr h), ?_, h3, h4⟩
    rcases h2 with h | h | h
    · exact .inl h
    · exact absurd h hn
    · exact .inr (Option.some.inj h).symm

example : ("name".toList : Str) ≠ [] ∧ (.method "".toList "()V".toList "A".toList : DenyOp) ∈
    [DenyOp.cls "B".toList, .method "".toList "()V".toList "A".toList] ∧
    Forbids ⟨"".toList, "A".toList, "()V".toList⟩ "name".toList (some "()V".toList) none := by
  refine ⟨by decide, by decide, .inl rfl, .inr (.inr rfl), .inr (.inl trivial)⟩

/-- C43 fails: an empty name in a query is no wildcard; only rules without name are consulted. -/
theorem empty_name_no_wildcard : ∃ ops n s c, .method n s c ∈ ops ∧ Forbids ⟨n, c, s⟩ [] none none ∧
    (denyAll ops).isMethodDenied [] none none = false :=
  ⟨[.method "m".toList "()V".toList [] ], "m".toList, "()V".toList, [], by simp,
    ⟨.inr (.inl rfl), .inr (.inl trivial), .inl rfl⟩, by decide⟩

/-! ## C44: nothing denied is made up -/

/-- C44, classes. `FindClass` of a denied class that does not exist gives null and changes nothing;
otherwise it is the `FindClass` of the plain VM. -/
theorem baron_findClass (d : Deny) {w : World} (hr : MemReachable w) (n : Str) :
    (d.isClassDenied n = true → (∀ c, ¬ w.IsClass n c) → d.findClass w.reg n = (w.reg, none)) ∧
    (∀ c, w.IsClass n c → d.findClass w.reg n = (w.reg, some c)) ∧
    (d.isClassDenied n = false → d.findClass w.reg n = findClass false w.reg n) := by
  have hq := findClass_find hr.inv.reg n
  refine ⟨fun hd hn => ?_, fun c hc => ?_, fun hd => ?_⟩
  · unfold Deny.findClass
    rw [hq]
    cases hl : w.reg.byName.lookup n with
    | none => simp only [hd, if_true]
    | some c => exact absurd (by unfold World.IsClass; rw [hq]; exact hl) (hn c)
  · unfold Deny.findClass
    unfold World.IsClass at hc
    rw [hq] at hc ⊢
    change w.reg.byName.lookup n = some c at hc
    rw [hc]
  · unfold Deny.findClass
    rw [hq]
    cases hl : w.reg.byName.lookup n with
    | none => simp only [hd, Bool.false_eq_true, if_false]
    | some c =>
      have : w.IsClass n c := by unfold World.IsClass; rw [hq]; exact hl
      obtain ⟨r', c', e, h1, h2⟩ := findClass_create hr.inv.reg n
      have hx := findClass_existing this
      rw [hx]


/-- `n` is the name the rules are asked about: that of the class, empty for a null class. -/
def QueryName (w : World) (cl : Option Nat) (n : Str) : Prop :=
  cl = none ∧ n = [] ∨ ∃ c, cl = some c ∧ w.IsClass n c

theorem className_eq {w : World} (inv : MemInv w) {cl : Option Nat} {n : Str} (h : QueryName w cl n) :
    w.className cl = n := by
  rcases h with ⟨rfl, rfl⟩ | ⟨c, rfl, hc⟩
  · rfl
  · obtain ⟨cd, h1, h2⟩ := isClass_record inv hc
    simp only [World.className, h1, Option.map_some, Option.getD_some, h2]

/-- C44, methods. If the method is denied, `GetMethodID`/`GetStaticMethodID` is the lookup that never
creates: what does not exist gives null and nothing changes.  Otherwise it is the lookup of the plain
VM. -/
theorem baron_getMethodID (d : Deny) {w : World} (hr : MemReachable w) {cl : Option Nat} {n : Str}
    (hc : QueryName w cl n) (depth : Nat) (st : Bool) (name sig : Str) :
    (d.isMethodDenied name (some sig) (some n) = true →
      d.getMethodID depth st w cl name sig = w.getMethodID depth st true false cl name sig ∧
      ∀ w' r, d.getMethodID depth st w cl name sig = .ok (w', r) → w' = w) ∧
    (d.isMethodDenied name (some sig) (some n) = false →
      d.getMethodID depth st w cl name sig = w.getMethodID depth st false false cl name sig) := by
  have hname := className_eq hr.inv hc
  have hnull : ∀ w' r, w.getMethodID depth st true false cl name sig = .ok (w', r) → w' = w := by
    intro w' r h
    rcases getMethodID_ok h with ⟨_, _, h, _⟩ | ⟨_, h, _⟩ | ⟨c, cd, _, _, h⟩
    · exact h
    · cases h
    · rcases methodOf_ok h with ⟨h, _⟩ | ⟨h, _⟩
      · exact h
      · cases h
  have hden : d.isMethodDenied name (some sig) (some n) = true →
      d.getMethodID depth st w cl name sig = w.getMethodID depth st true false cl name sig := by
    intro hd
    unfold Deny.getMethodID
    cases hx : w.getMethodID depth st true false cl name sig with
    | throws e => rfl
    | ub u => rfl
    | diverges => rfl
    | ok p =>
      obtain ⟨w', r⟩ := p
      cases hnull w' r hx
      simp only [Res.bind_ok]
      cases r with
      | some id => rfl
      | none => simp only [hname, hd, if_true]
  refine ⟨fun hd => ⟨hden hd, fun w' r h => hnull w' r (by rw [← hden hd]; exact h)⟩, fun hd => ?_⟩
  unfold Deny.getMethodID
  cases hx : w.getMethodID depth st true false cl name sig with
  | ok p =>
    obtain ⟨w', r⟩ := p
    cases hnull w' r hx
    simp only [Res.bind_ok]
    cases r with
    | none => simp only [hname, hd, Bool.false_eq_true, if_false]
    | some id =>
      rcases hc with ⟨rfl, rfl⟩ | ⟨c, rfl, hc⟩
      · simp [World.getMethodID] at hx
      · rw [getMethodID_isClass hr.inv hc] at hx ⊢
        rcases methodOf_ok hx with ⟨_, h, _⟩ | ⟨h, _⟩
        · simp only [World.methodOf, h, Res.bind_ok]
        · cases h
  | _ =>
    rcases hc with ⟨rfl, rfl⟩ | ⟨c, rfl, hc⟩
    · simp [World.getMethodID] at hx
    · rw [getMethodID_isClass hr.inv hc] at hx ⊢
      unfold World.methodOf at hx ⊢
      cases hd : dfs w.bases (w.ownMethod (effKey n st false name sig)) depth c with
      | ok o => rw [hd] at hx; cases o <;> simp [Res.bind] at hx
      | _ => rw [hd] at hx; exact hx.symm

/-- C44, fields. The same for `GetFieldID`/`GetStaticFieldID`. -/
theorem baron_getFieldID (d : Deny) {w : World} (hr : MemReachable w) {c : Nat} {n : Str}
    (hc : w.IsClass n c) (depth : Nat) (st : Bool) (name type : Str) :
    (d.isFieldDenied name (some type) (some n) = true →
      d.getFieldID depth st w (some c) name type = w.getFieldID depth st true (some c) name type ∧
      ∀ w' r, d.getFieldID depth st w (some c) name type = .ok (w', r) → w' = w) ∧
    (d.isFieldDenied name (some type) (some n) = false →
      d.getFieldID depth st w (some c) name type = w.getFieldID depth st false (some c) name type) := by
  have hname := className_eq hr.inv (.inr ⟨c, rfl, hc⟩)
  obtain ⟨cd, hcd, _⟩ := isClass_record hr.inv hc
  have hlook : ∀ z, w.getFieldID depth st z (some c) name type =
      (dfs w.bases (w.ownField ⟨st, name, type⟩) depth c).bind fun
        | some id => .ok (w, some id)
        | none => if z then .ok (w, none) else w.createField c ⟨st, name, type⟩ := by
    intro z
    simp only [World.getFieldID, hcd]
    cases dfs w.bases (w.ownField ⟨st, name, type⟩) depth c with
    | ok o => cases o <;> rfl
    | _ => rfl
  simp only [Deny.getFieldID, hlook]
  have hz := hlook false
  cases hdf : dfs w.bases (w.ownField ⟨st, name, type⟩) depth c with
  | ok o =>
    rw [hdf] at hz
    cases o with
    | some id => simp [Res.bind]
    | none =>
      simp only [Res.bind_ok, if_true, hname]
      refine ⟨fun hd => ?_, fun hd => ?_⟩
      · simp only [hd, if_true, true_and]
        intro w' r h; cases h; rfl
      · simp only [hd, Bool.false_eq_true, if_false]
        exact hz
  | throws e => simp [Res.bind]
  | ub u => simp [Res.bind]
  | diverges => simp [Res.bind]

/-- Sample: class "A" in a reachable VM, a denied method that does not exist and one that exists. -/
example : ∃ w a d id, MemReachable w ∧ QueryName w (some a) "A".toList ∧ w.IsClass "A".toList a ∧
    Deny.isMethodDenied d "x".toList (some "()V".toList) (some "A".toList) = true ∧
    Deny.isMethodDenied d "m".toList (some "()I".toList) (some "A".toList) = false ∧
    w.getMethodID 1 false true false (some a) "m".toList "()I".toList = .ok (w, some id) ∧
    w.getMethodID 1 false true false (some a) "x".toList "()V".toList = .ok (w, none) := by
  obtain ⟨vm, a, b, c, q, m, m', s, q', f, g, S⟩ := sample_vm
  have ho : SearchOrder vm.world.bases [some a] [a] := by
    refine .visit (up := []) (l := []) ?_ .nil
    rw [S.basesA]; exact .skip .nil
  refine ⟨vm.world, a, denyAll [.method "x".toList [] "A".toList], m, S.reach.1, .inr ⟨a, rfl, S.isA⟩, S.isA,
    by decide, by decide, ?_, ?_⟩
  · rw [lookup_order S.reach.1 S.isA ho (by simp) false false _ _ (by simp)]
    simp [S.methodsA, List.findSome?]
  · rw [lookup_order S.reach.1 S.isA ho (by simp) false false _ _ (by simp)]
    simp [S.methodsA, List.findSome?]

/-! ### Histories of lookups -/

theorem _root_.Spec.Lookups.reachable {d : Deny} {w w' : World} (h : Lookups d w w') (hr : MemReachable w) :
    MemReachable w' := by
  induction h with
  | refl => exact hr
  | findClass n _ ih =>
    rename_i w1 _
    unfold Deny.findClass
    rw [findClass_find ih.inv.reg]
    cases hl : w1.reg.byName.lookup n with
    | some c => exact ih
    | none =>
      cases hd : d.isClassDenied n with
      | true => exact ih
      | false =>
        exact ih.step (op := .findClass false n) rfl
  | getMethodID _ hc hx ih =>
    rename_i depth st n c name sig r _
    have hb := baron_getMethodID d ih (.inr ⟨c, rfl, hc⟩) depth st name sig
    cases hd : d.isMethodDenied name (some sig) (some n) with
    | true => rw [(hb.1 hd).1] at hx; exact ih.step (run_getMethodID (by simp) hx)
    | false => rw [hb.2 hd] at hx; exact ih.step (run_getMethodID (by simp) hx)
  | getFieldID _ hc hx ih =>
    rename_i depth st n c name type r _
    have hb := baron_getFieldID d ih hc depth st name type
    cases hd : d.isFieldDenied name (some type) (some n) with
    | true =>
      rw [(hb.1 hd).1] at hx
      exact ih.step (op := .getFieldID depth st true (some c) name type) (by simp only [MemOp.run, hx]; rfl)
    | false =>
      rw [hb.2 hd] at hx
      exact ih.step (op := .getFieldID depth st false (some c) name type) (by simp only [MemOp.run, hx]; rfl)


theorem _root_.Spec.Lookups.isClass {d : Deny} {w w' : World} (h : Lookups d w w') (hr : MemReachable w) {n : Str}
    {c : Nat} (hc : w.IsClass n c) : w'.IsClass n c := by
  induction h with
  | refl => exact hc
  | findClass m h ih =>
    rename_i w1
    have hr1 := h.reachable hr
    have hr2 := (Lookups.findClass m h).reachable hr
    refine (isClass_iff hr2.inv).2 ?_
    have h1 := (isClass_iff hr1.inv).1 ih
    show (d.findClass w1.reg m).1.byName.lookup n = some c
    unfold Deny.findClass
    rw [findClass_find hr1.inv.reg]
    cases hl : w1.reg.byName.lookup m with
    | some c => exact h1
    | none =>
      cases hd : d.isClassDenied m with
      | true => exact h1
      | false =>
        obtain ⟨r', c', e, _, hcr⟩ := findClass_create hr1.inv.reg m
        simp only [Bool.false_eq_true, if_false, e]
        exact hcr.keep n c h1
  | getMethodID h hk hx ih =>
    rename_i depth st m k name sig r
    have hr1 := h.reachable hr
    have hb := baron_getMethodID d hr1 (.inr ⟨k, rfl, hk⟩) depth st name sig
    cases hd : d.isMethodDenied name (some sig) (some m) with
    | true => rw [(hb.1 hd).1] at hx; exact isClass_step hr1.inv (run_getMethodID (by simp) hx) ih
    | false => rw [hb.2 hd] at hx; exact isClass_step hr1.inv (run_getMethodID (by simp) hx) ih
  | getFieldID h hk hx ih =>
    rename_i depth st m k name type r
    have hr1 := h.reachable hr
    have hb := baron_getFieldID d hr1 hk depth st name type
    cases hd : d.isFieldDenied name (some type) (some m) with
    | true =>
      rw [(hb.1 hd).1] at hx
      exact isClass_step (op := .getFieldID depth st true (some k) name type) hr1.inv
        (by simp only [MemOp.run, hx]; rfl) ih
    | false =>
      rw [hb.2 hd] at hx
      exact isClass_step (op := .getFieldID depth st false (some k) name type) hr1.inv
        (by simp only [MemOp.run, hx]; rfl) ih

/-- What one lookup adds to the tables. -/
theorem baron_step_methods {d : Deny} {w w' : World} (hr : MemReachable w) {n : Str} {c : Nat}
    (hc : w.IsClass n c) {depth : Nat} {st : Bool} {name sig : Str} {r : Option Nat}
    (h : d.getMethodID depth st w (some c) name sig = .ok (w', r)) :
    w' = w ∨ d.isMethodDenied name (some sig) (some n) = false ∧
      ∃ reg, w' = w.addMethod c ⟨w.next, (effKey n st false name sig).name,
        (effKey n st false name sig).signature, (effKey n st false name sig).static, none, none⟩ reg := by
  have hb := baron_getMethodID d hr (.inr ⟨c, rfl, hc⟩) depth st name sig
  cases hd : d.isMethodDenied name (some sig) (some n) with
  | true => exact .inl ((hb.1 hd).2 _ _ h)
  | false =>
    rw [hb.2 hd, getMethodID_isClass hr.inv hc] at h
    rcases methodOf_ok h with ⟨h, _⟩ | ⟨_, _, _, reg, _, h⟩
    · exact .inl h
    · exact .inr ⟨rfl, reg, h⟩

theorem baron_step_fields {d : Deny} {w w' : World} (hr : MemReachable w) {n : Str} {c : Nat}
    (hc : w.IsClass n c) {depth : Nat} {st : Bool} {name type : Str} {r : Option Nat}
    (h : d.getFieldID depth st w (some c) name type = .ok (w', r)) :
    w' = w ∨ d.isFieldDenied name (some type) (some n) = false ∧
      ∃ reg, w' = w.addField c ⟨w.next, name, type, st, none, none⟩ reg := by
  have hb := baron_getFieldID d hr hc depth st name type
  cases hd : d.isFieldDenied name (some type) (some n) with
  | true => exact .inl ((hb.1 hd).2 _ _ h)
  | false =>
    rw [hb.2 hd] at h
    obtain ⟨c', cd, e, _, h | ⟨_, _, _, reg, _, h⟩⟩ := getFieldID_ok h
    · exact .inl h.1
    · cases e; exact .inr ⟨rfl, reg, h⟩

/-- C44, methods, whole histories. Every method record that appears comes from a lookup whose name,
signature and class no rule forbids.  The record's key is `effKey` of that lookup: the arguments
themselves, except that a constructor is recorded as a static method returning the class. -/
theorem baron_methods {d : Deny} {w w' : World} (h : Lookups d w w') (hr : MemReachable w)
    (c : Nat) (m : MethodRec) (hm : m ∈ (w'.mem c).methods) :
    m ∈ (w.mem c).methods ∨ ∃ n st sig, w'.IsClass n c ∧
      d.isMethodDenied m.name (some sig) (some n) = false ∧
      (⟨m.static, false, m.name, m.signature⟩ : MethodKey) = effKey n st false m.name sig := by
  induction h with
  | refl => exact .inl hm
  | findClass n h ih =>
    rcases ih hm with h1 | ⟨n', st, sig, h1, h2⟩
    · exact .inl h1
    · exact .inr ⟨n', st, sig, (Lookups.findClass n .refl).isClass (h.reachable hr) h1, h2⟩
  | getMethodID h hk hx ih =>
    rename_i w1 w2 depth st n k name sig r
    have hr1 := h.reachable hr
    have keep : ∀ {n' c'}, w1.IsClass n' c' → w2.IsClass n' c' :=
      fun h => (Lookups.getMethodID (d := d) .refl hk hx).isClass hr1 h
    have old (hm : m ∈ (w1.mem c).methods) : m ∈ (w.mem c).methods ∨ ∃ n st sig, w2.IsClass n c ∧
        d.isMethodDenied m.name (some sig) (some n) = false ∧
        (⟨m.static, false, m.name, m.signature⟩ : MethodKey) = effKey n st false m.name sig := by
      rcases ih hm with h1 | ⟨n', st, sig, h1, h2⟩
      · exact .inl h1
      · exact .inr ⟨n', st, sig, keep h1, h2⟩
    rcases baron_step_methods hr1 hk hx with e | ⟨hd, reg, e⟩
    · rw [e] at hm; exact old hm
    · rw [e] at hm
      simp only [World.addMethod, setMem_mem] at hm
      by_cases hck : c = k
      · subst hck
        rw [if_pos rfl] at hm
        rcases List.mem_append.1 hm with hm | hm
        · exact old hm
        · right
          cases List.mem_singleton.1 hm
          have hn : (effKey n st false name sig).name = name := by unfold effKey; split <;> rfl
          have ha : (effKey n st false name sig).native = false := by unfold effKey; split <;> rfl
          refine ⟨n, st, sig, keep hk, by rw [hn]; exact hd, ?_⟩
          clear ih old hm e
          generalize hK : effKey n st false name sig = K at hn ha
          obtain ⟨a, b, c', e⟩ := K
          simp only at hn ha
          subst hn ha
          exact hK.symm
      · rw [if_neg hck] at hm; exact old hm
  | getFieldID h hk hx ih =>
    rename_i w1 w2 depth st n k name type r
    have hr1 := h.reachable hr
    have keep : ∀ {n' c'}, w1.IsClass n' c' → w2.IsClass n' c' :=
      fun h => (Lookups.getFieldID (d := d) .refl hk hx).isClass hr1 h
    have hm1 : m ∈ (w1.mem c).methods := by
      rcases baron_step_fields hr1 hk hx with e | ⟨_, reg, e⟩
      · rw [← e]; exact hm
      · rw [e] at hm
        simp only [World.addField, setMem_mem] at hm
        by_cases hck : c = k
        · subst hck; rw [if_pos rfl] at hm; exact hm
        · rw [if_neg hck] at hm; exact hm
    rcases ih hm1 with h1 | ⟨n', st, sig, h1, h2⟩
    · exact .inl h1
    · exact .inr ⟨n', st, sig, keep h1, h2⟩

/-- C44, fields, whole histories. -/
theorem baron_fields {d : Deny} {w w' : World} (h : Lookups d w w') (hr : MemReachable w)
    (c : Nat) (f : FieldRec) (hf : f ∈ (w'.mem c).fields) :
    f ∈ (w.mem c).fields ∨ ∃ n, w'.IsClass n c ∧
      d.isFieldDenied f.name (some f.type) (some n) = false := by
  induction h with
  | refl => exact .inl hf
  | findClass n h ih =>
    rcases ih hf with h1 | ⟨n', h1, h2⟩
    · exact .inl h1
    · exact .inr ⟨n', (Lookups.findClass n .refl).isClass (h.reachable hr) h1, h2⟩
  | getMethodID h hk hx ih =>
    rename_i w1 w2 depth st n k name sig r
    have hr1 := h.reachable hr
    have hm1 : f ∈ (w1.mem c).fields := by
      rcases baron_step_methods hr1 hk hx with e | ⟨_, reg, e⟩
      · rw [← e]; exact hf
      · rw [e] at hf
        simp only [World.addMethod, setMem_mem] at hf
        by_cases hck : c = k
        · subst hck; rw [if_pos rfl] at hf; exact hf
        · rw [if_neg hck] at hf; exact hf
    rcases ih hm1 with h1 | ⟨n', h1, h2⟩
    · exact .inl h1
    · exact .inr ⟨n', (Lookups.getMethodID (d := d) .refl hk hx).isClass hr1 h1, h2⟩
  | getFieldID h hk hx ih =>
    rename_i w1 w2 depth st n k name type r
    have hr1 := h.reachable hr
    have keep : ∀ {n' c'}, w1.IsClass n' c' → w2.IsClass n' c' :=
      fun h => (Lookups.getFieldID (d := d) .refl hk hx).isClass hr1 h
    have old (hm : f ∈ (w1.mem c).fields) : f ∈ (w.mem c).fields ∨ ∃ n, w2.IsClass n c ∧
        d.isFieldDenied f.name (some f.type) (some n) = false := by
      rcases ih hm with h1 | ⟨n', h1, h2⟩
      · exact .inl h1
      · exact .inr ⟨n', keep h1, h2⟩
    rcases baron_step_fields hr1 hk hx with e | ⟨hd, reg, e⟩
    · rw [e] at hf; exact old hf
    · rw [e] at hf
      simp only [World.addField, setMem_mem] at hf
      by_cases hck : c = k
      · subst hck
        rw [if_pos rfl] at hf
        rcases List.mem_append.1 hf with hf | hf
        · exact old hf
        · right
          cases List.mem_singleton.1 hf
          exact ⟨n, keep hk, hd⟩
      · rw [if_neg hck] at hf; exact old hf

/-- C44, classes, exactly. After `FindClass n` exactly the classes that were there are available,
and, unless `n` is denied, `n` and its enclosing classes. -/
theorem baron_classes (d : Deny) {w : World} (hr : MemReachable w) (n m : Str) :
    (∃ c, World.IsClass { w with reg := (d.findClass w.reg n).1 } m c) ↔
      (∃ c, w.IsClass m c) ∨ d.isClassDenied n = false ∧ Encloses m n := by
  have hr' := (Lookups.findClass (d := d) n .refl).reachable hr
  obtain ⟨r', c', e, hl', hcr⟩ := findClass_create hr.inv.reg n
  have hnew : ∀ m, (∃ c, r'.byName.lookup m = some c) ↔
      (∃ c, w.reg.byName.lookup m = some c) ∨ Encloses m n := by
    intro m
    simpa only [Option.isSome_iff_exists] using hcr.new m
  simp only [isClass_iff hr'.inv, isClass_iff hr.inv]
  unfold Deny.findClass
  rw [findClass_find hr.inv.reg]
  cases hl : w.reg.byName.lookup n with
  | some c =>
    refine ⟨.inl, fun h => h.elim id fun h => ?_⟩
    have hx := findClass_existing ((isClass_iff hr.inv).2 hl)
    rw [e] at hx
    cases (Prod.mk.inj hx).1
    exact (hnew m).2 (.inr h.2)
  | none =>
    cases hd : d.isClassDenied n with
    | true => simp
    | false => simp only [Bool.false_eq_true, if_false, e, true_and]; exact hnew m

/-- C44 for classes with the condition it needs: `FindClass n` brings no denied class into being if
no class around `n` is denied. -/
theorem baron_no_denied_class_partial (d : Deny) {w : World} (hr : MemReachable w) (n m : Str)
    (hn : ∀ k, Encloses k n → k ≠ n → d.isClassDenied k = false) (hd : d.isClassDenied m = true) :
    (∃ c, World.IsClass { w with reg := (d.findClass w.reg n).1 } m c) ↔ ∃ c, w.IsClass m c := by
  rw [baron_classes d hr]
  refine ⟨fun h => h.elim id fun ⟨h1, h2⟩ => ?_, .inl⟩
  by_cases e : m = n
  · rw [e, h1] at hd; cases hd
  · rw [hn m h2 e] at hd; cases hd


/-- The classes of a new VM. -/
theorem initial_classes (m : Str) : (∃ c, World.initial.IsClass m c) ↔
    ∃ n ∈ builtinClasses.map String.toList, Encloses m n := by
  have h : ∀ c, World.initial.IsClass m c ↔ Registry.initial.byName.lookup m = some c :=
    fun c => isClass_iff initial_memInv
  simp only [h, ← Option.isSome_iff_exists]
  rw [initial_eq, (createAll_spec _ empty_inv).2.2]
  simp [Registry.empty]

theorem no_test_class : ¬ ∃ c, World.initial.IsClass "Test".toList c := by
  rw [initial_classes]
  rintro ⟨n, hn, h⟩
  have hall : ∀ n ∈ builtinClasses.map String.toList, n.take 4 ≠ "Test".toList := by decide +kernel
  refine hall n hn ?_
  rcases h with rfl | ⟨_, inner, rfl, _⟩ <;> rfl

/-- C44 fails: `FindClass` of an inner class makes up the denied class around it. -/
theorem denied_outer_class : ∃ (d : Deny) (w : World) (n m : Str), MemReachable w ∧ d.isClassDenied m = true ∧
    (¬ ∃ c, w.IsClass m c) ∧ ∃ c, World.IsClass { w with reg := (d.findClass w.reg n).1 } m c := by
  refine ⟨denyAll [.cls "Test".toList], World.initial, "Test$X".toList, "Test".toList, ⟨[], rfl⟩,
    by decide, no_test_class, ?_⟩
  rw [baron_classes _ ⟨[], rfl⟩]
  exact .inr ⟨by decide, .inr ⟨by decide, "X".toList, by decide, by decide⟩⟩


/-- What a lookup of a new method does on the class `java/lang/Object` of a new VM. -/
theorem initial_getMethodID {d : Deny} {c : Nat} (hc : World.initial.IsClass "java/lang/Object".toList c)
    {st : Bool} {name sig : Str}
    (hd : d.isMethodDenied name (some sig) (some "java/lang/Object".toList) = false) {K : MethodKey}
    (hK : effKey "java/lang/Object".toList st false name sig = K) {params : List Ty} {ret : Option Ty}
    (hp : ∀ t ∈ params, t.Valid) (hv : ∀ t, ret = some t → t.Valid) (hs : K.signature = renderSig params ret) :
    d.getMethodID 1 st World.initial (some c) name sig =
      .ok (World.initial.addMethod c ⟨World.initial.next, K.name, K.signature, K.static, none, none⟩
        (createAll World.initial.reg (sigClassNames params ret)), some World.initial.next) := by
  have hr : MemReachable World.initial := ⟨[], rfl⟩
  rw [(baron_getMethodID d hr (.inr ⟨c, rfl, hc⟩) 1 st name sig).2 hd, getMethodID_isClass hr.inv hc, hK]
  have h0 : dfs World.initial.bases (World.initial.ownMethod K) 1 c = .ok none := rfl
  unfold World.methodOf
  rw [h0, Res.bind_ok]
  simp only [Bool.false_eq_true, if_false, World.createMethod]
  rw [hs, declare_sig hp hv]
  rfl

/-- C44 fails: a method lookup makes up a denied class named in the signature. -/
theorem denied_signature_class : ∃ (d : Deny) (w w' : World) (depth c : Nat) (name sig m : Str) (r : Option Nat),
    MemReachable w ∧ d.isClassDenied m = true ∧ (¬ ∃ c, w.IsClass m c) ∧
    d.getMethodID depth false w (some c) name sig = .ok (w', r) ∧ ∃ c, w'.IsClass m c := by
  obtain ⟨c, hc⟩ := (initial_classes "java/lang/Object".toList).2
    ⟨"java/lang/Object".toList, by decide +kernel, .inl rfl⟩
  have hr : MemReachable World.initial := ⟨[], rfl⟩
  have hv : ∀ t, some (Ty.cls "Test".toList) = some t → t.Valid := by
    intro t h; cases h; decide
  have h := initial_getMethodID (d := denyAll [.cls "Test".toList]) hc (st := false) (name := "m".toList)
    (sig := "()LTest;".toList) (by decide) rfl (params := []) (by simp) hv rfl
  refine ⟨_, _, _, _, c, _, _, "Test".toList, _, hr, by decide, no_test_class, h, ?_⟩
  have hr2 : MemReachable (World.initial.addMethod c _ _) := (Lookups.getMethodID .refl hc h).reachable hr
  have hx : ∃ k, (createAll World.initial.reg (sigClassNames [] (some (.cls "Test".toList)))).byName.lookup
      "Test".toList = some k := by
    rw [← Option.isSome_iff_exists, (createAll_spec _ hr.inv.reg).2.2]
    exact .inr ⟨"Test".toList, by decide, .inl rfl⟩
  obtain ⟨k, hk⟩ := hx
  exact ⟨k, (isClass_iff hr2.inv).2 hk⟩

/-- C44 fails for constructors: `GetStaticMethodID` with the signature a constructor is recorded under
makes up the constructor that the rules forbid. -/
theorem denied_constructor : ∃ (d : Deny) (w w' : World) (depth c id : Nat) (sig : Str),
    MemReachable w ∧ w.IsClass "java/lang/Object".toList c ∧
    d.isMethodDenied "<init>".toList (some "()V".toList) (some "java/lang/Object".toList) = true ∧
    d.getMethodID depth false w (some c) "<init>".toList "()V".toList = .ok (w, none) ∧
    d.getMethodID depth true w (some c) "<init>".toList sig = .ok (w', some id) ∧
    d.getMethodID depth false w' (some c) "<init>".toList "()V".toList = .ok (w', some id) := by
  obtain ⟨c, hc⟩ := (initial_classes "java/lang/Object".toList).2
    ⟨"java/lang/Object".toList, by decide +kernel, .inl rfl⟩
  have hr : MemReachable World.initial := ⟨[], rfl⟩
  have hv : ∀ t, some (Ty.cls "java/lang/Object".toList) = some t → t.Valid := by
    intro t h; cases h; decide
  have hK : effKey "java/lang/Object".toList false false "<init>".toList "()V".toList =
      ⟨true, false, "<init>".toList, "()Ljava/lang/Object;".toList⟩ := by decide
  generalize hd : denyAll [.method "<init>".toList "()V".toList []] = d
  have hden : d.isMethodDenied "<init>".toList (some "()V".toList) (some "java/lang/Object".toList) = true := by
    rw [← hd]; decide
  have h := initial_getMethodID (d := d) hc (st := true) (name := "<init>".toList)
    (sig := "()Ljava/lang/Object;".toList) (by rw [← hd]; decide) rfl (params := []) (by simp) hv rfl
  have hr2 : MemReachable (World.initial.addMethod c _ _) := (Lookups.getMethodID .refl hc h).reachable hr
  have hc2 : (World.initial.addMethod c _ _).IsClass _ c := (Lookups.getMethodID .refl hc h).isClass hr hc
  refine ⟨d, _, _, 1, c, _, _, hr, hc, hden, ?_, h, ?_⟩
  · rw [((baron_getMethodID d hr (.inr ⟨c, rfl, hc⟩) 1 false _ _).1 hden).1, getMethodID_isClass hr.inv hc]
    rfl
  · rw [((baron_getMethodID d hr2 (.inr ⟨c, rfl, hc2⟩) 1 false _ _).1 hden).1, getMethodID_isClass hr2.inv hc2, hK]
    unfold World.methodOf
    rw [dfs_own (x := World.initial.next)]
    · rfl
    · simp only [World.ownMethod, World.addMethod, setMem_mem, if_true]
      rfl

/-- Sample: a history of two lookups, one of which adds a method. -/
example : ∃ d w w' c m, MemReachable w ∧ Lookups d w w' ∧ m ∈ (w'.mem c).methods ∧ m ∉ (w.mem c).methods := by
  obtain ⟨c, hc⟩ := (initial_classes "java/lang/Object".toList).2
    ⟨"java/lang/Object".toList, by decide +kernel, .inl rfl⟩
  have h := initial_getMethodID (d := denyAll [.cls "Test".toList]) hc (st := false) (name := "m".toList)
    (sig := "()I".toList) (by decide) rfl (params := []) (ret := some (.prim .int)) (by simp)
    (by intro t h; cases h; trivial) rfl
  refine ⟨_, World.initial, _, c, ⟨World.initial.next, "m".toList, "()I".toList, false, none, none⟩,
    ⟨[], rfl⟩, .findClass "Test".toList (.getMethodID .refl hc h), ?_, ?_⟩
  · simp only [World.addMethod, setMem_mem, if_true]
    exact List.mem_append_right _ (List.mem_singleton.2 rfl)
  · exact List.not_mem_nil

/-- Sample: a rule against "Test" and a class outside of it. -/
example : MemReachable World.initial ∧
    (∀ k, Encloses k "Tes$t".toList → k ≠ "Tes$t".toList → (denyAll [.cls "Test".toList]).isClassDenied k = false) ∧
    (denyAll [.cls "Test".toList]).isClassDenied "Test".toList = true := by
  refine ⟨⟨[], rfl⟩, fun k h hk => ?_, by decide⟩
  by_cases e : k = "Test".toList
  · subst e
    rcases h with h | ⟨_, inner, h, _⟩
    · exact absurd h hk
    · exact absurd (congrArg (fun l => l[3]?) h) (by simp)
  · simpa [denyAll, DenyOp.run, Deny.denyClass, Deny.empty, Deny.isClassDenied] using e

/-- C44, null pointers. With a name and a signature the two models are the same.  A null signature
is treated like the empty one.  A null name is undefined behaviour, whatever the rules are, unless
the class already has a method with the empty name. -/
theorem baron_pointers (d : Deny) (depth : Nat) (st : Bool) (w : World) (cl : Option Nat) (n : Str)
    (s : Option Str) :
    d.getMethodIDPtr depth st w cl (some n) s = d.getMethodID depth st w cl n (s.getD []) ∧
      ∀ w1, w.getMethodID depth st true false cl [] (s.getD []) = .ok (w1, none) →
        d.getMethodIDPtr depth st w cl none s = .ub .nullDeref := by
  refine ⟨?_, ?_⟩
  · have h : ∀ c, d.isMethodDenied n (some (s.getD [])) c = d.isMethodDenied n s c := by
      intro c
      cases s with
      | none => simp only [Deny.isMethodDenied, deniedBy, Option.getD_none, Option.getD_some, ne_eq,
          not_true_eq_false, false_and, if_false]
      | some t => rfl
    simp only [Deny.getMethodIDPtr, Deny.getMethodID, Option.getD_some, h]
  · intro w1 h
    simp only [Deny.getMethodIDPtr, Option.getD_none, h, Res.bind]

/-- Without any rule a null name is undefined in a Baron VM, though a plain VM makes the method. -/
theorem baron_null_name : Deny.empty.getMethodIDPtr 1 false World.initial none none none = .ub .nullDeref ∧
    ∃ w, World.initial.getMethodID 1 false false false none [] [] = .ok (w, some 0) := by
  refine ⟨(baron_pointers _ _ _ _ _ [] none).2 World.initial rfl, ?_⟩
  have hd : declare World.initial.reg [] = .ok World.initial.reg := by
    unfold declare
    exact declareLoop_end _ []
  simp only [World.getMethodID, Bool.false_eq_true, if_false, hd, Res.bind]
  exact ⟨_, rfl⟩

end Jnivm
