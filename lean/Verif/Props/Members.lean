import Verif.Lemmas.MemberSample
import Verif.Props.Registry
import Verif.Spec.Members
/-!
Properties of member lookup (C10 at the level of GetMethodID/GetFieldID, C16, C17, C18, C19).
-/
namespace Jnivm
open Spec

/-! ### Helpers -/

theorem run_getMethodID {w w1 : World} {depth : Nat} {st rn nat : Bool} {cl : Option Nat} {name sig : Str}
    {r : Option Nat} (hnat : nat = true → rn = true)
    (h : w.getMethodID depth st rn nat cl name sig = .ok (w1, r)) :
    (MemOp.getMethodID depth st rn nat cl name sig).run w = .ok w1 := by
  have : (rn || nat) = rn := by cases nat <;> cases rn <;> simp_all
  simp only [MemOp.run, this, h]; rfl

theorem hits_iff {k : MethodKey} {m : MethodRec} : k.hits m = true ↔
    m.static = k.static ∧ m.native.isSome = k.native ∧ m.name = k.name ∧ m.signature = k.signature := by
  simp only [MethodKey.hits, Bool.and_eq_true, beq_iff_eq]
  constructor
  · rintro ⟨⟨⟨a, b⟩, c⟩, d⟩; exact ⟨a, b.symm, c, d⟩
  · rintro ⟨a, b, c, d⟩; exact ⟨⟨⟨a, b.symm⟩, c⟩, d⟩

theorem fhits_iff {k : FieldKey} {m : FieldRec} : k.hits m = true ↔
    m.static = k.static ∧ m.name = k.name ∧ m.type = k.type := by
  simp only [FieldKey.hits, Bool.and_eq_true, beq_iff_eq, and_assoc]

theorem ownMethod_some {w : World} {st nat : Bool} {name sig : Str} {d id : Nat}
    (h : w.ownMethod ⟨st, nat, name, sig⟩ d = some id) :
    ∃ m, w.Declares d st nat name sig m ∧ m.id = id := by
  unfold World.ownMethod at h
  rw [Option.map_eq_some_iff] at h
  obtain ⟨m, h1, h2⟩ := h
  exact ⟨m, ⟨List.mem_of_find?_eq_some h1, hits_iff.1 (List.find?_some h1)⟩, h2⟩

theorem ownMethod_none {w : World} {st nat : Bool} {name sig : Str} {d : Nat} :
    w.ownMethod ⟨st, nat, name, sig⟩ d = none ↔ ∀ m, ¬ w.Declares d st nat name sig m := by
  unfold World.ownMethod
  rw [Option.map_eq_none_iff, List.find?_eq_none]
  constructor
  · rintro h m ⟨h1, h2⟩; exact h m h1 (hits_iff.2 h2)
  · intro h m h1 h2; exact h m ⟨h1, hits_iff.1 h2⟩

theorem ownField_some {w : World} {st : Bool} {name type : Str} {d id : Nat}
    (h : w.ownField ⟨st, name, type⟩ d = some id) :
    ∃ m, w.DeclaresField d st name type m ∧ m.id = id := by
  unfold World.ownField at h
  rw [Option.map_eq_some_iff] at h
  obtain ⟨m, h1, h2⟩ := h
  exact ⟨m, ⟨List.mem_of_find?_eq_some h1, fhits_iff.1 (List.find?_some h1)⟩, h2⟩

theorem ownField_none {w : World} {st : Bool} {name type : Str} {d : Nat} :
    w.ownField ⟨st, name, type⟩ d = none ↔ ∀ m, ¬ w.DeclaresField d st name type m := by
  unfold World.ownField
  rw [Option.map_eq_none_iff, List.find?_eq_none]
  constructor
  · rintro h m ⟨h1, h2⟩; exact h m h1 (fhits_iff.2 h2)
  · intro h m h1 h2; exact h m ⟨h1, fhits_iff.1 h2⟩

theorem effKey_plain {n name : Str} {st : Bool} (h : name = "<init>".toList → st = true) (nat : Bool)
    (sig : Str) : effKey n st nat name sig = ⟨st, nat, name, sig⟩ := by
  unfold effKey
  rw [if_neg]
  rintro e
  simp only [Bool.and_eq_true, Bool.not_eq_true', beq_iff_eq] at e
  rw [h e.2] at e
  exact absurd e.1 (by decide)

theorem field_unique {w : World} (inv : MemInv w) {c d : Nat} {m m' : FieldRec}
    (h : m ∈ (w.mem c).fields) (h' : m' ∈ (w.mem d).fields) (hid : m.id = m'.id) : c = d ∧ m = m' := by
  have e := inv.fdisj c d m.core m'.core (List.mem_map_of_mem h) (List.mem_map_of_mem h') hid
  subst e
  refine ⟨rfl, ?_⟩
  have := inv.fnodup c
  have e2 : (w.fcores c).map (·.id) = (w.mem c).fields.map (·.id) := by
    unfold World.fcores; rw [List.map_map]; rfl
  rw [e2] at this
  exact nodup_map_inj this h h' hid

/-! ### C17 -/

/-- C17, denotation. An id returned by a lookup is the address of exactly one method; that method
has the requested name, signature, staticness and kind and is declared by the class or one of its
superclasses.  (`<init>` of an instance lookup is the subject of C18; native lookups only exist in
null mode.) -/
theorem lookup_denotes {w : World} (hr : MemReachable w) {n : Str} {c : Nat} (hc : w.IsClass n c)
    {depth : Nat} {st rn nat : Bool} {name sig : Str} (hname : name = "<init>".toList → st = true)
    (hnat : nat = true → rn = true) {w' : World} {id : Nat}
    (h : w.getMethodID depth st rn nat (some c) name sig = .ok (w', some id)) :
    ∃ d m, Super w'.bases c d ∧ w'.Declares d st nat name sig m ∧ m.id = id ∧
      ∀ d' m', m' ∈ (w'.mem d').methods → m'.id = id → d' = d ∧ m' = m := by
  have inv' : MemInv w' := (hr.step (op := .getMethodID depth st rn nat (some c) name sig)
    (run_getMethodID hnat h)).inv
  rw [getMethodID_isClass hr.inv hc, effKey_plain hname] at h
  have key : ∃ d m, Super w'.bases c d ∧ w'.Declares d st nat name sig m ∧ m.id = id := by
    rcases methodOf_ok h with ⟨e, hd, _⟩ | ⟨hrn, hd, e, reg, _, e2⟩
    · subst e
      obtain ⟨d, hs, ho⟩ := dfs_some hd
      obtain ⟨m, hm, hid⟩ := ownMethod_some ho
      exact ⟨d, m, hs, hm, hid⟩
    · have hnf : nat = false := by
        cases nat with
        | false => rfl
        | true => rw [hnat rfl] at hrn; cases hrn
      subst hnf
      cases e
      subst e2
      refine ⟨c, ⟨w.next, name, sig, st, none, none⟩, .refl c, ⟨?_, rfl, rfl, rfl, rfl⟩, rfl⟩
      simp [World.addMethod]
  obtain ⟨d, m, hs, hm, hid⟩ := key
  exact ⟨d, m, hs, hm, hid, fun d' m' hm' hid' => by
    have := method_unique inv' hm' hm.1 (by rw [hid', hid]); exact this⟩

/-- C17, own methods first. If the class itself declares such a method, the lookup returns one of
the class's own and changes nothing, whatever its superclasses declare. -/
theorem lookup_own_wins {w : World} (hr : MemReachable w) {n : Str} {c : Nat} (hc : w.IsClass n c)
    (depth : Nat) (st rn nat : Bool) (name sig : Str) (hname : name = "<init>".toList → st = true)
    (h : ∃ m, w.Declares c st nat name sig m) :
    ∃ m, w.Declares c st nat name sig m ∧
      w.getMethodID (depth + 1) st rn nat (some c) name sig = .ok (w, some m.id) := by
  rw [getMethodID_isClass hr.inv hc, effKey_plain hname]
  cases ho : w.ownMethod ⟨st, nat, name, sig⟩ c with
  | none => obtain ⟨m, hm⟩ := h; exact absurd hm (ownMethod_none.1 ho m)
  | some id =>
    obtain ⟨m, hm, rfl⟩ := ownMethod_some ho
    refine ⟨m, hm, ?_⟩
    unfold World.methodOf
    rw [dfs_own ho]; rfl

/-- C17, order. With enough stack for the hierarchy, a null-mode lookup returns the first method
declared along the depth-first order of the superclasses. -/
theorem lookup_order {w : World} (hr : MemReachable w) {n : Str} {c : Nat} (hc : w.IsClass n c)
    {order : List Nat} (ho : SearchOrder w.bases [some c] order) {depth : Nat}
    (hd : order.length ≤ depth) (st nat : Bool) (name sig : Str)
    (hname : name = "<init>".toList → st = true) :
    w.getMethodID depth st true nat (some c) name sig =
      .ok (w, order.findSome? fun d => ((w.mem d).methods.find? fun m =>
        decide (m.static = st ∧ m.native.isSome = nat ∧ m.name = name ∧ m.signature = sig)).map (·.id)) := by
  rw [getMethodID_isClass hr.inv hc, effKey_plain hname]
  unfold World.methodOf
  rw [dfs_searchOrder ho hd]
  have : (w.ownMethod ⟨st, nat, name, sig⟩) = (fun d => ((w.mem d).methods.find? fun m =>
      decide (m.static = st ∧ m.native.isSome = nat ∧ m.name = name ∧ m.signature = sig)).map (·.id)) := by
    funext d
    unfold World.ownMethod
    congr 2
    funext m
    rw [Bool.eq_iff_iff, hits_iff, decide_eq_true_iff]
  rw [this]
  cases order.findSome? _ <;> rfl

/-- Every acyclic hierarchy has such an order, so lookups in it terminate. -/
theorem lookup_order_exists (w : World) (h : Acyclic w.bases) (c : Nat) :
    ∃ order, SearchOrder w.bases [some c] order ∧ ∀ d, d ∈ order ↔ Super w.bases c d := by
  obtain ⟨l, hl⟩ := acyclic_searchOrder h c
  exact ⟨l, hl, fun d => by rw [searchOrder_mem hl]; simp⟩

/-- The order is unique. -/
theorem searchOrder_unique {bases : Nat → Option (List (Option Nat))} {cs : List (Option Nat)}
    {l l' : List Nat} (h : SearchOrder bases cs l) (h' : SearchOrder bases cs l') : l = l' := by
  induction h generalizing l' with
  | nil => cases h'; rfl
  | skip _ ih => cases h' with | skip h' => exact ih h'
  | visit _ _ ih1 ih2 => cases h' with | visit a b => rw [ih1 a, ih2 b]

/-- C17, null mode. A null-mode lookup changes nothing and returns null exactly when neither the
class nor any superclass declares such a method. -/
theorem lookup_null {w : World} (hr : MemReachable w) {n : Str} {c : Nat} (hc : w.IsClass n c)
    {depth : Nat} {st nat : Bool} {name sig : Str} (hname : name = "<init>".toList → st = true)
    {w' : World} {r : Option Nat}
    (h : w.getMethodID depth st true nat (some c) name sig = .ok (w', r)) :
    w' = w ∧ (r = none ↔ ∀ d, Super w.bases c d → ∀ m, ¬ w.Declares d st nat name sig m) := by
  rw [getMethodID_isClass hr.inv hc, effKey_plain hname] at h
  rcases methodOf_ok h with ⟨e, hd, _⟩ | ⟨hrn, _⟩
  · refine ⟨e, ?_⟩
    cases r with
    | none =>
      simp only [true_iff]
      intro d hs
      exact ownMethod_none.1 (dfs_none hd d hs)
    | some id =>
      simp only [reduceCtorEq, false_iff]
      intro hall
      obtain ⟨d, hs, ho⟩ := dfs_some hd
      obtain ⟨m, hm, _⟩ := ownMethod_some ho
      exact hall d hs m hm
  · cases hrn

/-- A cyclic hierarchy makes a failing lookup recurse for ever: no amount of stack is enough. -/
theorem lookup_cyclic_diverges {w : World} {n : Str} {c : Nat} (hr : MemReachable w) (hc : w.IsClass n c)
    (hcyc : w.bases c = some [some c]) (depth : Nat) (st rn nat : Bool) (name sig : Str)
    (hname : name = "<init>".toList → st = true) (hno : ∀ m, ¬ w.Declares c st nat name sig m) :
    w.getMethodID depth st rn nat (some c) name sig = .diverges := by
  rw [getMethodID_isClass hr.inv hc, effKey_plain hname]
  have ho := ownMethod_none.2 hno
  have : dfs w.bases (w.ownMethod ⟨st, nat, name, sig⟩) depth c = .diverges := by
    induction depth with
    | zero => rfl
    | succ d ih => unfold dfs; rw [ho, hcyc]; simp only [firstAnswer, ih]; rfl
  unfold World.methodOf
  rw [this]; rfl

/-- The hypotheses above are met: in the sample VM class "D" has two superclasses and every lookup
of it visits "D", "A", "B". -/
example : ∃ w d a b, MemReachable w ∧ w.IsClass "D".toList d ∧ SearchOrder w.bases [some d] [d, a, b] := by
  obtain ⟨w, a, b, d, hr, _, _, hd, _, _, _, ba, bb, bd, _⟩ := sample_multi
  refine ⟨w, d, a, b, hr, hd, .visit (up := [a, b]) (l := []) ?_ .nil⟩
  rw [bd]
  refine .visit (up := []) (l := [b]) ?_ (.visit (up := []) (l := []) ?_ .nil)
  · rw [ba]; exact .skip .nil
  · rw [bb]; exact .skip .nil

/-! ### C16 -/

/-- The operation (re)defines a non-native method with this staticness, name and signature, or
changes the class hierarchy. -/
def MemOp.Defines (st : Bool) (name sig : Str) : MemOp → Prop
  | .hookMethod _ s n g _ => s = st ∧ n = name ∧ g = sig
  | .registerNatives _ l => st = false ∧ ∃ e ∈ l, e.fnPtr = none ∧ e.name = name ∧ e.signature = sig
  | .bindType .. => True
  | _ => False

/-- No class has more than one direct superclass. -/
def SingleInheritance (w : World) : Prop := ∀ c bs, w.bases c = some bs → bs.length ≤ 1

theorem run_ownMethod_keep {k : MethodKey} {c id : Nat} {ops : List MemOp} : ∀ {w w' : World},
    runMem w ops = .ok w' → w.ownMethod k c = some id →
    (k.native = true → MemOp.unregisterNatives (some c) ∉ ops) → w'.ownMethod k c = some id := by
  induction ops with
  | nil => intro w w' h ho _; cases h; exact ho
  | cons op ops ih =>
    intro w w' h ho hn
    unfold runMem at h
    obtain ⟨w1, h1, h2⟩ := Res.bind_eq_ok.1 h
    refine ih h2 (step_ownMethod_keep h1 ho ?_) ?_
    · intro hk e; exact hn hk (by simp [e])
    · intro hk hm; exact hn hk (by simp [hm])

theorem run_ownField_keep {k : FieldKey} {c id : Nat} {ops : List MemOp} : ∀ {w w' : World},
    runMem w ops = .ok w' → w.ownField k c = some id → w'.ownField k c = some id := by
  induction ops with
  | nil => intro w w' h ho; cases h; exact ho
  | cons op ops ih =>
    intro w w' h ho
    unfold runMem at h
    obtain ⟨w1, h1, h2⟩ := Res.bind_eq_ok.1 h
    exact ih h2 (step_ownField_keep h1 ho)

/-- C16, own methods. If a lookup on a class returned one of the class's own methods (found or
just created), every later lookup returns the same id, after any history of lookups, hooks,
native registrations and hierarchy changes; only a native method can be lost, by
UnregisterNatives on its class.  Not covered: ids of inherited methods, see below. -/
theorem method_id_stable_own_partial {w : World} (hr : MemReachable w) {n : Str} {c : Nat}
    (hc : w.IsClass n c) {depth : Nat} {st rn nat : Bool} {name sig : Str}
    (hnat : nat = true → rn = true) {w1 : World} {id : Nat}
    (h : w.getMethodID depth st rn nat (some c) name sig = .ok (w1, some id))
    (hown : ∃ m ∈ (w1.mem c).methods, m.id = id)
    {ops : List MemOp} {w2 : World} (hops : runMem w1 ops = .ok w2)
    (hun : nat = true → MemOp.unregisterNatives (some c) ∉ ops) (depth' : Nat) (rn' : Bool) :
    w2.getMethodID (depth' + 1) st rn' nat (some c) name sig = .ok (w2, some id) := by
  have hrun : (MemOp.getMethodID depth st rn nat (some c) name sig).run w = .ok w1 := by
    exact run_getMethodID hnat h
  have inv1 := step_memInv hr.inv hrun
  have hc1 : w1.IsClass n c := isClass_step hr.inv hrun hc
  have inv2 := runMem_inv inv1 hops
  have hc2 := isClass_run inv1 hops hc1
  rw [getMethodID_isClass hr.inv hc] at h
  rw [getMethodID_isClass inv2 hc2]
  have hknat : (effKey n st nat name sig).native = nat := by unfold effKey; split <;> rfl
  have ho1 : w1.ownMethod (effKey n st nat name sig) c = some id := by
    rcases methodOf_ok h with ⟨e, hd, _⟩ | ⟨hrn, hd, e, reg, _, e2⟩
    · subst e
      obtain ⟨d, hs, ho⟩ := dfs_some hd
      obtain ⟨m, hm, hid⟩ := hown
      have ho' := ho
      unfold World.ownMethod at ho'
      rw [Option.map_eq_some_iff] at ho'
      obtain ⟨m', hm', hid'⟩ := ho'
      have := method_unique inv1 hm (List.mem_of_find?_eq_some hm') (by rw [hid, hid'])
      rw [this.1]; exact ho
    · cases e
      subst e2
      have hn := dfs_none hd c (.refl c)
      rw [ownMethod_cores] at hn ⊢
      rw [addMethod_cores, if_pos rfl, List.find?_append]
      rw [Option.map_eq_none_iff] at hn
      rw [hn]
      have hnf : (effKey n st nat name sig).native = false := by
        rw [hknat]
        cases nat with
        | false => rfl
        | true => rw [hnat rfl] at hrn; cases hrn
      have hh : (effKey n st nat name sig).hits (MethodRec.core ⟨w.next, (effKey n st nat name sig).name,
          (effKey n st nat name sig).signature, (effKey n st nat name sig).static, none, none⟩) = true :=
        hits_iff.2 ⟨rfl, by rw [hnf]; rfl, rfl, rfl⟩
      rw [List.find?_cons_of_pos hh]
      rfl
  have ho2 := run_ownMethod_keep hops ho1 (by rw [hknat]; exact hun)
  unfold World.methodOf
  rw [dfs_own ho2]; rfl

theorem step_stable_single {w w' : World} {op : MemOp} (hrun : op.run w = .ok w')
    (hs : SingleInheritance w) {st : Bool} {name sig : Str} (hdef : ¬ op.Defines st name sig) :
    ∀ {n c id : Nat}, dfs w.bases (w.ownMethod ⟨st, false, name, sig⟩) n c = .ok (some id) →
      dfs w'.bases (w'.ownMethod ⟨st, false, name, sig⟩) n c = .ok (some id) := by
  have hb : w'.bases = w.bases := by
    apply step_bases hrun
    rintro t m bs rfl
    exact hdef trivial
  rw [hb]
  intro n
  induction n with
  | zero => intro c id h; simp [dfs] at h
  | succ n ih =>
    intro c id h
    cases ho : w.ownMethod ⟨st, false, name, sig⟩ c with
    | some x =>
      have := step_ownMethod_keep hrun ho (by simp)
      unfold dfs at h ⊢
      rw [ho] at h
      rw [this]; exact h
    | none =>
      have ho' : w'.ownMethod ⟨st, false, name, sig⟩ c = none := by
        obtain ⟨c0, adds, h1, h2, h3, _, _⟩ := step_cores hrun
        rw [ownMethod_cores] at ho ⊢
        by_cases hc : c = c0
        · subst hc
          rcases h2 with e | ⟨e1, _, e⟩
          · rw [e, List.find?_append]
            rw [Option.map_eq_none_iff] at ho
            rw [ho, Option.none_or, Option.map_eq_none_iff, List.find?_eq_none]
            intro m hm hh
            have hor := (h3 m hm).2.2
            obtain ⟨g1, g2, g3, g4⟩ := hits_iff.1 hh
            simp only at g1 g2 g3 g4
            cases op with
            | getMethodID depth s rn nat cl nm sg =>
              cases cl with
              | none => exact hor
              | some d =>
                obtain ⟨_, hmn, hdf⟩ := hor
                rw [g1, g3, g4] at hdf
                obtain ⟨d', hsup, hod⟩ := dfs_some h
                rw [dfs_none hdf d' hsup] at hod
                cases hod
            | hookMethod d s nm sg fn =>
              obtain ⟨_, _, e1, e2, e3, _⟩ := hor
              exact hdef ⟨by rw [← e1, g1], by rw [← e2, g3], by rw [← e3, g4]⟩
            | registerNatives cl l =>
              cases cl with
              | none => exact hor
              | some d =>
                obtain ⟨_, e1, nn, hn, e2, e3, e4⟩ := hor
                refine hdef ⟨by rw [← g1, e1], nn, hn, ?_, by rw [← e2, g3], by rw [← e3, g4]⟩
                rw [← e4]
                cases hmn : m.native with
                | none => rfl
                | some x => rw [hmn] at g2; cases g2
            | _ => exact hor
          · rw [e, List.find?_filter]
            rw [Option.map_eq_none_iff, List.find?_eq_none] at ho
            rw [Option.map_eq_none_iff, List.find?_eq_none]
            intro m hm hh
            simp only [decide_eq_true_iff] at hh
            exact ho m hm hh.2
        · rw [h1 c hc]; exact ho
      unfold dfs at h ⊢
      rw [ho] at h
      rw [ho']
      cases hbc : w.bases c with
      | none => rw [hbc] at h; exact h
      | some bs =>
        rw [hbc] at h
        have hlen := hs c bs hbc
        cases bs with
        | nil => exact h
        | cons o bs =>
          have : bs = [] := by cases bs with
            | nil => rfl
            | cons _ _ => simp at hlen
          subst this
          cases o with
          | none => exact h
          | some b =>
            simp only [firstAnswer] at h ⊢
            obtain ⟨r, h1, h2⟩ := Res.bind_eq_ok.1 h
            cases r with
            | none => simp at h2
            | some x => simp at h2; subst h2; simp only [ih h1]; rfl

theorem run_stable_single {st : Bool} {name sig : Str} {ops : List MemOp} : ∀ {w w' : World},
    runMem w ops = .ok w' → SingleInheritance w → (∀ op ∈ ops, ¬ op.Defines st name sig) →
    ∀ {n c id : Nat}, dfs w.bases (w.ownMethod ⟨st, false, name, sig⟩) n c = .ok (some id) →
      dfs w'.bases (w'.ownMethod ⟨st, false, name, sig⟩) n c = .ok (some id) := by
  induction ops with
  | nil => intro w w' h _ _ n c id hd; cases h; exact hd
  | cons op ops ih =>
    intro w w' h hs hdef n c id hd
    unfold runMem at h
    obtain ⟨w1, h1, h2⟩ := Res.bind_eq_ok.1 h
    have hnd := hdef op (by simp)
    have hb : w1.bases = w.bases := by
      apply step_bases h1
      rintro t m bs rfl
      exact hnd trivial
    exact ih h2 (by unfold SingleInheritance; rw [hb]; exact hs) (fun o ho => hdef o (by simp [ho]))
      (step_stable_single h1 hs hnd hd)

/-- C16, inherited methods. With single inheritance, an id (own or inherited) stays the answer
after any history of lookups of any members on any classes, of hooks of other methods and of
native (un)registrations.  Not covered: multiple inheritance, hooks of the same method on a
subclass, changes of the hierarchy; the first two really change the id, see
`method_id_unstable_multiple_inheritance` and `method_id_unstable_hook`. -/
theorem method_id_stable_single_partial {w : World} (hr : MemReachable w) (hs : SingleInheritance w)
    {n : Str} {c : Nat} (hc : w.IsClass n c) {depth : Nat} {st rn : Bool} {name sig : Str}
    (hname : name = "<init>".toList → st = true) {w1 : World} {id : Nat}
    (h : w.getMethodID depth st rn false (some c) name sig = .ok (w1, some id))
    {ops : List MemOp} {w2 : World} (hops : runMem w1 ops = .ok w2)
    (hdef : ∀ op ∈ ops, ¬ op.Defines st name sig) {depth' : Nat} (hdep : depth ≤ depth') (rn' : Bool) :
    w2.getMethodID depth' st rn' false (some c) name sig = .ok (w2, some id) := by
  have hrun := run_getMethodID (rn := rn) (nat := false) (by simp) h
  have inv1 := step_memInv hr.inv hrun
  have hc1 : w1.IsClass n c := isClass_step hr.inv hrun hc
  have inv2 := runMem_inv inv1 hops
  have hc2 := isClass_run inv1 hops hc1
  have hb1 : w1.bases = w.bases := step_bases hrun (by simp)
  have hd1 : dfs w1.bases (w1.ownMethod ⟨st, false, name, sig⟩) depth c = .ok (some id) := by
    have h' := h
    rw [getMethodID_isClass hr.inv hc, effKey_plain hname] at h'
    rcases methodOf_ok h' with ⟨e, hd, _⟩ | ⟨_, hd, e, reg, _, e2⟩
    · subst e; exact hd
    · cases e
      have hdep : ∃ k, depth = k + 1 := by
        cases depth with
        | zero => simp [dfs] at hd
        | succ k => exact ⟨k, rfl⟩
      obtain ⟨k, rfl⟩ := hdep
      apply dfs_own
      have hn := dfs_none hd c (.refl c)
      rw [e2, ownMethod_cores, addMethod_cores, if_pos rfl, List.find?_append]
      rw [ownMethod_cores, Option.map_eq_none_iff] at hn
      rw [hn, List.find?_cons_of_pos (hits_iff.2 ⟨rfl, rfl, rfl, rfl⟩)]
      rfl
  have hd2 := run_stable_single hops (by unfold SingleInheritance; rw [hb1]; exact hs) hdef hd1
  rw [getMethodID_isClass inv2 hc2, effKey_plain hname]
  unfold World.methodOf
  rw [dfs_mono hdep hd2]; rfl

/-- The hypotheses are met by a class with an inherited method. -/
example : ∃ w a d id, MemReachable w ∧ SingleInheritance w ∧ w.IsClass "D".toList d ∧ a ≠ d ∧
    (∃ m ∈ (w.mem a).methods, m.id = id) ∧
    w.getMethodID 2 false false false (some d) "q".toList "()V".toList = .ok (w, some id) := by
  obtain ⟨w, a, d, hr, ha, hd, had, ba, bd, bo, hm⟩ := sample_single
  have hcore : ∀ c, w.cores c = [] := fun c => by simp [World.cores, hm c]
  have hA : w.getMethodID 1 false false false (some a) "q".toList "()V".toList =
      .ok (w.addMethod a ⟨w.next, "q".toList, "()V".toList, false, none, none⟩ w.reg, some w.next) := by
    rw [getMethodID_isClass hr.inv ha, effKey_plain (by decide)]
    unfold World.methodOf
    have : dfs w.bases (w.ownMethod ⟨false, false, "q".toList, "()V".toList⟩) 1 a = .ok none := by
      simp only [dfs, ownMethod_cores, hcore, ba]; rfl
    rw [this]
    simp only [Res.bind_ok, Bool.false_eq_true, if_false, World.createMethod, declare_unit]
    rfl
  have hrunA := run_getMethodID (nat := false) (rn := false) (by simp) hA
  refine ⟨_, a, d, w.next, hr.step hrunA, ?_, isClass_step hr.inv hrunA hd,
    had, ⟨⟨w.next, "q".toList, "()V".toList, false, none, none⟩, by simp [World.addMethod], rfl⟩, ?_⟩
  · intro c bs hb
    rw [addMethod_bases] at hb
    by_cases h1 : c = a
    · rw [h1, ba] at hb; cases hb; simp
    · by_cases h2 : c = d
      · rw [h2, bd] at hb; cases hb; simp
      · rw [bo c h1 h2] at hb; cases hb
  · rw [getMethodID_isClass (step_memInv hr.inv hrunA)
      (isClass_step hr.inv hrunA hd), effKey_plain (by decide)]
    unfold World.methodOf
    have : dfs (w.addMethod a ⟨w.next, "q".toList, "()V".toList, false, none, none⟩ w.reg).bases
        ((w.addMethod a ⟨w.next, "q".toList, "()V".toList, false, none, none⟩ w.reg).ownMethod
          ⟨false, false, "q".toList, "()V".toList⟩) 2 d = .ok (some w.next) := by
      simp only [dfs, ownMethod_cores, addMethod_cores, addMethod_bases, hcore, bd, if_neg had.symm,
        firstAnswer, if_true]
      rfl
    rw [this]; rfl

/-- C16 fails with multiple inheritance: class "D" extends "A" and "B", the method lives in "B".
Looking the method up on "A" (a different class) in between changes the id that "D" reports. -/
theorem method_id_unstable_multiple_inheritance : ∃ w a d id w1 id1,
    MemReachable w ∧ w.IsClass "A".toList a ∧ w.IsClass "D".toList d ∧
    w.getMethodID 3 false false false (some d) "q".toList "()V".toList = .ok (w, some id) ∧
    (MemOp.getMethodID 3 false false false (some a) "q".toList "()V".toList).run w = .ok w1 ∧
    w1.getMethodID 3 false false false (some d) "q".toList "()V".toList = .ok (w1, some id1) ∧
    id1 ≠ id := by
  obtain ⟨w0, a, b, d, hr, ha, hb, hd, hab, had, hbd, ba, bb, bd, hm⟩ := sample_multi
  have hcore : ∀ c, w0.cores c = [] := fun c => by simp [World.cores, hm c]
  generalize hk : (⟨false, false, "q".toList, "()V".toList⟩ : MethodKey) = k
  have hkey : ∀ n, effKey n false false "q".toList "()V".toList = k := fun n => by
    rw [effKey_plain (by decide)]; exact hk
  -- the method is created in B
  let m0 : MethodRec := ⟨w0.next, "q".toList, "()V".toList, false, none, none⟩
  let w := w0.addMethod b m0 w0.reg
  have hB : w0.getMethodID 3 false false false (some b) "q".toList "()V".toList = .ok (w, some w0.next) := by
    rw [getMethodID_isClass hr.inv hb, hkey]
    unfold World.methodOf
    have : dfs w0.bases (w0.ownMethod k) 3 b = .ok none := by
      simp only [dfs, ownMethod_cores, hcore, bb]; rfl
    rw [this]; subst hk
    simp only [Res.bind_ok, Bool.false_eq_true, if_false, World.createMethod, declare_unit]
    rfl
  have hrunB := run_getMethodID (nat := false) (rn := false) (by simp) hB
  have hr1 : MemReachable w := hr.step hrunB
  have ha1 : w.IsClass "A".toList a := isClass_step hr.inv hrunB ha
  have hd1 : w.IsClass "D".toList d := isClass_step hr.inv hrunB hd
  have hh : k.hits m0.core = true := by subst hk; exact hits_iff.2 ⟨rfl, rfl, rfl, rfl⟩
  have hcw : ∀ c, w.cores c = if c = b then [m0.core] else [] := fun c => by
    simp only [w, addMethod_cores, hcore]; rfl
  have hbw : w.bases = w0.bases := addMethod_bases ..
  -- then looked up on A
  let m1 : MethodRec := ⟨w0.next + 1, "q".toList, "()V".toList, false, none, none⟩
  let w1 := w.addMethod a m1 w0.reg
  have hA : w.getMethodID 3 false false false (some a) "q".toList "()V".toList = .ok (w1, some (w0.next + 1)) := by
    rw [getMethodID_isClass hr1.inv ha1, hkey]
    unfold World.methodOf
    have : dfs w.bases (w.ownMethod k) 3 a = .ok none := by
      simp only [dfs, ownMethod_cores, hcw, hbw, ba, if_neg hab]; rfl
    rw [this]; subst hk
    have : declare w.reg "()V".toList = .ok w0.reg := declare_unit _
    simp only [Res.bind_ok, Bool.false_eq_true, if_false, World.createMethod, this]
    rfl
  have hrunA := run_getMethodID (nat := false) (rn := false) (by simp) hA
  have hr2 : MemReachable w1 := hr1.step hrunA
  have hd2 : w1.IsClass "D".toList d := isClass_step hr1.inv hrunA hd1
  have hh1 : k.hits m1.core = true := by subst hk; exact hits_iff.2 ⟨rfl, rfl, rfl, rfl⟩
  have hcw1 : ∀ c, w1.cores c = if c = a then [m1.core] else w.cores c := fun c => by
    simp only [w1, addMethod_cores, hcw, if_neg hab]; rfl
  have hbw1 : w1.bases = w0.bases := (addMethod_bases ..).trans hbw
  refine ⟨w, a, d, w0.next, w1, w0.next + 1, hr1, ha1, hd1, ?_, hrunA, ?_, by omega⟩
  · rw [getMethodID_isClass hr1.inv hd1, hkey]
    unfold World.methodOf
    have : dfs w.bases (w.ownMethod k) 3 d = .ok (some w0.next) := by
      simp only [dfs, ownMethod_cores, hcw, hbw, bd, ba, bb, if_neg hab, if_neg hbd.symm, firstAnswer,
        if_true, List.find?_cons, hh]
      rfl
    rw [this]; rfl
  · rw [getMethodID_isClass hr2.inv hd2, hkey]
    unfold World.methodOf
    have : dfs w1.bases (w1.ownMethod k) 3 d = .ok (some (w0.next + 1)) := by
      simp only [dfs, ownMethod_cores, hcw1, hcw, hbw1, bd, if_neg hbd.symm, if_neg had.symm,
        firstAnswer, if_true, List.find?_cons, hh1]
      rfl
    rw [this]; rfl

/-- C16 fails across a hook on a subclass: the id of an inherited method changes when the method
is hooked on the subclass. -/
theorem method_id_unstable_hook {w : World} (hr : MemReachable w) {n : Str} {c : Nat}
    (hc : w.IsClass n c) {depth : Nat} {st : Bool} {name sig : Str}
    (hname : name = "<init>".toList → st = true) {id : Nat}
    (h : w.getMethodID depth st false false (some c) name sig = .ok (w, some id))
    (hinh : ∀ m ∈ (w.mem c).methods, ¬ (m.static = st ∧ m.name = name ∧ m.signature = sig)) (fn : Nat) :
    ∃ w1 id1, (MemOp.hookMethod c st name sig fn).run w = .ok w1 ∧
      w1.getMethodID (depth + 1) st false false (some c) name sig = .ok (w1, some id1) ∧ id1 ≠ id := by
  refine ⟨_, w.next, rfl, ?_, ?_⟩
  · have hrun : (MemOp.hookMethod c st name sig fn).run w = .ok (w.hookMethod c st name sig fn) := rfl
    rw [getMethodID_isClass (step_memInv hr.inv hrun)
      (isClass_step hr.inv hrun hc), effKey_plain hname]
    have hany : (w.cores c).any (hookHits st name sig) = false := by
      rw [any_hits_cores, List.any_eq_false]
      intro m hm hh
      simp only [hookHits, Bool.and_eq_true, beq_iff_eq] at hh
      exact hinh m hm ⟨hh.1.1, hh.1.2, hh.2⟩
    have ho : (w.hookMethod c st name sig fn).ownMethod ⟨st, false, name, sig⟩ c = some w.next := by
      rw [ownMethod_cores, hookMethod_cores, if_pos ⟨rfl, hany⟩, List.find?_append]
      have : (w.cores c).find? (MethodKey.hits ⟨st, false, name, sig⟩) = none := by
        rw [List.find?_eq_none]
        intro m hm hh
        obtain ⟨m', hm', rfl⟩ := List.mem_map.1 hm
        have := hits_iff.1 hh
        exact hinh m' hm' ⟨this.1, this.2.2.1, this.2.2.2⟩
      rw [this, List.find?_cons_of_pos (hits_iff.2 ⟨rfl, rfl, rfl, rfl⟩)]
      rfl
    unfold World.methodOf
    rw [dfs_own ho]; rfl
  · have h' := h
    rw [getMethodID_isClass hr.inv hc, effKey_plain hname] at h'
    have : ∃ d m, m ∈ w.cores d ∧ m.id = id := by
      rcases methodOf_ok h' with ⟨_, hd, _⟩ | ⟨_, _, e, reg, _, e2⟩
      · obtain ⟨d, _, ho⟩ := dfs_some hd
        rw [ownMethod_cores, Option.map_eq_some_iff] at ho
        obtain ⟨m, hm, hid⟩ := ho
        exact ⟨d, m, List.mem_of_find?_eq_some hm, hid⟩
      · exfalso
        have := congrArg World.next e2
        rw [addMethod_next] at this
        omega
    obtain ⟨d, m, hm, hid⟩ := this
    have := hr.inv.lt d m hm
    omega

/-! ### C18 -/

theorem cutAt_split {ch : Char} {a b : Str} (h : ch ∉ a) : cutAt ch (a ++ ch :: b) = (a, some b) := by
  induction a with
  | nil => simp [cutAt]
  | cons x a ih =>
    simp only [List.mem_cons, not_or] at h
    simp only [List.cons_append, cutAt, if_neg (Ne.symm h.1), ih h.2]

/-- `m` is a constructor of the class with path `s`: the static method `<init>` whose return type
is that class. -/
def ConstructorOf (s : Str) (m : MethodRec) : Prop :=
  m.static = true ∧ m.name = "<init>".toList ∧
    ∃ args, ')' ∉ args ∧ m.signature = args ++ ")L".toList ++ s ++ ";".toList

/-- C18, factories. Looking up the constructor `<init>` with arguments `args` on class `n` (with
whatever return type is written) is looking up the static method `<init>` returning `n`. -/
theorem constructor_is_static_factory {w : World} (hr : MemReachable w) {n : Str} {c : Nat}
    (hc : w.IsClass n c) (depth : Nat) (rn nat : Bool) (args ret : Str) (ha : ')' ∉ args) :
    w.getMethodID depth false rn nat (some c) "<init>".toList ("(".toList ++ args ++ ")".toList ++ ret) =
    w.getMethodID depth true rn nat (some c) "<init>".toList
      ("(".toList ++ args ++ ")L".toList ++ n ++ ";".toList) := by
  rw [getMethodID_isClass hr.inv hc, getMethodID_isClass hr.inv hc]
  congr 1
  unfold effKey
  rw [if_pos (by decide), if_neg (by decide)]
  unfold initSignature
  have : "(".toList ++ args ++ ")".toList ++ ret = ('(' :: args) ++ ')' :: ret := by
    simp
  rw [this, cutAt_split (by simp [ha])]
  simp

/-- C18, never a superclass constructor. The method a constructor lookup on class `n` returns is a
constructor of `n` and of no other class. -/
theorem constructor_not_inherited {w : World} (hr : MemReachable w) {n : Str} {c : Nat}
    (hc : w.IsClass n c) {depth : Nat} {rn : Bool} {args ret : Str} (ha : ')' ∉ args) {w' : World} {id : Nat}
    (h : w.getMethodID depth false rn false (some c) "<init>".toList
      ("(".toList ++ args ++ ")".toList ++ ret) = .ok (w', some id)) :
    ∃ d m, m ∈ (w'.mem d).methods ∧ m.id = id ∧ ConstructorOf n m ∧
      m.signature = "(".toList ++ args ++ ")L".toList ++ n ++ ";".toList ∧
      ∀ s, ConstructorOf s m → s = n := by
  rw [constructor_is_static_factory hr hc depth rn false args ret ha] at h
  obtain ⟨d, m, _, hm, hid, _⟩ := lookup_denotes hr hc (fun _ => rfl) (by simp) h
  obtain ⟨h1, h2, h3, h4, h5⟩ := hm
  refine ⟨d, m, h1, hid, ⟨h2, h4, "(".toList ++ args, by simp [ha], h5⟩, h5, ?_⟩
  rintro s ⟨_, _, args', ha', e⟩
  rw [h5] at e
  have e1 : "(".toList ++ args ++ ")L".toList ++ n ++ ";".toList =
      ('(' :: args) ++ ')' :: ('L' :: (n ++ [';'])) := by simp
  have e2 : args' ++ ")L".toList ++ s ++ ";".toList = args' ++ ')' :: ('L' :: (s ++ [';'])) := by simp
  rw [e1, e2] at e
  have := congrArg (cutAt ')') e
  rw [cutAt_split (by simp [ha]), cutAt_split ha'] at this
  simp only [Prod.mk.injEq, Option.some.injEq, List.cons.injEq, true_and, List.append_cancel_right_eq] at this
  exact this.2.symm

example : ∃ w n c w' id, MemReachable w ∧ w.IsClass n c ∧
    w.getMethodID 1 false false false (some c) "<init>".toList ("(".toList ++ "I".toList ++ ")".toList ++ "V".toList) =
      .ok (w', some id) := by
  obtain ⟨w, a, d, hr, ha, hd, had, ba, bd, bo, hm⟩ := sample_single
  have hcore : ∀ c, w.cores c = [] := fun c => by simp [World.cores, hm c]
  refine ⟨w, "A".toList, a, ?_⟩
  rw [getMethodID_isClass hr.inv ha]
  unfold World.methodOf
  have : dfs w.bases (w.ownMethod (effKey "A".toList false false "<init>".toList
      ("(".toList ++ "I".toList ++ ")".toList ++ "V".toList))) 1 a = .ok none := by
    simp only [dfs, ownMethod_cores, hcore, ba]; rfl
  rw [this]
  have hdec := declare_sig (params := [.prim .int]) (ret := some (.cls "A".toList)) (by decide)
    (by intro t ht; cases ht; decide) w.reg
  simp only [Res.bind_ok, Bool.false_eq_true, if_false, World.createMethod]
  rw [show (effKey "A".toList false false "<init>".toList
      ("(".toList ++ "I".toList ++ ")".toList ++ "V".toList)).signature =
      renderSig [.prim .int] (some (.cls "A".toList)) by decide, hdec]
  exact ⟨_, _, hr, ha, rfl⟩

/-! ### C19 -/

theorem getFieldID_isClass {w : World} (inv : MemInv w) {n : Str} {c : Nat} (h : w.IsClass n c)
    (depth : Nat) (st rn : Bool) (name type : Str) :
    w.getFieldID depth st rn (some c) name type =
      (dfs w.bases (w.ownField ⟨st, name, type⟩) depth c).bind fun
        | some id => .ok (w, some id)
        | none => if rn then .ok (w, none) else w.createField c ⟨st, name, type⟩ := by
  obtain ⟨cd, h1, _⟩ := isClass_record inv h
  simp only [World.getFieldID, h1]
  rfl

theorem run_getFieldID {w w1 : World} {depth : Nat} {st rn : Bool} {cl : Option Nat} {name type : Str}
    {r : Option Nat} (h : w.getFieldID depth st rn cl name type = .ok (w1, r)) :
    (MemOp.getFieldID depth st rn cl name type).run w = .ok w1 := by
  simp only [MemOp.run, h]; rfl

/-- C19, denotation. -/
theorem field_denotes {w : World} (hr : MemReachable w) {c : Nat}
    {depth : Nat} {st rn : Bool} {name type : Str} {w' : World} {id : Nat}
    (h : w.getFieldID depth st rn (some c) name type = .ok (w', some id)) :
    ∃ d f, Super w'.bases c d ∧ w'.DeclaresField d st name type f ∧ f.id = id ∧
      ∀ d' f', f' ∈ (w'.mem d').fields → f'.id = id → d' = d ∧ f' = f := by
  have inv' : MemInv w' := (hr.step (run_getFieldID h)).inv
  have key : ∃ d m, Super w'.bases c d ∧ w'.DeclaresField d st name type m ∧ m.id = id := by
    obtain ⟨c', cd, e0, _, ⟨e, hd, _⟩ | ⟨hrn, hd, e, reg, _, e2⟩⟩ := getFieldID_ok h
    · subst e; cases e0
      obtain ⟨d, hs, ho⟩ := dfs_some hd
      obtain ⟨m, hm, hid⟩ := ownField_some ho
      exact ⟨d, m, hs, hm, hid⟩
    · cases e; cases e0
      subst e2
      refine ⟨c, ⟨w.next, name, type, st, none, none⟩, .refl c, ⟨?_, rfl, rfl, rfl⟩, rfl⟩
      simp [World.addField]
  obtain ⟨d, m, hs, hm, hid⟩ := key
  exact ⟨d, m, hs, hm, hid, fun d' m' hm' hid' => by
    have := field_unique inv' hm' hm.1 (by rw [hid', hid]); exact this⟩

/-- C19, own fields first. -/
theorem field_own_wins {w : World} (hr : MemReachable w) {n : Str} {c : Nat} (hc : w.IsClass n c)
    (depth : Nat) (st rn : Bool) (name type : Str) (h : ∃ f, w.DeclaresField c st name type f) :
    ∃ f, w.DeclaresField c st name type f ∧
      w.getFieldID (depth + 1) st rn (some c) name type = .ok (w, some f.id) := by
  rw [getFieldID_isClass hr.inv hc]
  cases ho : w.ownField ⟨st, name, type⟩ c with
  | none => obtain ⟨m, hm⟩ := h; exact absurd hm (ownField_none.1 ho m)
  | some id =>
    obtain ⟨m, hm, rfl⟩ := ownField_some ho
    refine ⟨m, hm, ?_⟩
    rw [dfs_own ho]; rfl

/-- C19, order of the search through superclasses. -/
theorem field_order {w : World} (hr : MemReachable w) {n : Str} {c : Nat} (hc : w.IsClass n c)
    {order : List Nat} (ho : SearchOrder w.bases [some c] order) {depth : Nat}
    (hd : order.length ≤ depth) (st : Bool) (name type : Str) :
    w.getFieldID depth st true (some c) name type =
      .ok (w, order.findSome? fun d => ((w.mem d).fields.find? fun f =>
        decide (f.static = st ∧ f.name = name ∧ f.type = type)).map (·.id)) := by
  rw [getFieldID_isClass hr.inv hc]
  rw [dfs_searchOrder ho hd]
  have : (w.ownField ⟨st, name, type⟩) = (fun d => ((w.mem d).fields.find? fun f =>
      decide (f.static = st ∧ f.name = name ∧ f.type = type)).map (·.id)) := by
    funext d
    unfold World.ownField
    congr 2
    funext m
    rw [Bool.eq_iff_iff, fhits_iff, decide_eq_true_iff]
  rw [this]
  cases order.findSome? _ <;> rfl

/-- C19, null mode. -/
theorem field_null {w : World} {c : Nat}
    {depth : Nat} {st : Bool} {name type : Str} {w' : World} {r : Option Nat}
    (h : w.getFieldID depth st true (some c) name type = .ok (w', r)) :
    w' = w ∧ (r = none ↔ ∀ d, Super w.bases c d → ∀ f, ¬ w.DeclaresField d st name type f) := by
  obtain ⟨c', cd, e0, _, ⟨e, hd, _⟩ | ⟨hrn, _⟩⟩ := getFieldID_ok h
  · cases e0
    refine ⟨e, ?_⟩
    cases r with
    | none =>
      simp only [true_iff]
      intro d hs
      exact ownField_none.1 (dfs_none hd d hs)
    | some id =>
      simp only [reduceCtorEq, false_iff]
      intro hall
      obtain ⟨d, hs, ho⟩ := dfs_some hd
      obtain ⟨m, hm, _⟩ := ownField_some ho
      exact hall d hs m hm
  · cases hrn

/-- C19, stability of own fields: the same id after every history.  Not covered: ids of inherited
fields, see below. -/
theorem field_id_stable_own_partial {w : World} (hr : MemReachable w) {n : Str} {c : Nat}
    (hc : w.IsClass n c) {depth : Nat} {st rn : Bool} {name type : Str} {w1 : World} {id : Nat}
    (h : w.getFieldID depth st rn (some c) name type = .ok (w1, some id))
    (hown : ∃ f ∈ (w1.mem c).fields, f.id = id)
    {ops : List MemOp} {w2 : World} (hops : runMem w1 ops = .ok w2) (depth' : Nat) (rn' : Bool) :
    w2.getFieldID (depth' + 1) st rn' (some c) name type = .ok (w2, some id) := by
  have hrun := run_getFieldID h
  have inv1 := step_memInv hr.inv hrun
  have hc1 := isClass_step hr.inv hrun hc
  have inv2 := runMem_inv inv1 hops
  have hc2 := isClass_run inv1 hops hc1
  have ho1 : w1.ownField ⟨st, name, type⟩ c = some id := by
    obtain ⟨c', cd, e0, _, ⟨e, hd, _⟩ | ⟨hrn, hd, e, reg, _, e2⟩⟩ := getFieldID_ok h
    · subst e; cases e0
      obtain ⟨d, hs, ho⟩ := dfs_some hd
      obtain ⟨m, hm, hid⟩ := hown
      have ho' := ho
      unfold World.ownField at ho'
      rw [Option.map_eq_some_iff] at ho'
      obtain ⟨m', hm', hid'⟩ := ho'
      have := field_unique inv1 hm (List.mem_of_find?_eq_some hm') (by rw [hid, hid'])
      rw [this.1]; exact ho
    · cases e; cases e0
      subst e2
      have hn := dfs_none hd c (.refl c)
      rw [ownField_cores] at hn ⊢
      rw [addField_fcores, if_pos rfl, List.find?_append]
      rw [Option.map_eq_none_iff] at hn
      rw [hn, List.find?_cons_of_pos (fhits_iff.2 ⟨rfl, rfl, rfl⟩)]
      rfl
  have ho2 := run_ownField_keep hops ho1
  rw [getFieldID_isClass inv2 hc2, dfs_own ho2]; rfl

/-- The operation hooks a field with this staticness, name and type or changes the hierarchy. -/
def MemOp.DefinesField (st : Bool) (name type : Str) : MemOp → Prop
  | .hookField _ _ s n t _ => s = st ∧ n = name ∧ t = type
  | .bindType .. => True
  | _ => False

theorem step_field_stable_single {w w' : World} {op : MemOp} (hrun : op.run w = .ok w')
    (hs : SingleInheritance w) {st : Bool} {name type : Str} (hdef : ¬ op.DefinesField st name type) :
    ∀ {n c id : Nat}, dfs w.bases (w.ownField ⟨st, name, type⟩) n c = .ok (some id) →
      dfs w'.bases (w'.ownField ⟨st, name, type⟩) n c = .ok (some id) := by
  have hb : w'.bases = w.bases := by
    apply step_bases hrun
    rintro t m bs rfl
    exact hdef trivial
  rw [hb]
  intro n
  induction n with
  | zero => intro c id h; simp [dfs] at h
  | succ n ih =>
    intro c id h
    cases ho : w.ownField ⟨st, name, type⟩ c with
    | some x =>
      have := step_ownField_keep hrun ho
      unfold dfs at h ⊢
      rw [ho] at h
      rw [this]; exact h
    | none =>
      have ho' : w'.ownField ⟨st, name, type⟩ c = none := by
        obtain ⟨c0, adds, h1, e, h3, _⟩ := step_fcores hrun
        rw [ownField_cores] at ho ⊢
        by_cases hc : c = c0
        · subst hc
          rw [e, List.find?_append]
          rw [Option.map_eq_none_iff] at ho
          rw [ho, Option.none_or, Option.map_eq_none_iff, List.find?_eq_none]
          intro m hm hh
          have hor := (h3 m hm).2.2
          obtain ⟨g1, g3, g4⟩ := fhits_iff.1 hh
          simp only at g1 g3 g4
          cases op with
          | getFieldID depth s rn cl nm sg =>
            cases cl with
            | none => exact hor
            | some d =>
              obtain ⟨_, hdf⟩ := hor
              rw [g1, g3, g4] at hdf
              obtain ⟨d', hsup, hod⟩ := dfs_some h
              rw [dfs_none hdf d' hsup] at hod
              cases hod
          | hookField d g s nm sg fn =>
            obtain ⟨_, e1, e2, e3, _⟩ := hor
            exact hdef ⟨by rw [← e1, g1], by rw [← e2, g3], by rw [← e3, g4]⟩
          | _ => exact hor
        · rw [h1 c hc]; exact ho
      unfold dfs at h ⊢
      rw [ho] at h
      rw [ho']
      cases hbc : w.bases c with
      | none => rw [hbc] at h; exact h
      | some bs =>
        rw [hbc] at h
        have hlen := hs c bs hbc
        cases bs with
        | nil => exact h
        | cons o bs =>
          have : bs = [] := by cases bs with
            | nil => rfl
            | cons _ _ => simp at hlen
          subst this
          cases o with
          | none => exact h
          | some b =>
            simp only [firstAnswer] at h ⊢
            obtain ⟨r, h1, h2⟩ := Res.bind_eq_ok.1 h
            cases r with
            | none => simp at h2
            | some x => simp at h2; subst h2; simp only [ih h1]; rfl

theorem run_field_stable_single {st : Bool} {name type : Str} {ops : List MemOp} : ∀ {w w' : World},
    runMem w ops = .ok w' → SingleInheritance w → (∀ op ∈ ops, ¬ op.DefinesField st name type) →
    ∀ {n c id : Nat}, dfs w.bases (w.ownField ⟨st, name, type⟩) n c = .ok (some id) →
      dfs w'.bases (w'.ownField ⟨st, name, type⟩) n c = .ok (some id) := by
  induction ops with
  | nil => intro w w' h _ _ n c id hd; cases h; exact hd
  | cons op ops ih =>
    intro w w' h hs hdef n c id hd
    unfold runMem at h
    obtain ⟨w1, h1, h2⟩ := Res.bind_eq_ok.1 h
    have hnd := hdef op (by simp)
    have hb : w1.bases = w.bases := by
      apply step_bases h1
      rintro t m bs rfl
      exact hnd trivial
    exact ih h2 (by unfold SingleInheritance; rw [hb]; exact hs) (fun o ho => hdef o (by simp [ho]))
      (step_field_stable_single h1 hs hnd hd)

/-- C19, stability with single inheritance: own or inherited, the id stays the answer after any
history that neither hooks a field of this name, type and staticness nor changes the hierarchy. -/
theorem field_id_stable_single_partial {w : World} (hr : MemReachable w) (hs : SingleInheritance w)
    {n : Str} {c : Nat} (hc : w.IsClass n c) {depth : Nat} {st rn : Bool} {name type : Str}
    {w1 : World} {id : Nat} (h : w.getFieldID depth st rn (some c) name type = .ok (w1, some id))
    {ops : List MemOp} {w2 : World} (hops : runMem w1 ops = .ok w2)
    (hdef : ∀ op ∈ ops, ¬ op.DefinesField st name type) {depth' : Nat} (hdep : depth ≤ depth') (rn' : Bool) :
    w2.getFieldID depth' st rn' (some c) name type = .ok (w2, some id) := by
  have hrun := run_getFieldID h
  have inv1 := step_memInv hr.inv hrun
  have hc1 := isClass_step hr.inv hrun hc
  have inv2 := runMem_inv inv1 hops
  have hc2 := isClass_run inv1 hops hc1
  have hb1 : w1.bases = w.bases := step_bases hrun (by simp)
  have hd1 : dfs w1.bases (w1.ownField ⟨st, name, type⟩) depth c = .ok (some id) := by
    obtain ⟨c', cd, e0, _, ⟨e, hd, _⟩ | ⟨_, hd, e, reg, _, e2⟩⟩ := getFieldID_ok h
    · subst e; cases e0; exact hd
    · cases e; cases e0
      have hdep : ∃ k, depth = k + 1 := by
        cases depth with
        | zero => simp [dfs] at hd
        | succ k => exact ⟨k, rfl⟩
      obtain ⟨k, rfl⟩ := hdep
      apply dfs_own
      have hn := dfs_none hd c (.refl c)
      rw [e2, ownField_cores, addField_fcores, if_pos rfl, List.find?_append]
      rw [ownField_cores, Option.map_eq_none_iff] at hn
      rw [hn, List.find?_cons_of_pos (fhits_iff.2 ⟨rfl, rfl, rfl⟩)]
      rfl
  have hd2 := run_field_stable_single hops (by unfold SingleInheritance; rw [hb1]; exact hs) hdef hd1
  rw [getFieldID_isClass inv2 hc2, dfs_mono hdep hd2]; rfl

/-- The hypotheses are met: "D" inherits the field "x" of "A". -/
example : ∃ w d id, MemReachable w ∧ SingleInheritance w ∧ w.IsClass "D".toList d ∧
    (∀ f ∈ (w.mem d).fields, f.id ≠ id) ∧
    w.getFieldID 2 false false (some d) "x".toList "I".toList = .ok (w, some id) := by
  obtain ⟨w, a, d, hr, ha, hd, had, ba, bd, bo, hm⟩ := sample_single
  have hcore : ∀ c, w.fcores c = [] := fun c => by simp [World.fcores, hm c]
  have hA : w.getFieldID 1 false false (some a) "x".toList "I".toList =
      .ok (w.addField a ⟨w.next, "x".toList, "I".toList, false, none, none⟩ w.reg, some w.next) := by
    rw [getFieldID_isClass hr.inv ha]
    have : dfs w.bases (w.ownField ⟨false, "x".toList, "I".toList⟩) 1 a = .ok none := by
      simp only [dfs, ownField_cores, hcore, ba]; rfl
    rw [this]
    simp only [Res.bind_ok, Bool.false_eq_true, if_false, World.createField, declare_int]
    rfl
  have hrunA := run_getFieldID hA
  refine ⟨_, d, w.next, hr.step hrunA, ?_, isClass_step hr.inv hrunA hd, ?_, ?_⟩
  · intro c bs hb
    rw [addField_bases] at hb
    by_cases h1 : c = a
    · rw [h1, ba] at hb; cases hb; simp
    · by_cases h2 : c = d
      · rw [h2, bd] at hb; cases hb; simp
      · rw [bo c h1 h2] at hb; cases hb
  · intro f hf
    have : ((w.addField a ⟨w.next, "x".toList, "I".toList, false, none, none⟩ w.reg).mem d).fields = [] := by
      simp only [World.addField, setMem_mem, if_neg had.symm, hm d]
    rw [this] at hf
    cases hf
  · rw [getFieldID_isClass (step_memInv hr.inv hrunA) (isClass_step hr.inv hrunA hd)]
    have : dfs (w.addField a ⟨w.next, "x".toList, "I".toList, false, none, none⟩ w.reg).bases
        ((w.addField a ⟨w.next, "x".toList, "I".toList, false, none, none⟩ w.reg).ownField
          ⟨false, "x".toList, "I".toList⟩) 2 d = .ok (some w.next) := by
      simp only [dfs, ownField_cores, addField_fcores, addField_bases, hcore, bd, if_neg had.symm,
        firstAnswer, if_true]
      rfl
    rw [this]; rfl

/-- C19 fails with multiple inheritance, in the same way as C16. -/
theorem field_id_unstable_multiple_inheritance : ∃ w a d id w1 id1,
    MemReachable w ∧ w.IsClass "A".toList a ∧ w.IsClass "D".toList d ∧
    w.getFieldID 3 false false (some d) "x".toList "I".toList = .ok (w, some id) ∧
    (MemOp.getFieldID 3 false false (some a) "x".toList "I".toList).run w = .ok w1 ∧
    w1.getFieldID 3 false false (some d) "x".toList "I".toList = .ok (w1, some id1) ∧
    id1 ≠ id := by
  obtain ⟨w0, a, b, d, hr, ha, hb, hd, hab, had, hbd, ba, bb, bd, hm⟩ := sample_multi
  have hcore : ∀ c, w0.fcores c = [] := fun c => by simp [World.fcores, hm c]
  let m0 : FieldRec := ⟨w0.next, "x".toList, "I".toList, false, none, none⟩
  let w := w0.addField b m0 w0.reg
  have hB : w0.getFieldID 3 false false (some b) "x".toList "I".toList = .ok (w, some w0.next) := by
    rw [getFieldID_isClass hr.inv hb]
    have : dfs w0.bases (w0.ownField ⟨false, "x".toList, "I".toList⟩) 3 b = .ok none := by
      simp only [dfs, ownField_cores, hcore, bb]; rfl
    rw [this]
    simp only [Res.bind_ok, Bool.false_eq_true, if_false, World.createField, declare_int]
    rfl
  have hrunB := run_getFieldID hB
  have hr1 : MemReachable w := hr.step hrunB
  have ha1 : w.IsClass "A".toList a := isClass_step hr.inv hrunB ha
  have hd1 : w.IsClass "D".toList d := isClass_step hr.inv hrunB hd
  have hcw : ∀ c, w.fcores c = if c = b then [m0.core] else [] := fun c => by
    simp only [w, addField_fcores, hcore]; rfl
  have hbw : w.bases = w0.bases := addField_bases ..
  let m1 : FieldRec := ⟨w0.next + 1, "x".toList, "I".toList, false, none, none⟩
  let w1 := w.addField a m1 w0.reg
  have hA : w.getFieldID 3 false false (some a) "x".toList "I".toList = .ok (w1, some (w0.next + 1)) := by
    rw [getFieldID_isClass hr1.inv ha1]
    have : dfs w.bases (w.ownField ⟨false, "x".toList, "I".toList⟩) 3 a = .ok none := by
      simp only [dfs, ownField_cores, hcw, hbw, ba, if_neg hab]; rfl
    rw [this]
    have : declare w.reg "I".toList = .ok w0.reg := declare_int _
    simp only [Res.bind_ok, Bool.false_eq_true, if_false, World.createField, this]
    rfl
  have hrunA := run_getFieldID hA
  have hr2 : MemReachable w1 := hr1.step hrunA
  have hd2 : w1.IsClass "D".toList d := isClass_step hr1.inv hrunA hd1
  have hcw1 : ∀ c, w1.fcores c = if c = a then [m1.core] else w.fcores c := fun c => by
    simp only [w1, addField_fcores, hcw, if_neg hab]; rfl
  have hbw1 : w1.bases = w0.bases := (addField_bases ..).trans hbw
  refine ⟨w, a, d, w0.next, w1, w0.next + 1, hr1, ha1, hd1, ?_, hrunA, ?_, by omega⟩
  · rw [getFieldID_isClass hr1.inv hd1]
    have : dfs w.bases (w.ownField ⟨false, "x".toList, "I".toList⟩) 3 d = .ok (some w0.next) := by
      simp only [dfs, ownField_cores, hcw, hbw, bd, ba, bb, if_neg hab, if_neg hbd.symm, firstAnswer, if_true]
      rfl
    rw [this]; rfl
  · rw [getFieldID_isClass hr2.inv hd2]
    have : dfs w1.bases (w1.ownField ⟨false, "x".toList, "I".toList⟩) 3 d = .ok (some (w0.next + 1)) := by
      simp only [dfs, ownField_cores, hcw1, hcw, hbw1, bd, if_neg hbd.symm, if_neg had.symm, firstAnswer, if_true]
      rfl
    rw [this]; rfl

/-- `GetFieldID` on a null class dereferences it. -/
theorem field_null_class_ub (w : World) (depth : Nat) (st rn : Bool) (name type : Str) :
    w.getFieldID depth st rn none name type = .ub .nullDeref := rfl

/-! ### C10 (member lookups) -/

/-- Names for which `FindClass` in null mode finds a class. -/
def World.Exists (w : World) (m : Str) : Prop := ∃ c, w.IsClass m c

theorem exists_iff {w : World} {m : Str} : w.Exists m ↔ (findClass true w.reg m).2.isSome := by
  unfold World.Exists World.IsClass
  exact Option.isSome_iff_exists.symm

/-- C10. If a method lookup creates a method with a well-formed signature, exactly the classes
named in the signature and their enclosing classes exist in addition, and every class that existed
is still the answer for its name. If the method is found, nothing is created. -/
theorem lookup_declares {w : World} (hr : MemReachable w) {n : Str} {c : Nat} (hc : w.IsClass n c)
    {depth : Nat} {st : Bool} {name : Str} (hname : name = "<init>".toList → st = true)
    (params : List Ty) (ret : Option Ty) (hp : ∀ t ∈ params, t.Valid) (hv : ∀ t, ret = some t → t.Valid)
    {r : Option Nat} (hq : w.getMethodID depth st true false (some c) name (renderSig params ret) = .ok (w, r)) :
    ∃ w' id, w.getMethodID depth st false false (some c) name (renderSig params ret) = .ok (w', some id) ∧
      (∀ m d, w.IsClass m d → w'.IsClass m d) ∧
      (∀ m, w'.Exists m ↔ w.Exists m ∨
        (r = none ∧ ∃ s ∈ sigClassNames params ret, Encloses m s)) := by
  rw [getMethodID_isClass hr.inv hc, effKey_plain hname] at hq ⊢
  unfold World.methodOf at hq ⊢
  cases hd : dfs w.bases (w.ownMethod ⟨st, false, name, renderSig params ret⟩) depth c with
  | ok o =>
    rw [hd] at hq
    cases o with
    | some id =>
      simp only [Res.bind_ok, Res.ok.injEq, Prod.mk.injEq, true_and] at hq
      subst hq
      exact ⟨w, id, rfl, fun _ _ h => h, fun m => by simp⟩
    | none =>
      simp only [Res.bind_ok, Res.ok.injEq, Prod.mk.injEq, true_and, if_true] at hq
      subst hq
      have hs := createAll_spec (sigClassNames params ret) hr.inv.reg
      simp only [Res.bind_ok, Bool.false_eq_true, if_false, World.createMethod, declare_sig hp hv]
      refine ⟨_, _, rfl, ?_, ?_⟩
      · intro m d h
        unfold World.IsClass at h ⊢
        simp only
        rw [findClass_find hs.1]
        rw [findClass_find hr.inv.reg] at h
        exact hs.2.1 m d h
      · intro m
        rw [exists_iff, exists_iff]
        simp only
        rw [findClass_find hs.1, findClass_find hr.inv.reg]
        simpa using hs.2.2 m
  | throws e => rw [hd] at hq; cases hq
  | ub u => rw [hd] at hq; cases hq
  | diverges => rw [hd] at hq; cases hq

/-- C10 for fields. -/
theorem field_lookup_declares {w : World} (hr : MemReachable w) {n : Str} {c : Nat} (hc : w.IsClass n c)
    {depth : Nat} {st : Bool} {name : Str} (t : Ty) (hv : t.Valid)
    {r : Option Nat} (hq : w.getFieldID depth st true (some c) name t.render = .ok (w, r)) :
    ∃ w' id, w.getFieldID depth st false (some c) name t.render = .ok (w', some id) ∧
      (∀ m d, w.IsClass m d → w'.IsClass m d) ∧
      (∀ m, w'.Exists m ↔ w.Exists m ∨ (r = none ∧ ∃ s ∈ t.classNames, Encloses m s)) := by
  rw [getFieldID_isClass hr.inv hc] at hq ⊢
  cases hd : dfs w.bases (w.ownField ⟨st, name, t.render⟩) depth c with
  | ok o =>
    rw [hd] at hq
    cases o with
    | some id =>
      simp only [Res.bind_ok, Res.ok.injEq, Prod.mk.injEq, true_and] at hq
      subst hq
      exact ⟨w, id, rfl, fun _ _ h => h, fun m => by simp⟩
    | none =>
      simp only [Res.bind_ok, Res.ok.injEq, Prod.mk.injEq, true_and, if_true] at hq
      subst hq
      have hs := createAll_spec t.classNames hr.inv.reg
      simp only [Res.bind_ok, Bool.false_eq_true, if_false, World.createField, declare_ty hv]
      refine ⟨_, _, rfl, ?_, ?_⟩
      · intro m d h
        unfold World.IsClass at h ⊢
        simp only
        rw [findClass_find hs.1]
        rw [findClass_find hr.inv.reg] at h
        exact hs.2.1 m d h
      · intro m
        rw [exists_iff, exists_iff]
        simp only
        rw [findClass_find hs.1, findClass_find hr.inv.reg]
        simpa using hs.2.2 m
  | throws e => rw [hd] at hq; cases hq
  | ub u => rw [hd] at hq; cases hq
  | diverges => rw [hd] at hq; cases hq

/-- The hypotheses are met: the method is missing in a fresh class. -/
example : ∃ w a, MemReachable w ∧ w.IsClass "A".toList a ∧
    w.getMethodID 1 false true false (some a) "q".toList
      (renderSig [.arr (.cls "x/Y$Z".toList)] none) = .ok (w, none) := by
  obtain ⟨w, a, d, hr, ha, hd, had, ba, bd, bo, hm⟩ := sample_single
  have hcore : ∀ c, w.cores c = [] := fun c => by simp [World.cores, hm c]
  refine ⟨w, a, hr, ha, ?_⟩
  rw [getMethodID_isClass hr.inv ha, effKey_plain (by decide)]
  unfold World.methodOf
  have : dfs w.bases (w.ownMethod ⟨false, false, "q".toList, renderSig [.arr (.cls "x/Y$Z".toList)] none⟩) 1 a =
      .ok none := by
    simp only [dfs, ownMethod_cores, hcore, ba]; rfl
  rw [this]; rfl

end Jnivm
