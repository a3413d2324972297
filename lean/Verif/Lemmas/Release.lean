import Verif.Lemmas.Declare
import Verif.Model.Release
import Verif.Spec.Release
/-! The builds with and without `JNI_DEBUG` side by side. -/
namespace Jnivm
open Spec

/-! ### Outcomes side by side -/

/-- `x` and `y` end in the same way, with values related by `R`; or `x` reads out of bounds, for
which `bad` must hold. -/
inductive ResRel {α β : Type} (R : α → β → Prop) (bad : Prop) : Res α → Res β → Prop where
  | ok {a b} : R a b → ResRel R bad (.ok a) (.ok b)
  | throws {e} : ResRel R bad (.throws e) (.throws e)
  | ub {u} : ResRel R bad (.ub u) (.ub u)
  | diverges : ResRel R bad .diverges .diverges
  | bad {y} : bad → ResRel R bad (.ub .outOfBounds) y

theorem ResRel.bind {α β α' β' : Type} {R : α → β → Prop} {S : α' → β' → Prop} {bad : Prop}
    {x : Res α} {y : Res β} {f : α → Res α'} {g : β → Res β'} (h : ResRel R bad x y)
    (hfg : ∀ a b, R a b → ResRel S bad (f a) (g b)) : ResRel S bad (x.bind f) (y.bind g) := by
  cases h with
  | ok hr => exact hfg _ _ hr
  | throws => exact .throws
  | ub => exact .ub
  | diverges => exact .diverges
  | bad hb => exact .bad hb

theorem ResRel.mono {α β : Type} {R : α → β → Prop} {bad bad' : Prop} {x : Res α} {y : Res β}
    (h : ResRel R bad x y) (hb : bad → bad') : ResRel R bad' x y := by
  cases h with
  | ok hr => exact .ok hr
  | throws => exact .throws
  | ub => exact .ub
  | diverges => exact .diverges
  | bad h => exact .bad (hb h)

theorem ResRel.refl {α : Type} {bad : Prop} (x : Res α) : ResRel Eq bad x x := by
  cases x with
  | ok a => exact .ok rfl
  | throws e => exact .throws
  | ub u => exact .ub
  | diverges => exact .diverges

/-! ### `Declare` -/

theorem declareLoop_open (r : Registry) (pre name : Str) (hn : ';' ∉ name) :
    declareLoop r (pre ++ 'L' :: name) pre.length = .ub .outOfBounds := by
  rw [declareLoop, if_neg (by simp)]
  have hu := chAt_append pre 'L' name
  have hf : findFrom (pre ++ 'L' :: name) pre.length ';' = (pre ++ 'L' :: name).length := by
    have h1 := findFrom_le (s := pre ++ 'L' :: name) (cur := pre.length) ';' (by simp)
    have h2 := findFrom_lt_iff (s := pre ++ 'L' :: name) (cur := pre.length) ';' (by simp)
    rw [List.drop_left] at h2
    have : ¬ (findFrom (pre ++ 'L' :: name) pre.length ';' < (pre ++ 'L' :: name).length) := by
      rw [h2]; simp [hn]
    omega
  split
  · rename_i d hd
    rw [hu] at hd; cases hd
    rw [if_pos rfl, hf, declareLoop, if_neg (by omega)]
    have hu2 : chAt (pre ++ 'L' :: name) ((pre ++ 'L' :: name).length + 1) = .ub .outOfBounds := by
      unfold chAt
      rw [dif_neg (by omega), if_neg (by omega)]
    split
    · rename_i d hd; rw [hu2] at hd; cases hd
    · rename_i d hd; rw [hu2] at hd; cases hd
    · rename_i d hd; rw [hu2] at hd; cases hd; rfl
    · rename_i hd; rw [hu2] at hd; cases hd
  all_goals (rename_i hd; rw [hu] at hd; cases hd)

theorem split_at {t : Str} {ch : Char} (h : ch ∈ t) : ∃ a b, t = a ++ ch :: b ∧ ch ∉ a := by
  induction t with
  | nil => cases h
  | cons c t ih =>
    by_cases hc : c = ch
    · exact ⟨[], t, by simp [hc], by simp⟩
    · have : ch ∈ t := by
        rcases List.mem_cons.1 h with h | h
        · exact absurd h.symm hc
        · exact h
      obtain ⟨a, b, e, hn⟩ := ih this
      exact ⟨c :: a, b, by simp [e], by simp [hn, Ne.symm hc]⟩

/-- `Declare` gets through a text exactly if it is closed; otherwise it reads past the end. -/
theorem declareLoop_closed (n : Nat) : ∀ (r : Registry) (pre post : Str), post.length = n →
    (Closed post ∧ ∃ r', declareLoop r (pre ++ post) pre.length = .ok r') ∨
      (¬ Closed post ∧ declareLoop r (pre ++ post) pre.length = .ub .outOfBounds) := by
  induction n using Nat.strongRecOn with
  | ind n ih =>
    intro r pre post hlen
    cases post with
    | nil =>
      refine .inl ⟨.nil, r, ?_⟩
      rw [List.append_nil]; exact declareLoop_end r pre
    | cons c t =>
      by_cases hc : c = 'L'
      · subst hc
        by_cases ht : ';' ∈ t
        · obtain ⟨a, b, rfl, ha⟩ := split_at ht
          rw [declareLoop_cls r pre a b ha]
          have := ih b.length (by rw [← hlen]; simp; omega) (findClass false r a).1
            (pre ++ 'L' :: (a ++ [';'])) b rfl
          simp only [List.append_assoc, List.cons_append, List.nil_append, List.length_append,
            List.length_cons, List.length_nil] at this
          rw [show pre.length + (a.length + (0 + 1) + 1) = pre.length + a.length + 2 by omega] at this
          rcases this with ⟨h1, h2⟩ | ⟨h1, h2⟩
          · exact .inl ⟨.cls ha h1, h2⟩
          · refine .inr ⟨?_, h2⟩
            intro hcl
            generalize he : 'L' :: (a ++ ';' :: b) = s at hcl
            cases hcl with
            | nil => cases he
            | other hne _ => cases he; exact hne rfl
            | @cls name s hn hs =>
              simp only [List.cons.injEq, true_and] at he
              have h3 := cutAt_append (t := b) ha
              have h4 := cutAt_append (t := s) hn
              rw [he, h4] at h3
              simp only [Prod.mk.injEq, Option.some.injEq] at h3
              exact h1 (h3.2 ▸ hs)
        · refine .inr ⟨?_, declareLoop_open r pre t ht⟩
          intro hcl
          cases hcl with
          | other hne _ => exact hne rfl
          | cls hn hs => exact ht (by simp)
      · rw [declareLoop_other r pre t hc]
        have := ih t.length (by rw [← hlen]; simp) r (pre ++ [c]) t rfl
        simp only [List.append_assoc, List.cons_append, List.nil_append, List.length_append,
          List.length_cons, List.length_nil, Nat.zero_add] at this
        rcases this with ⟨h1, h2⟩ | ⟨h1, h2⟩
        · exact .inl ⟨.other hc h1, h2⟩
        · refine .inr ⟨?_, h2⟩
          intro hcl
          cases hcl with
          | other _ hs => exact h1 hs
          | cls _ _ => exact hc rfl

theorem declare_closed (r : Registry) (s : Str) :
    (Closed s ∧ ∃ r', declare r s = .ok r') ∨ (¬ Closed s ∧ declare r s = .ub .outOfBounds) :=
  declareLoop_closed _ r [] s rfl

/-- Cutting a closed text and appending a class name gives a closed text. -/
theorem closed_cut {s : Str} (hs : Closed s) : ∀ (p q n : Str), s = p ++ q → ';' ∉ n →
    Closed (p ++ 'L' :: (n ++ [';'])) := by
  induction hs with
  | nil =>
    intro p q n h hn
    obtain ⟨rfl, _⟩ := List.append_eq_nil_iff.1 h.symm
    exact .cls hn .nil
  | @other c s hc _ ih =>
    intro p q n h hn
    cases p with
    | nil => exact .cls hn .nil
    | cons d p =>
      simp only [List.cons_append, List.cons.injEq] at h
      obtain ⟨rfl, h⟩ := h
      exact .other hc (ih p q n h hn)
  | @cls name s hname _ ih =>
    intro p q n h hn
    cases p with
    | nil => exact .cls hn .nil
    | cons d p =>
      simp only [List.cons_append, List.cons.injEq] at h
      obtain ⟨rfl, h⟩ := h
      rcases List.append_eq_append_iff.1 h with ⟨w, h1, h2⟩ | ⟨w, h1, h2⟩
      · cases w with
        | nil =>
          have := Closed.cls (name := p ++ 'L' :: n) (s := [])
            (by simp only [List.append_nil] at h1; subst h1; simp [hname, hn]) .nil
          simpa using this
        | cons e w =>
          simp only [List.cons_append, List.cons.injEq] at h2
          obtain ⟨rfl, h2⟩ := h2
          have := Closed.cls hname (ih w q n h2 hn)
          rw [h1]
          simpa using this
      · have := Closed.cls (name := p ++ 'L' :: n) (s := [])
          (by rw [h1] at hname; simp only [List.mem_append, not_or] at hname; simp [hname.1, hn]) .nil
        simpa using this

theorem closed_init {sig n : Str} (hs : Closed sig) (hn : ';' ∉ n) : Closed (initSignature n sig) := by
  unfold initSignature
  cases hc : cutAt ')' sig with
  | mk a o =>
    cases o with
    | none => simpa using Closed.cls (s := []) hn .nil
    | some t =>
      have := cutAt_some (s := sig) (t := t) (ch := ')') (by rw [hc])
      rw [hc] at this
      have h := closed_cut hs (a ++ [')']) t n (by simpa using this.1) hn
      simpa using h

/-! ### The registry without namespaces -/

/-- The classes in the map of the build without `JNI_DEBUG` report their name. -/
def FlatInv (r : Registry) : Prop :=
  ∀ n c, r.byName.lookup n = some c → ∃ cd : ClassNode, r.cls[c]? = some cd ∧ cd.nativeprefix = n ∧
    cd.name = afterLastSlash n

theorem FlatInv.inj {r : Registry} (h : FlatInv r) {n m : Str} {c : Nat}
    (hn : r.byName.lookup n = some c) (hm : r.byName.lookup m = some c) : n = m := by
  obtain ⟨d, e1, p1, _⟩ := h n c hn
  obtain ⟨d', e2, p2, _⟩ := h m c hm
  rw [e1] at e2; cases e2
  rw [← p1, ← p2]

theorem RegInv.inj {r : Registry} (h : RegInv r) {n m : Str} {c : Nat}
    (hn : r.byName.lookup n = some c) (hm : r.byName.lookup m = some c) : n = m := by
  obtain ⟨d, e1, p1, _⟩ := lookup_record h hn
  obtain ⟨d', e2, p2, _⟩ := lookup_record h hm
  rw [e1] at e2; cases e2
  rw [← p1, ← p2]

theorem findClassR_find (r : Registry) (n : Str) : findClassR true r n = (r, r.byName.lookup n) := by
  unfold findClassR
  cases h : r.byName.lookup n <;> simp

theorem findClassR_create {r : Registry} (inv : FlatInv r) (n : Str) :
    ∃ r' c, findClassR false r n = (r', some c) ∧ r'.byName.lookup n = some c ∧ FlatInv r' ∧
      (∀ m d, r.byName.lookup m = some d → r'.byName.lookup m = some d) ∧
      (∀ m, (r'.byName.lookup m).isSome ↔ (r.byName.lookup m).isSome ∨ m = n) := by
  unfold findClassR
  cases h : r.byName.lookup n with
  | some c =>
    refine ⟨r, c, rfl, h, inv, fun _ _ h => h, ?_⟩
    intro m
    constructor
    · exact .inl
    · rintro (h | rfl)
      · exact h
      · rw [h]; rfl
  | none =>
    simp only [Bool.false_eq_true, if_false]
    refine ⟨_, _, rfl, by simp, ?_, ?_, ?_⟩
    · intro m c hm
      simp only at hm ⊢
      rw [lookup_cons_eq] at hm
      split at hm
      · rename_i e; subst e; cases hm
        exact ⟨_, by rw [getElem?_snoc, if_neg (by omega), if_pos rfl], rfl, rfl⟩
      · obtain ⟨cd, e, h2⟩ := inv m c hm
        refine ⟨cd, ?_, h2⟩
        have : c < r.cls.length := by
          have := List.getElem?_eq_some_iff.1 e
          exact this.1
        rw [List.getElem?_append_left this]; exact e
    · intro m d hm
      simp only
      rw [lookup_cons_eq, if_neg (by rintro rfl; rw [h] at hm; cases hm), hm]
    · intro m
      simp only
      rw [lookup_cons_eq]
      by_cases hmn : m = n <;> simp [hmn]

/-! ### Two worlds -/

/-- `c` in the one world and `c'` in the other are found by the same name. -/
def Twin (w v : World) (c c' : Nat) : Prop :=
  ∃ n, w.reg.byName.lookup n = some c ∧ v.reg.byName.lookup n = some c'

/-- A debug world and a release world after the same program. -/
structure Agree (w v : World) : Prop where
  inv : RegInv w.reg
  flat : FlatInv v.reg
  known : ∀ n c', v.reg.byName.lookup n = some c' → ∃ c, w.reg.byName.lookup n = some c
  same : ∀ c c', Twin w v c c' → w.mem c = v.mem c'
  fresh : ∀ c, (∀ c', ¬ Twin w v c c') → w.mem c = Members.empty
  freshR : ∀ c', (∀ n, v.reg.byName.lookup n ≠ some c') → v.mem c' = Members.empty
  types : ∀ t, (w.types t = none ∧ v.types t = none) ∨
    ∃ c c', w.types t = some c ∧ v.types t = some c' ∧ Twin w v c c'
  loose : w.loose = v.loose
  next : w.next = v.next

variable {w v : World}

theorem Agree.right (h : Agree w v) {c c' d' : Nat} (h1 : Twin w v c c') (h2 : Twin w v c d') : c' = d' := by
  obtain ⟨n, a, b⟩ := h1
  obtain ⟨m, a', b'⟩ := h2
  have := h.inv.inj a a'; subst this
  rw [b] at b'; cases b'; rfl

theorem Agree.left (h : Agree w v) {c d c' : Nat} (h1 : Twin w v c c') (h2 : Twin w v d c') : c = d := by
  obtain ⟨n, a, b⟩ := h1
  obtain ⟨m, a', b'⟩ := h2
  have := h.flat.inj b b'; subst this
  rw [a] at a'; cases a'; rfl

theorem Agree.extend (h : Agree w v) {R S : Registry} (hR : RegInv R) (hS : FlatInv S)
    (keepR : ∀ m c, w.reg.byName.lookup m = some c → R.byName.lookup m = some c)
    (keepS : ∀ m c, v.reg.byName.lookup m = some c → S.byName.lookup m = some c)
    (known : ∀ n c', S.byName.lookup n = some c' → ∃ c, R.byName.lookup n = some c) :
    Agree { w with reg := R } { v with reg := S } ∧
      ∀ c c', Twin w v c c' → Twin { w with reg := R } { v with reg := S } c c' := by
  have up : ∀ c c', Twin w v c c' → Twin { w with reg := R } { v with reg := S } c c' := by
    rintro c c' ⟨n, a, b⟩
    exact ⟨n, keepR n c a, keepS n c' b⟩
  refine ⟨⟨hR, hS, known, ?_, ?_, ?_, ?_, h.loose, h.next⟩, up⟩
  · rintro c c' ⟨n, a, b⟩
    simp only at a b ⊢
    cases hv : v.reg.byName.lookup n with
    | some d' =>
      have e1 := keepS n d' hv
      rw [b] at e1; cases e1
      obtain ⟨d, hd⟩ := h.known n c' hv
      have e2 := keepR n d hd
      rw [a] at e2; cases e2
      exact h.same c c' ⟨n, hd, hv⟩
    | none =>
      rw [h.fresh c ?_, h.freshR c' ?_]
      · intro m hm
        have := hS.inj b (keepS m c' hm); subst this
        rw [hv] at hm; cases hm
      · rintro d' ⟨m, hm1, hm2⟩
        have := hR.inj a (keepR m c hm1); subst this
        rw [hv] at hm2; cases hm2
  · intro c hc
    exact h.fresh c fun c' ht => hc c' (up c c' ht)
  · intro c' hc
    exact h.freshR c' fun n hn => hc n (keepS n c' hn)
  · intro t
    rcases h.types t with h1 | ⟨c, c', h1, h2, h3⟩
    · exact .inl h1
    · exact .inr ⟨c, c', h1, h2, up c c' h3⟩

theorem Agree.declared (h : Agree w v) {R : Registry} {sig : Str} (hd : declare w.reg sig = .ok R) :
    Agree { w with reg := R } v ∧ ∀ c c', Twin w v c c' → Twin { w with reg := R } v c c' := by
  obtain ⟨h1, h2⟩ := declareLoop_mono sig 0 w.reg h.inv R hd
  exact h.extend h1 h.flat h2 (fun _ _ h => h) fun n c' hn =>
    let ⟨c, hc⟩ := h.known n c' hn
    ⟨c, h2 n c hc⟩

theorem Agree.find (h : Agree w v) (n : Str) :
    ∃ R S c c', findClass false w.reg n = (R, some c) ∧ findClassR false v.reg n = (S, some c') ∧
      Agree { w with reg := R } { v with reg := S } ∧
      R.byName.lookup n = some c ∧ S.byName.lookup n = some c' ∧
      (∀ c c', Twin w v c c' → Twin { w with reg := R } { v with reg := S } c c') := by
  obtain ⟨R, c, e1, l1, hc⟩ := findClass_create h.inv n
  obtain ⟨S, c', e2, l2, hf, keep, new⟩ := findClassR_create h.flat n
  obtain ⟨hA, hT⟩ := h.extend (R := R) (S := S) hc.inv hf hc.keep keep fun m d' hm => by
    have := (new m).1 (by rw [hm]; rfl)
    rcases this with h1 | rfl
    · obtain ⟨e, he⟩ := Option.isSome_iff_exists.1 h1
      obtain ⟨d, hd⟩ := h.known m e he
      exact ⟨d, hc.keep m d hd⟩
    · exact ⟨c, l1⟩
  exact ⟨R, S, c, c', e1, e2, hA, l1, l2, hT⟩

theorem Agree.setMem (h : Agree w v) {c c' : Nat} (ht : Twin w v c c') (m : Members) :
    Agree (w.setMem c m) (v.setMem c' m) := by
  refine ⟨h.inv, h.flat, h.known, ?_, ?_, ?_, h.types, h.loose, h.next⟩
  · intro d d' hd
    have hd : Twin w v d d' := hd
    simp only [World.setMem]
    by_cases e : d = c
    · subst e
      rw [if_pos rfl, if_pos (h.right hd ht)]
    · rw [if_neg e, if_neg (by rintro rfl; exact e (h.left hd ht))]
      exact h.same d d' hd
  · intro d hd
    simp only [World.setMem]
    rw [if_neg (by rintro rfl; exact hd c' ht)]
    exact h.fresh d hd
  · intro d' hd
    simp only [World.setMem]
    rw [if_neg (by rintro rfl; exact hd _ ht.choose_spec.2)]
    exact h.freshR d' hd

theorem Agree.bump (h : Agree w v) (k : Nat) :
    Agree { w with next := w.next + k } { v with next := v.next + k } :=
  ⟨h.inv, h.flat, h.known, h.same, h.fresh, h.freshR, h.types, h.loose, by simp [h.next]⟩

theorem Agree.addLoose (h : Agree w v) (m : List MethodRec) :
    Agree { w with loose := w.loose ++ m } { v with loose := v.loose ++ m } :=
  ⟨h.inv, h.flat, h.known, h.same, h.fresh, h.freshR, h.types, by simp [h.loose], h.next⟩

theorem Agree.setType (h : Agree w v) {c c' : Nat} (ht : Twin w v c c') (t : Nat) :
    Agree { w with types := fun u => if u = t then some c else w.types u }
      { v with types := fun u => if u = t then some c' else v.types u } := by
  refine ⟨h.inv, h.flat, h.known, h.same, h.fresh, h.freshR, ?_, h.loose, h.next⟩
  intro u
  by_cases e : u = t
  · simp only [e, if_true]
    exact .inr ⟨c, c', rfl, rfl, ht⟩
  · simp only [e, if_false]
    exact h.types u

theorem Agree.nameOf (h : Agree w v) {c c' : Nat} (ht : Twin w v c c') :
    w.nameOf (some c) = v.nameOf (some c') := by
  obtain ⟨n, a, b⟩ := ht
  obtain ⟨d, e1, p1, _⟩ := lookup_record h.inv a
  obtain ⟨d', e2, p2, _⟩ := h.flat n c' b
  simp only [World.nameOf, Option.bind_some, e1, e2, Option.map_some, p1, p2]

/-! ### Base classes -/

/-- Both null or twins. -/
def OTwin (w v : World) : Option Nat → Option Nat → Prop
  | none, none => True
  | some c, some c' => Twin w v c c'
  | _, _ => False

theorem Agree.typeOf (h : Agree w v) (t : Option Nat) : OTwin w v (t.bind w.types) (t.bind v.types) := by
  cases t with
  | none => trivial
  | some t =>
    simp only [Option.bind_some]
    rcases h.types t with ⟨h1, h2⟩ | ⟨c, c', h1, h2, h3⟩
    · rw [h1, h2]; trivial
    · rw [h1, h2]; exact h3

theorem Agree.oname (h : Agree w v) {c c' : Option Nat} (ht : OTwin w v c c') : w.nameOf c = v.nameOf c' := by
  cases c <;> cases c' <;> first | rfl | exact ht.elim | exact h.nameOf ht

theorem firstAnswer_agree {α : Type} (h : Agree w v) {f g : Nat → Res (Option α)}
    (hfg : ∀ c c', Twin w v c c' → f c = g c') (ts : List (Option Nat)) :
    firstAnswer f (ts.map fun t => t.bind w.types) = firstAnswer g (ts.map fun t => t.bind v.types) := by
  induction ts with
  | nil => rfl
  | cons t ts ih =>
    have ht := h.typeOf t
    simp only [List.map_cons]
    cases hw : t.bind w.types with
    | none =>
      cases hv : t.bind v.types with
      | none => simpa only [firstAnswer] using ih
      | some c' => rw [hw, hv] at ht; exact ht.elim
    | some c =>
      cases hv : t.bind v.types with
      | none => rw [hw, hv] at ht; exact ht.elim
      | some c' =>
        rw [hw, hv] at ht
        simp only [firstAnswer]
        rw [hfg c c' ht, ih]

theorem dfs_agree {α : Type} (h : Agree w v) {own own' : Nat → Option α}
    (ho : ∀ c c', Twin w v c c' → own c = own' c') (depth : Nat) : ∀ c c', Twin w v c c' →
      dfs w.bases own depth c = dfs v.bases own' depth c' := by
  induction depth with
  | zero => intro c c' _; rfl
  | succ d ih =>
    intro c c' ht
    simp only [dfs]
    rw [ho c c' ht]
    cases own' c' with
    | some x => rfl
    | none =>
      simp only [World.bases, h.same c c' ht]
      cases (v.mem c').bases with
      | none => rfl
      | some ts =>
        simp only [Option.map_some]
        exact firstAnswer_agree h ih ts

theorem Agree.ownMethod (h : Agree w v) (k : MethodKey) (c c' : Nat) (ht : Twin w v c c') :
    w.ownMethod k c = v.ownMethod k c' := by
  simp only [World.ownMethod, h.same c c' ht]

theorem Agree.ownField (h : Agree w v) (k : FieldKey) (c c' : Nat) (ht : Twin w v c c') :
    w.ownField k c = v.ownField k c' := by
  simp only [World.ownField, h.same c c' ht]

/-! ### Operations -/

/-- Results of member lookups in both builds. -/
def Both (p q : World × Option Nat) : Prop := p.2 = q.2 ∧ Agree p.1 q.1

theorem createMethod_agree (h : Agree w v) {c c' : Nat} (ht : Twin w v c c') (st : Bool) (name sig : Str) :
    ResRel Both (¬ Closed sig) (w.createMethod c st name sig) (.ok (v.createMethodR c' st name sig)) := by
  unfold World.createMethod World.createMethodR
  rcases declare_closed w.reg sig with ⟨_, R, hR⟩ | ⟨hn, hR⟩
  · simp only [hR, Res.bind]
    obtain ⟨hA, hT⟩ := h.declared hR
    have hm := h.same c c' ht
    refine .ok ⟨by simp [h.next], ?_⟩
    have := (hA.setMem (hT c c' ht) { v.mem c' with methods := (v.mem c').methods ++ [⟨v.next, name, sig, st, none, none⟩] }).bump 1
    simpa only [World.setMem, h.next, hm] using this
  · simp only [hR, Res.bind]
    exact .bad hn

theorem createField_agree (h : Agree w v) {c c' : Nat} (ht : Twin w v c c') (k : FieldKey) :
    ResRel Both (¬ Closed k.type) (w.createField c k) (.ok (v.createFieldR c' k)) := by
  unfold World.createField World.createFieldR
  rcases declare_closed w.reg k.type with ⟨_, R, hR⟩ | ⟨hn, hR⟩
  · simp only [hR, Res.bind]
    obtain ⟨hA, hT⟩ := h.declared hR
    have hm := h.same c c' ht
    refine .ok ⟨by simp [h.next], ?_⟩
    have := (hA.setMem (hT c c' ht) { v.mem c' with fields := (v.mem c').fields ++ [⟨v.next, k.name, k.type, k.static, none, none⟩] }).bump 1
    simpa only [World.setMem, h.next, hm] using this
  · simp only [hR, Res.bind]
    exact .bad hn

theorem methodOf_agree (h : Agree w v) {c c' : Nat} (ht : Twin w v c c') (d : Nat) (rn : Bool) (k : MethodKey) :
    ResRel Both (¬ Closed k.signature) (w.methodOf d rn c k) (v.methodOfR d rn c' k) := by
  unfold World.methodOf World.methodOfR
  rw [dfs_agree h (h.ownMethod k) d c c' ht]
  refine (ResRel.refl _).bind ?_
  rintro o _ rfl
  cases o with
  | some id => exact .ok ⟨rfl, h⟩
  | none =>
    cases rn with
    | true => exact .ok ⟨rfl, h⟩
    | false => exact createMethod_agree h ht _ _ _

theorem getMethodID_agree (h : Agree w v) {cl cl' : Option Nat} (ht : OTwin w v cl cl') (d : Nat)
    (st rn an : Bool) (name sig : Str) (bad : Prop)
    (hb : ¬ Closed sig → bad) (hi : ∀ c n, cl = some c → w.reg.byName.lookup n = some c →
      ¬ Closed (initSignature n sig) → bad) :
    ResRel Both bad (w.getMethodID d st rn an cl name sig) (v.getMethodIDR d st rn an cl' name sig) := by
  cases cl with
  | none =>
    cases cl' with
    | some c' => exact ht.elim
    | none =>
      simp only [World.getMethodID, World.getMethodIDR]
      cases rn with
      | true => exact .ok ⟨rfl, h⟩
      | false =>
        simp only [Bool.false_eq_true, if_false]
        rcases declare_closed w.reg sig with ⟨_, R, hR⟩ | ⟨hn, hR⟩
        · simp only [hR, Res.bind]
          obtain ⟨hA, _⟩ := h.declared hR
          refine .ok ⟨by simp [h.next], ?_⟩
          have := (hA.addLoose [⟨v.next, name, sig, st, none, none⟩]).bump 1
          simpa only [h.next] using this
        · simp only [hR, Res.bind]
          exact .bad (hb hn)
  | some c =>
    cases cl' with
    | none => exact ht.elim
    | some c' =>
      have ht : Twin w v c c' := ht
      obtain ⟨n, a, b⟩ := id ht
      obtain ⟨e, e1, p1, _⟩ := lookup_record h.inv a
      obtain ⟨e', e2, p2, _⟩ := h.flat n c' b
      simp only [World.getMethodID, World.getMethodIDR, e1, e2, p1, p2]
      split
      · exact (methodOf_agree h ht d rn _).mono fun hn => hi c n rfl a hn
      · exact (methodOf_agree h ht d rn _).mono hb

theorem getFieldID_agree (h : Agree w v) {cl cl' : Option Nat} (ht : OTwin w v cl cl') (d : Nat)
    (st rn : Bool) (name type : Str) :
    ResRel Both (¬ Closed type) (w.getFieldID d st rn cl name type) (v.getFieldIDR d st rn cl' name type) := by
  cases cl with
  | none =>
    cases cl' with
    | some c' => exact ht.elim
    | none => exact .ub
  | some c =>
    cases cl' with
    | none => exact ht.elim
    | some c' =>
      have ht : Twin w v c c' := ht
      obtain ⟨n, a, b⟩ := id ht
      obtain ⟨e, e1, p1, _⟩ := lookup_record h.inv a
      obtain ⟨e', e2, p2, _⟩ := h.flat n c' b
      simp only [World.getFieldID, World.getFieldIDR, e1, e2]
      rw [dfs_agree h (h.ownField _) d c c' ht]
      refine (ResRel.refl _).bind ?_
      rintro o _ rfl
      cases o with
      | some id => exact .ok ⟨rfl, h⟩
      | none =>
        cases rn with
        | true => exact .ok ⟨rfl, h⟩
        | false => exact createField_agree h ht ⟨st, name, type⟩

theorem hookMethod_agree (h : Agree w v) {c c' : Nat} (ht : Twin w v c c') (st : Bool) (name sig : Str) (fn : Nat) :
    Agree (w.hookMethod c st name sig fn) (v.hookMethod c' st name sig fn) := by
  unfold World.hookMethod
  simp only [h.same c c' ht, h.next]
  split
  · exact h.setMem ht _
  · simpa only [World.setMem, h.next] using (h.setMem ht _).bump 1

theorem hookField_agree (h : Agree w v) {c c' : Nat} (ht : Twin w v c c') (g st : Bool) (name type : Str) (fn : Nat) :
    Agree (w.hookField c g st name type fn) (v.hookField c' g st name type fn) := by
  unfold World.hookField
  simp only [h.same c c' ht, h.next]
  split
  · exact h.setMem ht _
  · simpa only [World.setMem, h.next] using (h.setMem ht _).bump 1

theorem registerOne_agree (h : Agree w v) {c c' : Nat} (ht : Twin w v c c') (n : NativeMethod) :
    Agree (w.registerOne c n) (v.registerOne c' n) := by
  unfold World.registerOne
  simp only [h.same c c' ht, h.next]
  simpa only [World.setMem, h.next] using (h.setMem ht _).bump 1

theorem registerNatives_agree (h : Agree w v) {cl cl' : Option Nat} (ht : OTwin w v cl cl') (l : List NativeMethod) :
    Agree (w.registerNatives cl l) (v.registerNatives cl' l) := by
  cases cl with
  | none =>
    cases cl' with
    | some c' => exact ht.elim
    | none => exact h
  | some c =>
    cases cl' with
    | none => exact ht.elim
    | some c' =>
      have ht : Twin w v c c' := ht
      simp only [World.registerNatives]
      induction l generalizing w v with
      | nil => exact h
      | cons n l ih => exact ih (registerOne_agree h ht n) ht ht

theorem unregisterNatives_agree (h : Agree w v) {cl cl' : Option Nat} (ht : OTwin w v cl cl') :
    Agree (w.unregisterNatives cl) (v.unregisterNatives cl') := by
  cases cl with
  | none =>
    cases cl' with
    | some c' => exact ht.elim
    | none => exact h
  | some c =>
    cases cl' with
    | none => exact ht.elim
    | some c' =>
      have ht : Twin w v c c' := ht
      simp only [World.unregisterNatives, h.same c c' ht]
      exact h.setMem ht _

theorem isAssignableFrom_agree (h : Agree w v) (d : Nat) {a a' b b' : Option Nat} (ha : OTwin w v a a')
    (hb : OTwin w v b b') : w.isAssignableFrom d a b = v.isAssignableFrom d a' b' := by
  cases a <;> cases a' <;> first | exact ha.elim | skip
  · cases b <;> cases b' <;> first | exact hb.elim | rfl
  · rename_i c c'
    have ha : Twin w v c c' := ha
    cases b <;> cases b' <;> first | exact hb.elim | skip
    · simp only [World.isAssignableFrom]
      rw [dfs_agree h (own' := fun _ => none) (fun _ _ _ => rfl) d c c' ha]
    · rename_i e e'
      have hb : Twin w v e e' := hb
      simp only [World.isAssignableFrom, World.hasBaseClass]
      rw [dfs_agree h (own' := fun c => if c = e' then some () else none) ?_ d c c' ha]
      intro x x' hx
      by_cases hxe : x = e
      · subst hxe
        rw [if_pos rfl, if_pos (h.right hx hb)]
      · rw [if_neg hxe, if_neg (by rintro rfl; exact hxe (h.left hx hb))]

theorem getSuperclass_agree (h : Agree w v) {c c' : Nat} (ht : Twin w v c c') :
    ResRel (OTwin w v) False (w.getSuperclass c) (v.getSuperclass c') := by
  simp only [World.getSuperclass, World.bases, h.same c c' ht]
  cases (v.mem c').bases with
  | none => exact .ok trivial
  | some ts =>
    cases ts with
    | nil => exact .ub
    | cons t ts => exact .ok (h.typeOf t)

/-! ### Client programs -/

theorem resolve_agree (h : Agree w v) (cl : Option Str) :
    Agree (Build.debug.resolve w cl).1 (Build.release.resolve v cl).1 ∧
      OTwin (Build.debug.resolve w cl).1 (Build.release.resolve v cl).1
        (Build.debug.resolve w cl).2 (Build.release.resolve v cl).2 ∧
      (∀ c c', Twin w v c c' →
        Twin (Build.debug.resolve w cl).1 (Build.release.resolve v cl).1 c c') ∧
      (∀ n, cl = some n → ∃ c, (Build.debug.resolve w cl).2 = some c ∧
        (Build.debug.resolve w cl).1.reg.byName.lookup n = some c) := by
  cases cl with
  | none => exact ⟨h, trivial, fun _ _ h => h, nofun⟩
  | some n =>
    obtain ⟨R, S, c, c', e1, e2, hA, l1, l2, hT⟩ := h.find n
    simp only [Build.resolve, Build.debug, Build.release, e1, e2]
    exact ⟨hA, ⟨n, l1, l2⟩, hT, fun m hm => by cases hm; exact ⟨c, rfl, l1⟩⟩

theorem OTwin.cases {c c' : Option Nat} (h : OTwin w v c c') :
    (c = none ∧ c' = none) ∨ ∃ d d', c = some d ∧ c' = some d' ∧ Twin w v d d' := by
  cases c <;> cases c' <;> first | exact h.elim | exact .inl ⟨rfl, rfl⟩ | exact .inr ⟨_, _, rfl, rfl, h⟩

/-- Results of operations in both builds. -/
def BothAns {α : Type} (p q : World × α) : Prop := p.2 = q.2 ∧ Agree p.1 q.1

theorem step_agree (h : Agree w v) (op : ClientOp) :
    ResRel BothAns (¬ Readable op) (op.run .debug w) (op.run .release v) := by
  cases op with
  | findClass n =>
    obtain ⟨hA, hO, _⟩ := resolve_agree h (some n)
    exact .ok ⟨congrArg ClientAnswer.cls (hA.oname hO), hA⟩
  | getMethodID d s r a cl n sig =>
    obtain ⟨hA, hO, _, hl⟩ := resolve_agree h cl
    refine (getMethodID_agree hA hO d s (r || a) a n sig (¬ Readable (.getMethodID d s r a cl n sig))
      (fun hc hc' => hc hc'.1) ?_).bind ?_
    · intro c m hc hm hi hc'
      cases cl with
      | none => cases hc
      | some k =>
        obtain ⟨c2, e1, e2⟩ := hl k rfl
        rw [hc] at e1; cases e1
        have := hA.inv.inj hm e2; subst this
        exact hi (closed_init hc'.1 (hc'.2 _ rfl))
    · rintro p q ⟨e, hA⟩
      exact .ok ⟨congrArg ClientAnswer.member e, hA⟩
  | getFieldID d s r cl n t =>
    obtain ⟨hA, hO, _⟩ := resolve_agree h cl
    refine (getFieldID_agree hA hO d s r n t).bind ?_
    rintro p q ⟨e, hA⟩
    exact .ok ⟨congrArg ClientAnswer.member e, hA⟩
  | hookMethod cl s n sig fn =>
    obtain ⟨hA, hO, _⟩ := resolve_agree h (some cl)
    simp only [ClientOp.run]
    rcases hO.cases with ⟨e1, e2⟩ | ⟨c, c', e1, e2, ht⟩
    · rw [e1, e2]; exact .ub
    · rw [e1, e2]; exact .ok ⟨rfl, hookMethod_agree hA ht s n sig fn⟩
  | hookField cl g s n t fn =>
    obtain ⟨hA, hO, _⟩ := resolve_agree h (some cl)
    simp only [ClientOp.run]
    rcases hO.cases with ⟨e1, e2⟩ | ⟨c, c', e1, e2, ht⟩
    · rw [e1, e2]; exact .ub
    · rw [e1, e2]; exact .ok ⟨rfl, hookField_agree hA ht g s n t fn⟩
  | registerNatives cl l =>
    obtain ⟨hA, hO, _⟩ := resolve_agree h cl
    exact .ok ⟨rfl, registerNatives_agree hA hO l⟩
  | unregisterNatives cl =>
    obtain ⟨hA, hO, _⟩ := resolve_agree h cl
    exact .ok ⟨rfl, unregisterNatives_agree hA hO⟩
  | bindType t n bs =>
    obtain ⟨R, S, c, c', e1, e2, hA, l1, l2, hT⟩ := h.find n
    simp only [ClientOp.run, Build.debug, Build.release, World.bindType, World.bindTypeR, e1, e2]
    have ht : Twin { w with reg := R } { v with reg := S } c c' := ⟨n, l1, l2⟩
    have hm := hA.same c c' ht
    simp only at hm
    have hB := (hA.setMem ht { v.mem c' with bases := some bs }).setType (c := c) (c' := c') ht t
    refine .ok ⟨?_, ?_⟩
    · exact congrArg ClientAnswer.cls (hA.nameOf ht)
    · simpa only [World.setMem, hm] using hB
  | isAssignableFrom d c1 c2 =>
    obtain ⟨hA, hO, _⟩ := resolve_agree h c1
    obtain ⟨hB, hP, hT, _⟩ := resolve_agree hA c2
    simp only [ClientOp.run]
    have hO' : OTwin (Build.debug.resolve (Build.debug.resolve w c1).1 c2).1
        (Build.release.resolve (Build.release.resolve v c1).1 c2).1
        (Build.debug.resolve w c1).2 (Build.release.resolve v c1).2 := by
      rcases hO.cases with ⟨e1, e2⟩ | ⟨c, c', e1, e2, ht⟩
      · rw [e1, e2]; trivial
      · rw [e1, e2]; exact hT c c' ht
    rw [isAssignableFrom_agree hB d hO' hP]
    refine (ResRel.refl _).bind ?_
    rintro x _ rfl
    exact .ok ⟨rfl, hB⟩
  | getSuperclass cl =>
    obtain ⟨hA, hO, _⟩ := resolve_agree h (some cl)
    simp only [ClientOp.run]
    rcases hO.cases with ⟨e1, e2⟩ | ⟨c, c', e1, e2, ht⟩
    · rw [e1, e2]; exact .ub
    · rw [e1, e2]
      refine ((getSuperclass_agree hA ht).mono (False.elim)).bind ?_
      intro x y hx
      exact .ok ⟨congrArg ClientAnswer.cls (hA.oname hx), hA⟩

theorem run_agree (ops : List ClientOp) : ∀ {w v : World}, Agree w v →
    ResRel BothAns (∃ op ∈ ops, ¬ Readable op) (Build.debug.run w ops) (Build.release.run v ops) := by
  induction ops with
  | nil => intro w v h; exact .ok ⟨rfl, h⟩
  | cons op ops ih =>
    intro w v h
    simp only [Build.run]
    refine ((step_agree h op).mono fun hb => ⟨op, by simp, hb⟩).bind ?_
    rintro ⟨w1, a⟩ ⟨v1, b⟩ ⟨e, hA⟩
    simp only at e hA
    refine ((ih hA).mono ?_).bind ?_
    · rintro ⟨op', h1, h2⟩; exact ⟨op', by simp [h1], h2⟩
    · rintro ⟨w2, as⟩ ⟨v2, bs⟩ ⟨e', hB⟩
      exact .ok ⟨by simp only at e' ⊢; rw [e, e'], hB⟩

/-! ### What the release build adds to its registry -/

/-- `s` is `r` with these classes added. -/
structure Added (r s : Registry) (names : List Str) : Prop where
  flat : FlatInv s
  keep : ∀ m c, r.byName.lookup m = some c → s.byName.lookup m = some c
  new : ∀ m, (s.byName.lookup m).isSome ↔ (r.byName.lookup m).isSome ∨ m ∈ names

theorem Added.nothing {r : Registry} (h : FlatInv r) : Added r r [] :=
  ⟨h, fun _ _ h => h, fun m => by simp⟩

theorem Added.trans {r s t : Registry} {a b : List Str} (h1 : Added r s a) (h2 : Added s t b) :
    Added r t (a ++ b) :=
  ⟨h2.flat, fun m c h => h2.keep m c (h1.keep m c h), fun m => by
    rw [h2.new, h1.new, List.mem_append, or_assoc]⟩

theorem resolveR_added {v : World} (h : FlatInv v.reg) (cl : Option Str) :
    Added v.reg (Build.release.resolve v cl).1.reg cl.toList := by
  cases cl with
  | none => exact .nothing h
  | some n =>
    obtain ⟨r', c, e, hl, hf, keep, new⟩ := findClassR_create h n
    simp only [Build.resolve, Build.release, e, Option.toList_some]
    exact ⟨hf, keep, fun m => by rw [new m]; simp⟩

theorem methodOfR_reg {v v' : World} {d : Nat} {rn : Bool} {c : Nat} {k : MethodKey} {x : Option Nat}
    (h : v.methodOfR d rn c k = .ok (v', x)) : v'.reg = v.reg := by
  obtain ⟨o, _, h⟩ := Res.bind_eq_ok.1 h
  cases o with
  | some id => cases h; rfl
  | none => cases rn <;> cases h <;> rfl

theorem getMethodIDR_reg {v v' : World} {d : Nat} {s rn an : Bool} {cl : Option Nat} {n sig : Str}
    {x : Option Nat} (h : v.getMethodIDR d s rn an cl n sig = .ok (v', x)) : v'.reg = v.reg := by
  unfold World.getMethodIDR at h
  split at h
  · split at h <;> cases h <;> rfl
  · split at h
    · cases h
    · split at h <;> exact methodOfR_reg h

theorem getFieldIDR_reg {v v' : World} {d : Nat} {s rn : Bool} {cl : Option Nat} {n t : Str}
    {x : Option Nat} (h : v.getFieldIDR d s rn cl n t = .ok (v', x)) : v'.reg = v.reg := by
  unfold World.getFieldIDR at h
  split at h
  · cases h
  · split at h
    · cases h
    · obtain ⟨o, _, h⟩ := Res.bind_eq_ok.1 h
      cases o with
      | some id => cases h; rfl
      | none => cases rn <;> cases h <;> rfl

theorem hookMethod_reg' (v : World) (c : Nat) (s : Bool) (n sig : Str) (fn : Nat) :
    (v.hookMethod c s n sig fn).reg = v.reg := by
  unfold World.hookMethod
  simp only
  split <;> rfl

theorem hookField_reg' (v : World) (c : Nat) (g s : Bool) (n sig : Str) (fn : Nat) :
    (v.hookField c g s n sig fn).reg = v.reg := by
  unfold World.hookField
  simp only
  split <;> rfl

theorem registerNatives_reg' (v : World) (cl : Option Nat) (l : List NativeMethod) :
    (v.registerNatives cl l).reg = v.reg := by
  cases cl with
  | none => rfl
  | some c =>
    simp only [World.registerNatives]
    induction l generalizing v with
    | nil => rfl
    | cons n l ih => exact ih _

theorem unregisterNatives_reg' (v : World) (cl : Option Nat) : (v.unregisterNatives cl).reg = v.reg := by
  cases cl <;> rfl

theorem onClass_ok {α : Type} {c : Option Nat} {f : Nat → Res α} {y : α} (h : onClass c f = .ok y) :
    ∃ d, c = some d ∧ f d = .ok y := by
  cases c with
  | none => cases h
  | some d => exact ⟨d, rfl, h⟩

theorem stepR_added {v v' : World} {op : ClientOp} {a : ClientAnswer} (h : FlatInv v.reg)
    (hr : op.run .release v = .ok (v', a)) : Added v.reg v'.reg (namesIn op) := by
  cases op with
  | findClass n => cases hr; exact resolveR_added h (some n)
  | getMethodID d s r an cl n sig =>
    obtain ⟨⟨v1, x⟩, h1, h2⟩ := Res.bind_eq_ok.1 hr
    cases h2
    simp only
    rw [getMethodIDR_reg h1]
    exact resolveR_added h cl
  | getFieldID d s r cl n t =>
    obtain ⟨⟨v1, x⟩, h1, h2⟩ := Res.bind_eq_ok.1 hr
    cases h2
    simp only
    rw [getFieldIDR_reg h1]
    exact resolveR_added h cl
  | hookMethod cl s n sig fn =>
    obtain ⟨c, _, h2⟩ := onClass_ok hr
    cases h2
    rw [hookMethod_reg']
    exact resolveR_added h (some cl)
  | hookField cl g s n t fn =>
    obtain ⟨c, _, h2⟩ := onClass_ok hr
    cases h2
    rw [hookField_reg']
    exact resolveR_added h (some cl)
  | registerNatives cl l =>
    cases hr
    rw [registerNatives_reg']
    exact resolveR_added h cl
  | unregisterNatives cl =>
    cases hr
    rw [unregisterNatives_reg']
    exact resolveR_added h cl
  | bindType t n bs =>
    cases hr
    have := resolveR_added h (some n)
    obtain ⟨r', c, e, _⟩ := findClassR_create h n
    simp only [Build.resolve, Build.release, e] at this
    simp only [Build.release, World.bindTypeR, e]
    exact this
  | isAssignableFrom d c1 c2 =>
    obtain ⟨x, h1, h2⟩ := Res.bind_eq_ok.1 hr
    cases h2
    have h3 := resolveR_added h c1
    exact h3.trans (resolveR_added h3.flat c2)
  | getSuperclass cl =>
    obtain ⟨c, _, h2⟩ := onClass_ok hr
    obtain ⟨x, h1, h2⟩ := Res.bind_eq_ok.1 h2
    cases h2
    exact resolveR_added h (some cl)

theorem runR_added (ops : List ClientOp) : ∀ {v v' : World} {as : List ClientAnswer}, FlatInv v.reg →
    Build.release.run v ops = .ok (v', as) → Added v.reg v'.reg (ops.flatMap namesIn) := by
  induction ops with
  | nil => intro v v' as h hr; cases hr; exact .nothing h
  | cons op ops ih =>
    intro v v' as h hr
    obtain ⟨⟨v1, a⟩, h1, h2⟩ := Res.bind_eq_ok.1 hr
    obtain ⟨⟨v2, bs⟩, h3, h4⟩ := Res.bind_eq_ok.1 h2
    cases h4
    have := stepR_added h h1
    exact this.trans (ih this.flat h3)

/-! ### The start -/

/-- Create all these classes in order. -/
def createAllR (r : Registry) (names : List Str) : Registry :=
  names.foldl (fun r n => (findClassR false r n).1) r

theorem createAllR_spec (names : List Str) : ∀ {r : Registry}, FlatInv r →
    FlatInv (createAllR r names) ∧
    (∀ m, ((createAllR r names).byName.lookup m).isSome ↔ (r.byName.lookup m).isSome ∨ m ∈ names) := by
  induction names with
  | nil => intro r inv; exact ⟨inv, fun m => by simp [createAllR]⟩
  | cons n ns ih =>
    intro r inv
    obtain ⟨r', c, e, hl, hf, keep, new⟩ := findClassR_create inv n
    have := ih hf
    simp only [createAllR, List.foldl_cons, e]
    refine ⟨this.1, fun m => ?_⟩
    refine (this.2 m).trans ?_
    rw [new m, or_assoc]
    simp

theorem initialR_eq : Registry.initialR =
    createAllR { ns := [], cls := [], byName := [] } (builtinClasses.map String.toList) := by
  unfold Registry.initialR createAllR
  rw [List.foldl_map]

theorem initialR_spec : FlatInv Registry.initialR ∧
    ∀ m, (Registry.initialR.byName.lookup m).isSome ↔ m ∈ builtinClasses.map String.toList := by
  rw [initialR_eq]
  have := createAllR_spec (builtinClasses.map String.toList)
    (r := { ns := [], cls := [], byName := [] }) (by intro n c h; simp at h)
  refine ⟨this.1, fun m => (this.2 m).trans ?_⟩
  simp

theorem start_agree : Agree World.initial World.initialR := by
  refine ⟨initial_inv, initialR_spec.1, ?_, fun _ _ _ => rfl, fun _ _ => rfl, fun _ _ => rfl,
    fun _ => .inl ⟨rfl, rfl⟩, rfl, rfl⟩
  intro n c' hn
  have h1 := (initialR_spec.2 n).1 (by show (Registry.initialR.byName.lookup n).isSome; rw [show
    Registry.initialR.byName.lookup n = some c' from hn]; rfl)
  have h2 := (createAll_spec (builtinClasses.map String.toList) empty_inv).2.2 n
  rw [← initial_eq] at h2
  have h3 := h2.2 (.inr ⟨n, h1, .inl rfl⟩)
  exact Option.isSome_iff_exists.1 h3

end Jnivm
