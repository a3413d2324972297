import Verif.Lemmas.Codegen
/-! Lemmas about the walk of the code generator over namespaces and classes. -/
namespace Jnivm
open Spec

/-! ### Outcomes -/

/-- The text is produced if `p` and otherwise the signature is read past its end. -/
def DumpOutcome {α : Type} (x : Res α) (p : Prop) : Prop :=
  (p → ∃ a, x = .ok a) ∧ (¬ p → x = .ub .outOfBounds)

theorem DumpOutcome.ok {α : Type} (a : α) : DumpOutcome (Res.ok a) True := ⟨fun _ => ⟨a, rfl⟩, fun h => absurd trivial h⟩

theorem DumpOutcome.congr {α : Type} {x : Res α} {p q : Prop} (h : DumpOutcome x p) (hpq : p ↔ q) : DumpOutcome x q :=
  ⟨fun hq => h.1 (hpq.2 hq), fun hq => h.2 (fun hp => hq (hpq.1 hp))⟩

theorem DumpOutcome.bind {α β : Type} {x : Res α} {f : α → Res β} {p q : Prop} (h : DumpOutcome x p)
    (hf : ∀ a, DumpOutcome (f a) q) : DumpOutcome (x.bind f) (p ∧ q) := by
  by_cases hp : p
  · obtain ⟨a, rfl⟩ := h.1 hp
    rw [Res.bind_ok]
    exact (hf a).congr ⟨fun hq => ⟨hp, hq⟩, fun hq => hq.2⟩
  · rw [h.2 hp]
    exact ⟨fun h => absurd h.1 hp, fun _ => rfl⟩

theorem DumpOutcome.map {α β : Type} {x : Res α} {f : α → β} {p : Prop} (h : DumpOutcome x p) :
    DumpOutcome (x.bind fun a => .ok (f a)) p :=
  (h.bind (f := fun a => .ok (f a)) (q := True) fun _ => DumpOutcome.ok _).congr (by simp)

theorem DumpOutcome.catMap {α : Type} {f : α → Res Str} {p : α → Prop} {l : List α}
    (h : ∀ x ∈ l, DumpOutcome (f x) (p x)) : DumpOutcome (catMap f l) (∀ x ∈ l, p x) := by
  induction l with
  | nil => exact (DumpOutcome.ok _).congr (by simp)
  | cons x l ih =>
    unfold Jnivm.catMap
    refine ((h x (by simp)).bind fun a => (ih fun y hy => h y (by simp [hy])).map).congr ?_
    simp

theorem catMap_append {α : Type} (f : α → Res Str) (l m : List α) :
    catMap f (l ++ m) = (catMap f l).bind fun a => (catMap f m).bind fun b => .ok (a ++ b) := by
  induction l with
  | nil =>
    simp only [List.nil_append, catMap, Res.bind_ok]
    cases catMap f m <;> rfl
  | cons x l ih =>
    simp only [List.cons_append, catMap, ih]
    cases f x with
    | ok a =>
      simp only [Res.bind_ok]
      cases catMap f l with
      | ok b =>
        simp only [Res.bind_ok]
        cases catMap f m with
        | ok c => simp [Res.bind_ok]
        | throws e => rfl
        | ub u => rfl
        | diverges => rfl
      | throws e => rfl
      | ub u => rfl
      | diverges => rfl
    | throws e => rfl
    | ub u => rfl
    | diverges => rfl

theorem catMap_flatMap {α β : Type} (f : β → Res Str) (g : α → List β) (l : List α) :
    catMap f (l.flatMap g) = catMap (fun x => catMap f (g x)) l := by
  induction l with
  | nil => rfl
  | cons x l ih => rw [List.flatMap_cons, catMap_append, ih]; rfl

theorem catMap_congr {α : Type} {f g : α → Res Str} {l : List α} (h : ∀ x ∈ l, f x = g x) :
    catMap f l = catMap g l := by
  induction l with
  | nil => rfl
  | cons x l ih =>
    unfold catMap
    rw [h x (by simp), ih fun y hy => h y (by simp [hy])]

theorem catMap_single {α : Type} (f : α → Res Str) (x : α) : catMap f [x] = f x := by
  simp only [catMap, Res.bind_ok, List.append_nil]
  cases f x <;> rfl

/-- Texts that end with a newline. -/
def Ended (s : Str) : Prop := s = [] ∨ s.getLast? = some '\n'

theorem Ended.append {a b : Str} (ha : Ended a) (hb : Ended b) : Ended (a ++ b) := by
  rcases hb with rfl | hb
  · simpa using ha
  · right
    rw [List.getLast?_append, hb]
    rfl

theorem withNewline_ended {s : Str} (h : Ended s) : withNewline s = s := by
  unfold withNewline
  rcases h with rfl | h
  · rfl
  · cases s with
    | nil => rfl
    | cons c t => rw [if_neg (by simp), if_neg (by simp [h]), List.append_nil]

theorem catMap_ended {α : Type} {f : α → Res Str} {l : List α} (h : ∀ x ∈ l, ∀ s, f x = .ok s → Ended s) :
    ∀ s, catMap f l = .ok s → Ended s := by
  induction l with
  | nil => intro s hs; cases hs; exact .inl rfl
  | cons x l ih =>
    intro s hs
    unfold catMap at hs
    obtain ⟨a, h1, h2⟩ := Res.bind_eq_ok.1 hs
    obtain ⟨b, h3, h4⟩ := Res.bind_eq_ok.1 h2
    cases h4
    exact (h x (by simp) a h1).append (ih (fun y hy => h y (by simp [hy])) b h3)

theorem catMap_newline {α : Type} {f : α → Res Str} {l : List α} (h : ∀ x ∈ l, ∀ s, f x = .ok s → Ended s) :
    catMap (fun x => (f x).bind fun s => .ok (withNewline s)) l = catMap f l := by
  apply catMap_congr
  intro x hx
  cases hf : f x with
  | ok s => rw [Res.bind_ok, withNewline_ended (h x hx s hf)]
  | throws e => rfl
  | ub u => rfl
  | diverges => rfl

/-! ### The classes in dump order -/

/-- A class with its scope and its inner classes, outer classes first. -/
def clsList (r : Registry) : Nat → Str → Nat → List (Str × Nat)
  | 0, _, _ => []
  | depth + 1, scope, c =>
    match r.cls[c]? with
    | none => []
    | some cd =>
      if cd.nativeprefix ∈ blacklisted then []
      else (addScope scope cd.name, c) :: cd.classes.flatMap (clsList r depth (addScope scope cd.name))

/-- The same with inner classes first. -/
def clsListPost (r : Registry) : Nat → Str → Nat → List (Str × Nat)
  | 0, _, _ => []
  | depth + 1, scope, c =>
    match r.cls[c]? with
    | none => []
    | some cd =>
      if cd.nativeprefix ∈ blacklisted then []
      else cd.classes.flatMap (clsListPost r depth (addScope scope cd.name)) ++ [(addScope scope cd.name, c)]

def nsList (r : Registry) : Nat → Str → Nat → List (Str × Nat)
  | 0, _, _ => []
  | depth + 1, scope, n =>
    match r.ns[n]? with
    | none => []
    | some nd =>
      nd.classes.flatMap (clsList r depth (nsScope scope nd.name)) ++
        nd.namespaces.flatMap (nsList r depth (nsScope scope nd.name))

def nsListPost (r : Registry) : Nat → Str → Nat → List (Str × Nat)
  | 0, _, _ => []
  | depth + 1, scope, n =>
    match r.ns[n]? with
    | none => []
    | some nd =>
      nd.classes.flatMap (clsListPost r depth (nsScope scope nd.name)) ++
        nd.namespaces.flatMap (nsListPost r depth (nsScope scope nd.name))

theorem flatMap_perm {α β : Type} {f g : α → List β} (l : List α) (h : ∀ x ∈ l, (f x).Perm (g x)) :
    (l.flatMap f).Perm (l.flatMap g) := by
  induction l with
  | nil => exact List.Perm.refl _
  | cons x l ih =>
    rw [List.flatMap_cons, List.flatMap_cons]
    exact (h x (by simp)).append (ih fun y hy => h y (by simp [hy]))

theorem clsListPost_perm (r : Registry) (d : Nat) : ∀ scope c, (clsListPost r d scope c).Perm (clsList r d scope c) := by
  induction d with
  | zero => intro _ _; exact List.Perm.refl _
  | succ d ih =>
    intro scope c
    unfold clsListPost clsList
    cases r.cls[c]? with
    | none => exact List.Perm.refl _
    | some cd =>
      simp only
      by_cases hb : cd.nativeprefix ∈ blacklisted
      · rw [if_pos hb, if_pos hb]
      · rw [if_neg hb, if_neg hb]
        refine List.perm_append_comm.trans ?_
        rw [List.singleton_append]
        exact (flatMap_perm _ fun x _ => ih _ x).cons _

theorem nsListPost_perm (r : Registry) (d : Nat) : ∀ scope n, (nsListPost r d scope n).Perm (nsList r d scope n) := by
  induction d with
  | zero => intro _ _; exact List.Perm.refl _
  | succ d ih =>
    intro scope n
    unfold nsListPost nsList
    cases r.ns[n]? with
    | none => exact List.Perm.refl _
    | some nd =>
      simp only
      exact (flatMap_perm _ fun x _ => clsListPost_perm r d _ x).append (flatMap_perm _ fun x _ => ih _ x)

/-! ### Depth -/

variable {r : Registry} {π : Nat → List Str} {σ : Nat → List Str × List Str}

/-- `B` bounds all paths. -/
structure Bound (r : Registry) (π : Nat → List Str) (σ : Nat → List Str × List Str) (B : Nat) : Prop where
  ns : ∀ n, n < r.ns.length → (π n).length ≤ B
  cls : ∀ c, c < r.cls.length → (σ c).2.length ≤ B

theorem exists_max (f : Nat → Nat) (N : Nat) : ∃ B, ∀ i, i < N → f i ≤ B := by
  induction N with
  | zero => exact ⟨0, fun i h => absurd h (by omega)⟩
  | succ N ih =>
    obtain ⟨B, h⟩ := ih
    refine ⟨max B (f N), fun i hi => ?_⟩
    by_cases e : i = N
    · subst e; omega
    · have := h i (by omega); omega

theorem exists_bound (r : Registry) (π : Nat → List Str) (σ : Nat → List Str × List Str) : ∃ B, Bound r π σ B := by
  obtain ⟨B1, h1⟩ := exists_max (fun n => (π n).length) r.ns.length
  obtain ⟨B2, h2⟩ := exists_max (fun c => (σ c).2.length) r.cls.length
  exact ⟨max B1 B2, fun n hn => by have := h1 n hn; omega,
    fun c hc => by have := h2 c hc; omega⟩

/-- One step of a walk over a class: there is fuel and the inner classes have enough. -/
theorem fuel_cls (inv : TreeInv r π σ) {B d c : Nat} {cd : ClassNode} (hB : Bound r π σ B)
    (hc : r.cls[c]? = some cd) (hf : B < d + (σ c).2.length) :
    ∃ d', d = d' + 1 ∧ ∀ k ∈ cd.classes, ∃ kd, r.cls[k]? = some kd ∧ B < d' + (σ k).2.length := by
  cases d with
  | zero =>
    have := hB.cls c (List.getElem?_eq_some_iff.1 hc).1
    omega
  | succ d =>
    refine ⟨d, rfl, fun k hk => ?_⟩
    obtain ⟨kd, h1, _, h2, _⟩ := inv.clsKids c cd hc k hk
    refine ⟨kd, h1, ?_⟩
    rw [h2]
    simp only [List.length_append, List.length_singleton]
    omega

theorem fuel_ns (inv : TreeInv r π σ) {B d n : Nat} {nd : NsNode} (hB : Bound r π σ B)
    (hn : r.ns[n]? = some nd) (hf : 2 * B < d + (π n).length) :
    ∃ d', d = d' + 1 ∧ (∀ c ∈ nd.classes, ∃ cd, r.cls[c]? = some cd ∧ B < d' + (σ c).2.length) ∧
      ∀ k ∈ nd.namespaces, ∃ kd, r.ns[k]? = some kd ∧ 2 * B < d' + (π k).length := by
  have hb := hB.ns n (List.getElem?_eq_some_iff.1 hn).1
  cases d with
  | zero => omega
  | succ d =>
    refine ⟨d, rfl, fun c hc => ?_, fun k hk => ?_⟩
    · obtain ⟨cd, h1, h2, _⟩ := inv.nsClasses n nd hn c hc
      refine ⟨cd, h1, ?_⟩
      rw [h2]
      simp only [List.length_singleton]
      omega
    · obtain ⟨kd, h1, h2⟩ := inv.nsKids n nd hn k hk
      refine ⟨kd, h1, ?_⟩
      rw [h2]
      simp only [List.length_append, List.length_singleton]
      omega

/-! ### The generated texts are concatenations over these lists -/

variable {w : World}

theorem withClass_some {c : Nat} {cd : ClassNode} (h : w.reg.cls[c]? = some cd) (f : ClassNode → Res Str) :
    withClass w c f = if cd.nativeprefix ∈ blacklisted then .ok [] else f cd := by
  unfold withClass; rw [h]

theorem withNs_some {n : Nat} {nd : NsNode} (h : w.reg.ns[n]? = some nd) (f : NsNode → Res Str) :
    withNs w n f = f nd := by
  unfold withNs; rw [h]

/-- The text of one class without its inner classes. -/
def headerOf (fake : Bool) (w : World) (x : Str × Nat) : Res Str :=
  match w.reg.cls[x.2]? with
  | none => .ub .dangling
  | some cd => classText fake w x.1 x.2 cd

def stubsOf (fake : Bool) (w : World) (x : Str × Nat) : Res Str :=
  match w.reg.cls[x.2]? with
  | none => .ub .dangling
  | some cd => stubText fake w x.1 x.2 cd

def registerOf (fake : Bool) (w : World) (x : Str × Nat) : Res Str :=
  match w.reg.cls[x.2]? with
  | none => .ub .dangling
  | some cd => .ok (registerText fake cd)

theorem classHeader_list (fake : Bool) (inv : TreeInv w.reg π σ) {B : Nat} (hB : Bound w.reg π σ B) (d : Nat) :
    ∀ scope c cd, w.reg.cls[c]? = some cd → B < d + (σ c).2.length →
      classHeader fake w d scope c = catMap (headerOf fake w) (clsList w.reg d scope c) := by
  induction d with
  | zero =>
    intro scope c cd hc hf
    obtain ⟨d', e, _⟩ := fuel_cls inv hB hc hf
    omega
  | succ d ih =>
    intro scope c cd hc hf
    obtain ⟨d', e, hk⟩ := fuel_cls inv hB hc hf
    cases e
    rw [classHeader, withClass_some hc, clsList]
    simp only [hc]
    by_cases hb : cd.nativeprefix ∈ blacklisted
    · rw [if_pos hb, if_pos hb]; rfl
    · rw [if_neg hb, if_neg hb]
      rw [catMap, catMap_flatMap]
      have e1 : headerOf fake w (addScope scope cd.name, c) = classText fake w (addScope scope cd.name) c cd := by
        unfold headerOf; simp only [hc]
      rw [e1]
      rw [catMap_congr (g := fun x => catMap (headerOf fake w) (clsList w.reg d (addScope scope cd.name) x))]
      intro k hkm
      obtain ⟨kd, h1, h2⟩ := hk k hkm
      exact ih _ k kd h1 h2

theorem classStubs_list (fake : Bool) (inv : TreeInv w.reg π σ) {B : Nat} (hB : Bound w.reg π σ B) (d : Nat) :
    ∀ scope c cd, w.reg.cls[c]? = some cd → B < d + (σ c).2.length →
      classStubs fake w d scope c = catMap (stubsOf fake w) (clsListPost w.reg d scope c) := by
  induction d with
  | zero =>
    intro scope c cd hc hf
    obtain ⟨d', e, _⟩ := fuel_cls inv hB hc hf
    omega
  | succ d ih =>
    intro scope c cd hc hf
    obtain ⟨d', e, hk⟩ := fuel_cls inv hB hc hf
    cases e
    rw [classStubs, withClass_some hc, clsListPost]
    simp only [hc]
    by_cases hb : cd.nativeprefix ∈ blacklisted
    · rw [if_pos hb, if_pos hb]; rfl
    · rw [if_neg hb, if_neg hb]
      rw [catMap_append, catMap_flatMap, catMap_single]
      have e1 : stubsOf fake w (addScope scope cd.name, c) = stubText fake w (addScope scope cd.name) c cd := by
        unfold stubsOf; simp only [hc]
      rw [e1]
      rw [catMap_congr (g := fun x => catMap (stubsOf fake w) (clsListPost w.reg d (addScope scope cd.name) x))]
      intro k hkm
      obtain ⟨kd, h1, h2⟩ := hk k hkm
      exact ih _ k kd h1 h2

theorem classRegister_list (fake : Bool) (inv : TreeInv w.reg π σ) {B : Nat} (hB : Bound w.reg π σ B) (d : Nat) :
    ∀ scope c cd, w.reg.cls[c]? = some cd → B < d + (σ c).2.length →
      classRegister fake w d c = catMap (registerOf fake w) (clsList w.reg d scope c) := by
  induction d with
  | zero =>
    intro scope c cd hc hf
    obtain ⟨d', e, _⟩ := fuel_cls inv hB hc hf
    omega
  | succ d ih =>
    intro scope c cd hc hf
    obtain ⟨d', e, hk⟩ := fuel_cls inv hB hc hf
    cases e
    rw [classRegister, withClass_some hc, clsList]
    simp only [hc]
    by_cases hb : cd.nativeprefix ∈ blacklisted
    · rw [if_pos hb, if_pos hb]; rfl
    · rw [if_neg hb, if_neg hb]
      rw [catMap, catMap_flatMap]
      have e1 : registerOf fake w (addScope scope cd.name, c) = .ok (registerText fake cd) := by
        unfold registerOf; simp only [hc]
      rw [e1, Res.bind_ok]
      rw [catMap_congr (g := fun x => catMap (registerOf fake w) (clsList w.reg d (addScope scope cd.name) x))]
      intro k hkm
      obtain ⟨kd, h1, h2⟩ := hk k hkm
      exact ih _ k kd h1 h2

theorem headerOf_ended (fake : Bool) (x : Str × Nat) (s : Str) (h : headerOf fake w x = .ok s) : Ended s := by
  unfold headerOf at h
  cases hc : w.reg.cls[x.2]? with
  | none => simp only [hc] at h; cases h
  | some cd =>
    simp only [hc] at h
    unfold classText at h
    obtain ⟨a, _, h⟩ := Res.bind_eq_ok.1 h
    obtain ⟨b, _, h⟩ := Res.bind_eq_ok.1 h
    obtain ⟨c, _, h⟩ := Res.bind_eq_ok.1 h
    cases h
    right
    rw [List.getLast?_append]
    rfl

theorem nsHeader_list (fake : Bool) (inv : TreeInv w.reg π σ) {B : Nat} (hB : Bound w.reg π σ B) (d : Nat) :
    ∀ scope n nd, w.reg.ns[n]? = some nd → 2 * B < d + (π n).length →
      nsHeader fake w d scope n = catMap (headerOf fake w) (nsList w.reg d scope n) := by
  induction d with
  | zero =>
    intro scope n nd hn hf
    obtain ⟨d', e, _⟩ := fuel_ns inv hB hn hf
    omega
  | succ d ih =>
    intro scope n nd hn hf
    obtain ⟨d', e, hc, hk⟩ := fuel_ns inv hB hn hf
    cases e
    rw [nsHeader, withNs_some hn, nsList]
    simp only [hn]
    have h1 : ∀ c ∈ nd.classes, classHeader fake w d (nsScope scope nd.name) c =
        catMap (headerOf fake w) (clsList w.reg d (nsScope scope nd.name) c) := by
      intro c hcm
      obtain ⟨cd, h1, h2⟩ := hc c hcm
      exact classHeader_list fake inv hB d _ c cd h1 h2
    have h2 : ∀ k ∈ nd.namespaces, nsHeader fake w d (nsScope scope nd.name) k =
        catMap (headerOf fake w) (nsList w.reg d (nsScope scope nd.name) k) := by
      intro k hkm
      obtain ⟨kd, h1, h2⟩ := hk k hkm
      exact ih _ k kd h1 h2
    rw [catMap_newline fun c hcm s hs => catMap_ended (fun x _ => headerOf_ended fake x) s ((h1 c hcm).symm.trans hs),
      catMap_newline fun c hcm s hs => catMap_ended (fun x _ => headerOf_ended fake x) s ((h2 c hcm).symm.trans hs),
      catMap_congr h1, catMap_congr h2, catMap_append, catMap_flatMap, catMap_flatMap]

theorem nsStubs_list (fake : Bool) (inv : TreeInv w.reg π σ) {B : Nat} (hB : Bound w.reg π σ B) (d : Nat) :
    ∀ scope n nd, w.reg.ns[n]? = some nd → 2 * B < d + (π n).length →
      nsStubs fake w d scope n = catMap (stubsOf fake w) (nsListPost w.reg d scope n) := by
  induction d with
  | zero =>
    intro scope n nd hn hf
    obtain ⟨d', e, _⟩ := fuel_ns inv hB hn hf
    omega
  | succ d ih =>
    intro scope n nd hn hf
    obtain ⟨d', e, hc, hk⟩ := fuel_ns inv hB hn hf
    cases e
    rw [nsStubs, withNs_some hn, nsListPost]
    simp only [hn]
    rw [catMap_append, catMap_flatMap, catMap_flatMap]
    rw [catMap_congr (l := nd.classes) (g := fun x => catMap (stubsOf fake w) (clsListPost w.reg d (nsScope scope nd.name) x)),
      catMap_congr (l := nd.namespaces) (g := fun x => catMap (stubsOf fake w) (nsListPost w.reg d (nsScope scope nd.name) x))]
    · intro k hkm
      obtain ⟨kd, h1, h2⟩ := hk k hkm
      exact ih _ k kd h1 h2
    · intro c hcm
      obtain ⟨cd, h1, h2⟩ := hc c hcm
      exact classStubs_list fake inv hB d _ c cd h1 h2

theorem nsRegister_list (fake : Bool) (inv : TreeInv w.reg π σ) {B : Nat} (hB : Bound w.reg π σ B) (d : Nat) :
    ∀ scope n nd, w.reg.ns[n]? = some nd → 2 * B < d + (π n).length →
      nsRegister fake w d n = catMap (registerOf fake w) (nsList w.reg d scope n) := by
  induction d with
  | zero =>
    intro scope n nd hn hf
    obtain ⟨d', e, _⟩ := fuel_ns inv hB hn hf
    omega
  | succ d ih =>
    intro scope n nd hn hf
    obtain ⟨d', e, hc, hk⟩ := fuel_ns inv hB hn hf
    cases e
    rw [nsRegister, withNs_some hn, nsList]
    simp only [hn]
    rw [catMap_append, catMap_flatMap, catMap_flatMap]
    rw [catMap_congr (l := nd.classes) (g := fun x => catMap (registerOf fake w) (clsList w.reg d (nsScope scope nd.name) x)),
      catMap_congr (l := nd.namespaces) (g := fun x => catMap (registerOf fake w) (nsList w.reg d (nsScope scope nd.name) x))]
    · intro k hkm
      obtain ⟨kd, h1, h2⟩ := hk k hkm
      exact ih _ k kd h1 h2
    · intro c hcm
      obtain ⟨cd, h1, h2⟩ := hc c hcm
      exact classRegister_list fake inv hB d _ c cd h1 h2

/-! ### Which classes are listed -/

/-- The scope of a package path. -/
def pathScope (ps : List Str) : Str := "jnivm".toList ++ (ps.filter (· ≠ [])).flatMap ("::".toList ++ ·)

/-- The scope of a class. -/
def partsScope (ps cs : List Str) : Str := pathScope ps ++ cs.flatMap ("::".toList ++ ·)

theorem addScope_parts (ps cs : List Str) (s : Str) : addScope (partsScope ps cs) s = partsScope ps (cs ++ [s]) := by
  unfold addScope
  rw [if_neg (by simp [partsScope, pathScope])]
  simp [partsScope]

theorem nsScope_path (ps : List Str) (s : Str) : nsScope (pathScope ps) s = pathScope (ps ++ [s]) := by
  unfold nsScope addScope
  by_cases h : s = []
  · rw [if_pos h, h]; simp [pathScope]
  · rw [if_neg h, if_neg (by simp [pathScope])]
    simp [pathScope, h]

theorem clsAt_kid (sib : SibInv r) {ps cs : List Str} {c k : Nat} {cd kd : ClassNode} (hne : cs ≠ [])
    (hat : r.clsAt ps cs = some c) (hc : r.cls[c]? = some cd) (hk : k ∈ cd.classes) (hkd : r.cls[k]? = some kd) :
    r.clsAt ps (cs ++ [kd.name]) = some k := by
  rw [clsAt_snoc _ _ _ hne, hat]
  exact ((sib.clsKids c cd hc).2 k hk kd hkd).1

/-- The paths of a class below a class. -/
def Below (r : Registry) (ps cs : List Str) (s : Str) (k : Nat) (ds : List Str) : Prop :=
  r.clsAt ps (cs ++ ds) = some k ∧ s = partsScope ps (cs ++ ds) ∧
    ∀ i j, ds = i ++ j → joinName (ps, cs ++ i) ∉ blacklisted

theorem clsList_sound (inv : TreeInv r π σ) (sib : SibInv r) {ps : List Str} (d : Nat) :
    ∀ (cs : List Str) (scope : Str) (c : Nat) (cd : ClassNode), cs ≠ [] → r.clsAt ps cs = some c → r.cls[c]? = some cd →
      addScope scope cd.name = partsScope ps cs →
      ∀ s k, (s, k) ∈ clsList r d scope c → ∃ ds, Below r ps cs s k ds := by
  induction d with
  | zero => intro _ _ _ _ _ _ _ _ s k h; simp [clsList] at h
  | succ d ih =>
    intro cs scope c cd hne hat hc hs s k h
    rw [clsList] at h
    simp only [hc] at h
    have hpre : cd.nativeprefix = joinName (ps, cs) := by
      obtain ⟨cd', h1, _, _, h2⟩ := clsAt_spec inv _ _ hat
      rw [hc] at h1; cases h1; exact h2
    by_cases hb : cd.nativeprefix ∈ blacklisted
    · rw [if_pos hb] at h; cases h
    · rw [if_neg hb] at h
      rcases List.mem_cons.1 h with h | h
      · cases h
        refine ⟨[], by simpa using hat, by simpa using hs, ?_⟩
        intro i j e
        obtain ⟨rfl, rfl⟩ := List.append_eq_nil_iff.1 e.symm
        rw [List.append_nil, ← hpre]
        exact hb
      · obtain ⟨x, hx, h⟩ := List.mem_flatMap.1 h
        obtain ⟨xd, hxd, _⟩ := inv.clsKids c cd hc x hx
        have hat' := clsAt_kid sib hne hat hc hx hxd
        obtain ⟨ds, h1, h2, h3⟩ := ih (cs ++ [xd.name]) _ x xd (by simp) hat' hxd
          (by rw [hs, addScope_parts]) s k h
        refine ⟨xd.name :: ds, ?_, ?_, ?_⟩
        · simpa using h1
        · simpa using h2
        · intro i j e
          cases i with
          | nil => rw [List.append_nil, ← hpre]; exact hb
          | cons y i =>
            cases e
            have := h3 i j rfl
            simpa using this

theorem clsClass_mem {c k : Nat} {s : Str} {cd : ClassNode} (hc : r.cls[c]? = some cd) (h : r.clsClass c s = some k) :
    k ∈ cd.classes ∧ ∃ kd, r.cls[k]? = some kd ∧ kd.name = s := by
  unfold Registry.clsClass at h
  rw [hc] at h
  exact find_spec h

theorem nsClass_mem {n k : Nat} {s : Str} {nd : NsNode} (hn : r.ns[n]? = some nd) (h : r.nsClass n s = some k) :
    k ∈ nd.classes ∧ ∃ kd, r.cls[k]? = some kd ∧ kd.name = s := by
  unfold Registry.nsClass at h
  rw [hn] at h
  exact find_spec h

theorem nsChild_mem {n k : Nat} {s : Str} {nd : NsNode} (hn : r.ns[n]? = some nd) (h : r.nsChild n s = some k) :
    k ∈ nd.namespaces ∧ ∃ kd, r.ns[k]? = some kd ∧ kd.name = s := by
  unfold Registry.nsChild at h
  rw [hn] at h
  exact find_spec h

theorem clsAt_prefix {ps cs ds : List Str} {k : Nat} (hne : cs ≠ []) (h : r.clsAt ps (cs ++ ds) = some k) :
    ∃ c, r.clsAt ps cs = some c := by
  induction ds using snoc_induction generalizing k with
  | h0 => exact ⟨k, by simpa using h⟩
  | h1 ds s ih =>
    rw [← List.append_assoc, clsAt_snoc _ _ _ (by simp [hne]), Option.bind_eq_some_iff] at h
    obtain ⟨m, hm, _⟩ := h
    exact ih hm

theorem clsList_complete (inv : TreeInv r π σ) {ps : List Str} (ds : List Str) :
    ∀ (d : Nat) (cs : List Str) (scope : Str) (c : Nat) (cd : ClassNode), ds.length < d → cs ≠ [] →
      r.clsAt ps cs = some c → r.cls[c]? = some cd → addScope scope cd.name = partsScope ps cs →
      ∀ s k, Below r ps cs s k ds → (s, k) ∈ clsList r d scope c := by
  induction ds with
  | nil =>
    intro d cs scope c cd hd hne hat hc hs s k ⟨h1, h2, h3⟩
    cases d with
    | zero => cases hd
    | succ d =>
      obtain ⟨cd', h4, _, _, h5⟩ := clsAt_spec inv _ _ hat
      rw [hc] at h4; cases h4
      have hb := h3 [] [] rfl
      rw [List.append_nil, ← h5] at hb
      rw [List.append_nil] at h1 h2
      rw [hat] at h1; cases h1
      rw [clsList]
      simp only [hc]
      rw [if_neg hb, h2, ← hs]
      exact List.mem_cons_self
  | cons x ds ih =>
    intro d cs scope c cd hd hne hat hc hs s k ⟨h1, h2, h3⟩
    cases d with
    | zero => cases hd
    | succ d =>
      obtain ⟨cd', h4, _, _, h5⟩ := clsAt_spec inv _ _ hat
      rw [hc] at h4; cases h4
      have hb := h3 [] (x :: ds) rfl
      rw [List.append_nil, ← h5] at hb
      have e : cs ++ x :: ds = (cs ++ [x]) ++ ds := by simp
      rw [e] at h1 h2
      obtain ⟨m, hm⟩ := clsAt_prefix (by simp) h1
      have hm' := hm
      rw [clsAt_snoc _ _ _ hne, hat] at hm'
      obtain ⟨h6, md, h7, h8⟩ := clsClass_mem hc hm'
      rw [clsList]
      simp only [hc]
      rw [if_neg hb]
      refine List.mem_cons_of_mem _ (List.mem_flatMap.2 ⟨m, h6, ?_⟩)
      refine ih d (cs ++ [x]) _ m md (by simpa using hd) (by simp) hm h7 ?_ s k ⟨h1, h2, ?_⟩
      · rw [hs, h8, addScope_parts]
      · intro i j eij
        have := h3 (x :: i) j (by rw [eij]; rfl)
        simpa using this

/-- The paths of a class below a namespace. -/
def BelowNs (r : Registry) (ps : List Str) (s : Str) (k : Nat) (qs cs : List Str) : Prop :=
  cs ≠ [] ∧ r.clsAt (ps ++ qs) cs = some k ∧ s = partsScope (ps ++ qs) cs ∧
    ∀ i j, cs = i ++ j → i ≠ [] → joinName (ps ++ qs, i) ∉ blacklisted

theorem nsAt_kid (sib : SibInv r) {ps : List Str} {n k : Nat} {nd kd : NsNode}
    (hat : r.nsAt ps = some n) (hn : r.ns[n]? = some nd) (hk : k ∈ nd.namespaces) (hkd : r.ns[k]? = some kd) :
    r.nsAt (ps ++ [kd.name]) = some k := by
  rw [nsAt_snoc, hat]
  exact ((sib.nsKids n nd hn).2 k hk kd hkd).1

theorem clsAt_of_ns (sib : SibInv r) {ps : List Str} {n c : Nat} {nd : NsNode} {cd : ClassNode}
    (hat : r.nsAt ps = some n) (hn : r.ns[n]? = some nd) (hc : c ∈ nd.classes) (hcd : r.cls[c]? = some cd) :
    r.clsAt ps [cd.name] = some c := by
  rw [clsAt_one, hat]
  exact ((sib.nsClasses n nd hn).2 c hc cd hcd).1

theorem addScope_path (ps : List Str) (s : Str) : addScope (pathScope ps) s = partsScope ps [s] := by
  have := addScope_parts ps [] s
  simpa [partsScope] using this

theorem nsList_sound (inv : TreeInv r π σ) (sib : SibInv r) (d : Nat) :
    ∀ (ps : List Str) (scope : Str) (n : Nat) (nd : NsNode), r.nsAt ps = some n → r.ns[n]? = some nd →
      nsScope scope nd.name = pathScope ps →
      ∀ s k, (s, k) ∈ nsList r d scope n → ∃ qs cs, BelowNs r ps s k qs cs := by
  induction d with
  | zero => intro _ _ _ _ _ _ _ s k h; simp [nsList] at h
  | succ d ih =>
    intro ps scope n nd hat hn hs s k h
    rw [nsList] at h
    simp only [hn] at h
    rcases List.mem_append.1 h with h | h
    · obtain ⟨c, hc, h⟩ := List.mem_flatMap.1 h
      obtain ⟨cd, hcd, _⟩ := inv.nsClasses n nd hn c hc
      have hat' := clsAt_of_ns sib hat hn hc hcd
      obtain ⟨ds, h1, h2, h3⟩ := clsList_sound inv sib d [cd.name] _ c cd (by simp) hat' hcd
        (by rw [hs, addScope_path]) s k h
      refine ⟨[], cd.name :: ds, by simp, ?_, ?_, ?_⟩
      · simpa using h1
      · simpa using h2
      · intro i j e hi
        cases i with
        | nil => exact absurd rfl hi
        | cons y i =>
          cases e
          have := h3 i j rfl
          simpa using this
    · obtain ⟨x, hx, h⟩ := List.mem_flatMap.1 h
      obtain ⟨xd, hxd, _⟩ := inv.nsKids n nd hn x hx
      have hat' := nsAt_kid sib hat hn hx hxd
      obtain ⟨qs, cs, h0, h1, h2, h3⟩ := ih (ps ++ [xd.name]) _ x xd hat' hxd (by rw [hs, nsScope_path]) s k h
      rw [List.append_assoc] at h1 h2 h3
      exact ⟨xd.name :: qs, cs, h0, h1, h2, h3⟩

theorem nsAt_prefix {ps qs : List Str} {n : Nat} (h : r.nsAt (ps ++ qs) = some n) : ∃ m, r.nsAt ps = some m := by
  induction qs using snoc_induction generalizing n with
  | h0 => exact ⟨n, by simpa using h⟩
  | h1 qs s ih =>
    rw [← List.append_assoc, nsAt_snoc, Option.bind_eq_some_iff] at h
    obtain ⟨m, hm, _⟩ := h
    exact ih hm

theorem clsAt_ns {ps cs : List Str} {k : Nat} (h : r.clsAt ps cs = some k) :
    ∃ n s cs', cs = s :: cs' ∧ r.nsAt ps = some n ∧ ∃ c, r.nsClass n s = some c := by
  cases cs with
  | nil => cases h
  | cons s cs =>
    unfold Registry.clsAt at h
    obtain ⟨n, h1, h⟩ := Option.bind_eq_some_iff.1 h
    obtain ⟨c, h2, h⟩ := Option.bind_eq_some_iff.1 h
    exact ⟨n, s, cs, rfl, h1, c, h2⟩

theorem nsList_complete (inv : TreeInv r π σ) (qs : List Str) :
    ∀ (d : Nat) (ps : List Str) (scope : Str) (n : Nat) (nd : NsNode) (cs : List Str), qs.length + cs.length < d →
      r.nsAt ps = some n → r.ns[n]? = some nd → nsScope scope nd.name = pathScope ps →
      ∀ s k, BelowNs r ps s k qs cs → (s, k) ∈ nsList r d scope n := by
  induction qs with
  | nil =>
    intro d ps scope n nd cs hd hat hn hs s k ⟨h0, h1, h2, h3⟩
    cases d with
    | zero => cases hd
    | succ d =>
      rw [List.append_nil] at h1 h2 h3
      obtain ⟨n', y, cs', rfl, h4, c, h5⟩ := clsAt_ns h1
      rw [hat] at h4; cases h4
      obtain ⟨h6, cd, h7, h8⟩ := nsClass_mem hn h5
      rw [nsList]
      simp only [hn]
      refine List.mem_append_left _ (List.mem_flatMap.2 ⟨c, h6, ?_⟩)
      have hat' : r.clsAt ps [y] = some c := by rw [clsAt_one, hat]; exact h5
      refine clsList_complete inv cs' d [y] _ c cd ?_ (by simp) hat' h7 ?_ s k ⟨h1, h2, ?_⟩
      · simp at hd; omega
      · rw [hs, h8, addScope_path]
      · intro i j e
        exact h3 (y :: i) j (by rw [e]; rfl) (by simp)
  | cons x qs ih =>
    intro d ps scope n nd cs hd hat hn hs s k ⟨h0, h1, h2, h3⟩
    cases d with
    | zero => cases hd
    | succ d =>
      have e : ps ++ x :: qs = (ps ++ [x]) ++ qs := by simp
      rw [e] at h1 h2 h3
      obtain ⟨n', y, cs', e', h4, c, h5⟩ := clsAt_ns h1
      obtain ⟨m, hm⟩ := nsAt_prefix h4
      have hm' := hm
      rw [nsAt_snoc, hat] at hm'
      obtain ⟨h6, md, h7, h8⟩ := nsChild_mem hn hm'
      rw [nsList]
      simp only [hn]
      refine List.mem_append_right _ (List.mem_flatMap.2 ⟨m, h6, ?_⟩)
      refine ih d (ps ++ [x]) _ m md cs ?_ hm h7 ?_ s k ⟨h0, h1, h2, h3⟩
      · simp at hd; omega
      · rw [hs, h8, nsScope_path]

/-! ### Each class is listed once -/

theorem clsList_nodup (inv : TreeInv r π σ) (sib : SibInv r) {ps : List Str} (d : Nat) :
    ∀ (cs : List Str) (scope : Str) (c : Nat) (cd : ClassNode), cs ≠ [] → r.clsAt ps cs = some c → r.cls[c]? = some cd →
      addScope scope cd.name = partsScope ps cs →
      (clsList r d scope c).Pairwise fun x y => x.2 ≠ y.2 := by
  induction d with
  | zero => intro _ _ _ _ _ _ _ _; exact List.Pairwise.nil
  | succ d ih =>
    intro cs scope c cd hne hat hc hs
    rw [clsList]
    simp only [hc]
    have below : ∀ x ∈ cd.classes, ∀ p ∈ clsList r d (addScope scope cd.name) x, ∃ xd ds, r.cls[x]? = some xd ∧
        r.clsAt ps (cs ++ [xd.name]) = some x ∧ σ p.2 = (ps, cs ++ xd.name :: ds) := by
      intro x hx p hp
      obtain ⟨xd, hxd, _⟩ := inv.clsKids c cd hc x hx
      have hat' := clsAt_kid sib hne hat hc hx hxd
      obtain ⟨ds, h1, _, _⟩ := clsList_sound inv sib d (cs ++ [xd.name]) _ x xd (by simp) hat' hxd
        (by rw [hs, addScope_parts]) p.1 p.2 hp
      obtain ⟨_, _, h2, _⟩ := clsAt_spec inv _ _ h1
      refine ⟨xd, ds, hxd, hat', ?_⟩
      rw [h2]; simp
    split
    · exact List.Pairwise.nil
    · rw [List.pairwise_cons, List.pairwise_flatMap]
      refine ⟨?_, ?_, ?_⟩
      · intro p hp e
        obtain ⟨x, hx, hp⟩ := List.mem_flatMap.1 hp
        obtain ⟨xd, ds, _, _, h⟩ := below x hx p hp
        obtain ⟨_, _, h2, _⟩ := clsAt_spec inv _ _ hat
        simp only at e
        rw [← e, h2] at h
        have := congrArg (fun q => q.2.length) h
        simp at this
      · intro x hx
        obtain ⟨xd, hxd, _⟩ := inv.clsKids c cd hc x hx
        exact ih (cs ++ [xd.name]) _ x xd (by simp) (clsAt_kid sib hne hat hc hx hxd) hxd
          (by rw [hs, addScope_parts])
      · refine List.Pairwise.imp_of_mem ?_ (sib.clsKids c cd hc).1
        intro x y hx hy hxy p hp q hq e
        obtain ⟨xd, ds, h1, h2, h3⟩ := below x hx p hp
        obtain ⟨yd, es, h4, h5, h6⟩ := below y hy q hq
        rw [e, h6] at h3
        have h3 := (List.cons.inj (List.append_cancel_left (Prod.mk.inj h3).2)).1
        rw [h3] at h5
        rw [h2] at h5
        exact hxy (Option.some.inj h5)

theorem nsList_nodup (inv : TreeInv r π σ) (sib : SibInv r) (d : Nat) :
    ∀ (ps : List Str) (scope : Str) (n : Nat) (nd : NsNode), r.nsAt ps = some n → r.ns[n]? = some nd →
      nsScope scope nd.name = pathScope ps →
      (nsList r d scope n).Pairwise fun x y => x.2 ≠ y.2 := by
  induction d with
  | zero => intro _ _ _ _ _ _ _; exact List.Pairwise.nil
  | succ d ih =>
    intro ps scope n nd hat hn hs
    rw [nsList]
    simp only [hn]
    have belowC : ∀ x ∈ nd.classes, ∀ p ∈ clsList r d (nsScope scope nd.name) x, ∃ xd ds, r.cls[x]? = some xd ∧
        r.clsAt ps [xd.name] = some x ∧ σ p.2 = (ps, xd.name :: ds) := by
      intro x hx p hp
      obtain ⟨xd, hxd, _⟩ := inv.nsClasses n nd hn x hx
      have hat' := clsAt_of_ns sib hat hn hx hxd
      obtain ⟨ds, h1, _, _⟩ := clsList_sound inv sib d [xd.name] _ x xd (by simp) hat' hxd
        (by rw [hs, addScope_path]) p.1 p.2 hp
      obtain ⟨_, _, h2, _⟩ := clsAt_spec inv _ _ h1
      exact ⟨xd, ds, hxd, hat', by rw [h2]; rfl⟩
    have belowN : ∀ x ∈ nd.namespaces, ∀ p ∈ nsList r d (nsScope scope nd.name) x, ∃ xd qs cs, r.ns[x]? = some xd ∧
        r.nsAt (ps ++ [xd.name]) = some x ∧ σ p.2 = (ps ++ xd.name :: qs, cs) := by
      intro x hx p hp
      obtain ⟨xd, hxd, _⟩ := inv.nsKids n nd hn x hx
      have hat' := nsAt_kid sib hat hn hx hxd
      obtain ⟨qs, cs, _, h1, _, _⟩ := nsList_sound inv sib d (ps ++ [xd.name]) _ x xd hat' hxd
        (by rw [hs, nsScope_path]) p.1 p.2 hp
      obtain ⟨_, _, h2, _⟩ := clsAt_spec inv _ _ h1
      exact ⟨xd, qs, cs, hxd, hat', by rw [h2]; simp⟩
    rw [List.pairwise_append, List.pairwise_flatMap, List.pairwise_flatMap]
    refine ⟨⟨?_, ?_⟩, ⟨?_, ?_⟩, ?_⟩
    · intro x hx
      obtain ⟨xd, hxd, _⟩ := inv.nsClasses n nd hn x hx
      exact clsList_nodup inv sib d [xd.name] _ x xd (by simp) (clsAt_of_ns sib hat hn hx hxd) hxd
        (by rw [hs, addScope_path])
    · refine List.Pairwise.imp_of_mem ?_ (sib.nsClasses n nd hn).1
      intro x y hx hy hxy p hp q hq e
      obtain ⟨xd, ds, h1, h2, h3⟩ := belowC x hx p hp
      obtain ⟨yd, es, h4, h5, h6⟩ := belowC y hy q hq
      rw [e, h6] at h3
      have h3 := (List.cons.inj (Prod.mk.inj h3).2).1
      rw [h3, h2] at h5
      exact hxy (Option.some.inj h5)
    · intro x hx
      obtain ⟨xd, hxd, _⟩ := inv.nsKids n nd hn x hx
      exact ih (ps ++ [xd.name]) _ x xd (nsAt_kid sib hat hn hx hxd) hxd (by rw [hs, nsScope_path])
    · refine List.Pairwise.imp_of_mem ?_ (sib.nsKids n nd hn).1
      intro x y hx hy hxy p hp q hq e
      obtain ⟨xd, ds, _, h1, h2, h3⟩ := belowN x hx p hp
      obtain ⟨yd, es, _, h4, h5, h6⟩ := belowN y hy q hq
      rw [e, h6] at h3
      have h3 := (List.cons.inj (List.append_cancel_left (Prod.mk.inj h3).1)).1
      rw [h3, h2] at h5
      exact hxy (Option.some.inj h5)
    · intro p hp q hq e
      obtain ⟨x, hx, hp⟩ := List.mem_flatMap.1 hp
      obtain ⟨y, hy, hq⟩ := List.mem_flatMap.1 hq
      obtain ⟨_, _, _, _, h3⟩ := belowC x hx p hp
      obtain ⟨_, _, _, _, _, h6⟩ := belowN y hy q hq
      rw [e, h6] at h3
      have := congrArg (fun q => q.1.length) h3
      simp at this

/-! ### Scopes -/

theorem cppPath_no_slash {s : Str} (h : '/' ∉ s) : cppPath s = cppName s := by
  induction s with
  | nil => rfl
  | cons c t ih =>
    simp only [List.mem_cons, not_or] at h
    rw [cppPath, cppName, ih h.2]
    congr 1
    by_cases hc : c = '$'
    · rw [if_pos (.inr ⟨hc, h.2⟩), if_pos (.inr hc)]
    · rw [if_neg (fun h' => h'.elim (fun e => h.1 e.symm) (fun e => hc e.1)), if_neg (fun h' => h'.elim (fun e => h.1 e.symm) hc)]

theorem squeeze_no_slash {s : Str} (h : '/' ∉ s) (b : Bool) : squeeze b s = s := by
  induction s generalizing b with
  | nil => rfl
  | cons c t ih =>
    simp only [List.mem_cons, not_or] at h
    rw [squeeze, if_neg (fun e => h.1 e.1.symm), ih h.2]

theorem squeeze_seg {p : Str} (hp : '/' ∉ p) (hne : p ≠ []) (b : Bool) (t : Str) :
    squeeze b (p ++ '/' :: t) = p ++ '/' :: squeeze true t := by
  induction p generalizing b with
  | nil => exact absurd rfl hne
  | cons c p ih =>
    simp only [List.mem_cons, not_or] at hp
    rw [List.cons_append, squeeze, if_neg (fun e => hp.1 e.1.symm)]
    by_cases h : p = []
    · subst h
      have : decide (c = '/') = false := by simpa using Ne.symm hp.1
      rw [this, List.nil_append, squeeze, if_neg (by simp)]
      rfl
    · rw [ih hp.2 h]; rfl

theorem squeeze_join {ps : List Str} {s : Str} (hp : ∀ p ∈ ps, '/' ∉ p) (hs : '/' ∉ s) :
    squeeze true (joinNs ps ++ s) = joinNs (ps.filter (· ≠ [])) ++ s := by
  induction ps with
  | nil => simpa [joinNs] using squeeze_no_slash hs true
  | cons p ps ih =>
    have e : joinNs (p :: ps) ++ s = p ++ '/' :: (joinNs ps ++ s) := by simp [joinNs]
    have hi := ih fun q hq => hp q (by simp [hq])
    rw [e]
    by_cases h : p = []
    · subst h
      rw [List.nil_append, squeeze, if_pos (by simp), hi]
      simp
    · rw [squeeze_seg (hp p (by simp)) h, hi]
      simp [h, joinNs]

theorem cppPath_seg {p : Str} (hp : '/' ∉ p) (t : Str) :
    cppPath (p ++ '/' :: t) = p ++ "::".toList ++ cppPath t := by
  induction p with
  | nil => rw [List.nil_append, cppPath, if_pos (.inl rfl)]; rfl
  | cons c p ih =>
    simp only [List.mem_cons, not_or] at hp
    rw [List.cons_append, cppPath, if_neg, ih hp.2]
    · rfl
    · rintro (h | ⟨_, h⟩)
      · exact hp.1 h.symm
      · exact h (by simp)

theorem cppPath_join {ps : List Str} {s : Str} (hp : ∀ p ∈ ps, '/' ∉ p) (hs : '/' ∉ s) :
    cppPath (joinNs ps ++ s) = ps.flatMap (· ++ "::".toList) ++ cppName s := by
  induction ps with
  | nil => simpa [joinNs] using cppPath_no_slash hs
  | cons p ps ih =>
    have e : joinNs (p :: ps) ++ s = p ++ '/' :: (joinNs ps ++ s) := by simp [joinNs]
    rw [e, cppPath_seg (hp p (by simp)), ih fun q hq => hp q (by simp [hq])]
    simp

theorem cppName_append (a b : Str) : cppName (a ++ b) = cppName a ++ cppName b := by
  induction a with
  | nil => rfl
  | cons c a ih => rw [List.cons_append, cppName, ih, cppName, List.append_assoc]

theorem cppName_id {s : Str} (h1 : '/' ∉ s) (h2 : '$' ∉ s) : cppName s = s := by
  induction s with
  | nil => rfl
  | cons c t ih =>
    simp only [List.mem_cons, not_or] at h1 h2
    rw [cppName, if_neg (fun e => e.elim (fun e => h1.1 e.symm) (fun e => h2.1 e.symm)), ih h1.2 h2.2]
    rfl

theorem cppName_joinCls {cs : List Str} (h : ∀ s ∈ cs, '/' ∉ s ∧ '$' ∉ s) (hne : cs ≠ []) :
    "::".toList ++ cppName (joinCls cs) = cs.flatMap ("::".toList ++ ·) := by
  induction cs with
  | nil => exact absurd rfl hne
  | cons c cs ih =>
    cases cs with
    | nil => rw [joinCls, cppName_id (h c (by simp)).1 (h c (by simp)).2]; simp
    | cons d ds =>
      rw [joinCls]
      · have e : cppName ('$' :: joinCls (d :: ds)) = "::".toList ++ cppName (joinCls (d :: ds)) := by
          rw [cppName, if_pos (.inr rfl)]
        rw [cppName_append, cppName_id (h c (by simp)).1 (h c (by simp)).2, e, ih (fun s hs => h s (by simp_all)) (by simp)]
        simp
      · simp

theorem colons_flip (l : List Str) :
    "::".toList ++ l.flatMap (· ++ "::".toList) = l.flatMap ("::".toList ++ ·) ++ "::".toList := by
  induction l with
  | nil => rfl
  | cons x l ih =>
    rw [List.flatMap_cons, List.flatMap_cons, List.append_assoc, List.append_assoc, List.append_assoc, ← ih]

theorem cppScope_join {ps cs : List Str} (h : GoodParts (ps, cs)) : cppScope (joinName (ps, cs)) = partsScope ps cs := by
  obtain ⟨h1, h2, h3⟩ := h
  simp only at h1 h2 h3
  have hs : '/' ∉ joinCls cs := slash_not_mem_joinCls fun s hs => (h2 s hs).1
  unfold cppScope joinName
  rw [squeeze_join h1 hs, cppPath_join (fun p hp => h1 p (List.mem_filter.1 hp).1) hs]
  unfold partsScope pathScope
  rw [← cppName_joinCls h2 h3]
  have := colons_flip (ps.filter (· ≠ []))
  rw [show "jnivm::".toList = "jnivm".toList ++ "::".toList from rfl]
  rw [List.append_assoc, ← List.append_assoc "::".toList, this]
  simp only [List.append_assoc]

theorem cppScope_plain {n : Str} (h : PlainName n) : cppScope n = "jnivm::".toList ++ cppName n := by
  have h1 : ∀ b a, n = a ++ b → squeeze (a = [] ∨ a.getLast? = some '/') b = b := by
    intro b
    induction b with
    | nil => intro a _; rfl
    | cons c t ih =>
      intro a e
      have e' : n = (a ++ [c]) ++ t := by rw [e]; simp
      have hi := ih (a ++ [c]) e'
      have hl : decide ((a ++ [c] = []) ∨ (a ++ [c]).getLast? = some '/') = decide (c = '/') := by
        simp
      rw [hl] at hi
      rw [squeeze, hi]
      apply if_neg
      rintro ⟨rfl, hd⟩
      obtain ⟨h1, h2, _⟩ := h a t e
      have := of_decide_eq_true hd
      exact this.elim h1 h2
  have h2 : ∀ b a, n = a ++ b → cppPath b = cppName b := by
    intro b
    induction b with
    | nil => intro a _; rfl
    | cons c t ih =>
      intro a e
      rw [cppPath, cppName, ih (a ++ [c]) (by rw [e]; simp)]
      congr 1
      by_cases hc : c = '/'
      · rw [if_pos (.inl hc), if_pos (.inl hc)]
      · by_cases hd : c = '$'
        · have ht : '/' ∉ t := by
            intro ht
            obtain ⟨x, y, rfl⟩ := List.append_of_mem ht
            obtain ⟨_, _, h3⟩ := h (a ++ c :: x) y (by rw [e]; simp)
            exact h3 (by simp [hd])
          rw [if_pos (.inr ⟨hd, ht⟩), if_pos (.inr hd)]
        · rw [if_neg (fun e => e.elim hc fun e => hd e.1), if_neg (fun e => e.elim hc hd)]
  have e := h1 n [] rfl
  have hd : decide (([] : Str) = [] ∨ ([] : Str).getLast? = some '/') = true := by decide
  rw [hd] at e
  unfold cppScope
  rw [e, h2 n [] rfl]

/-! ### All classes -/

theorem nsAt_good (sib : SibInv r) : ∀ (ps : List Str) {n : Nat}, r.nsAt ps = some n → ∀ p ∈ ps, '/' ∉ p := by
  intro ps
  induction ps using snoc_induction with
  | h0 => intro _ _ p hp; cases hp
  | h1 ps s ih =>
    intro n h p hp
    rw [nsAt_snoc, Option.bind_eq_some_iff] at h
    obtain ⟨m, hm, hc⟩ := h
    rcases List.mem_append.1 hp with hp | hp
    · exact ih hm p hp
    · rw [List.mem_singleton] at hp
      subst hp
      cases hmd : r.ns[m]? with
      | none => unfold Registry.nsChild at hc; rw [hmd] at hc; cases hc
      | some md =>
        obtain ⟨h1, kd, h2, h3⟩ := nsChild_mem hmd hc
        rw [← h3]
        exact ((sib.nsKids m md hmd).2 n h1 kd h2).2

theorem clsAt_good (sib : SibInv r) (ps : List Str) : ∀ (cs : List Str) {k : Nat}, r.clsAt ps cs = some k →
    GoodParts (ps, cs) ∧ ∀ kd, r.cls[k]? = some kd → kd.nativeprefix.head? ≠ some '[' := by
  intro cs
  induction cs using snoc_induction with
  | h0 => intro k h; cases h
  | h1 cs s ih =>
    intro k h
    by_cases hcs : cs = []
    · subst hcs
      rw [List.nil_append, clsAt_one, Option.bind_eq_some_iff] at h
      obtain ⟨m, hm, hc⟩ := h
      cases hmd : r.ns[m]? with
      | none => unfold Registry.nsClass at hc; rw [hmd] at hc; cases hc
      | some md =>
        obtain ⟨h1, kd, h2, h3⟩ := nsClass_mem hmd hc
        obtain ⟨_, h4, h5, h6⟩ := (sib.nsClasses m md hmd).2 k h1 kd h2
        refine ⟨⟨nsAt_good sib ps hm, ?_, by simp⟩, ?_⟩
        · intro x hx
          rw [List.nil_append, List.mem_singleton] at hx
          rw [hx, ← h3]; exact ⟨h4, h5⟩
        · intro kd' hk
          rw [h2] at hk; cases hk; exact h6
    · rw [clsAt_snoc _ _ _ hcs, Option.bind_eq_some_iff] at h
      obtain ⟨m, hm, hc⟩ := h
      have hg := (ih hm).1
      cases hmd : r.cls[m]? with
      | none => unfold Registry.clsClass at hc; rw [hmd] at hc; cases hc
      | some md =>
        obtain ⟨h1, kd, h2, h3⟩ := clsClass_mem hmd hc
        obtain ⟨_, h4, h5, h6⟩ := (sib.clsKids m md hmd).2 k h1 kd h2
        refine ⟨⟨hg.1, ?_, by simp⟩, ?_⟩
        · intro x hx
          rcases List.mem_append.1 hx with hx | hx
          · exact hg.2.1 x hx
          · rw [List.mem_singleton] at hx
            rw [hx, ← h3]; exact ⟨h4, h5⟩
        · intro kd' hk
          rw [h2] at hk; cases hk; exact h6

/-- The list of all dumped classes with their scopes. -/
theorem nsList_spec (inv : RegInv r) : ∃ d0, ∀ d, d0 ≤ d →
    (∀ s k, (s, k) ∈ nsList r d [] 0 ↔ ∃ n, r.byName.lookup n = some k ∧ Dumped n ∧ s = cppScope n) ∧
    ((nsList r d [] 0).map Prod.snd).Nodup := by
  obtain ⟨π, σ, hT⟩ := inv.tree
  obtain ⟨B, hB⟩ := exists_bound r π σ
  obtain ⟨B2, hB2⟩ := exists_max (fun c => (σ c).1.length) r.cls.length
  have hroot : r.ns[0]? = some (r.ns[0]'hT.root) := List.getElem?_eq_getElem hT.root
  have hs : nsScope [] (r.ns[0]'hT.root).name = pathScope [] := by
    rw [inv.sib.rootName _ hroot]; rfl
  refine ⟨B + B2 + 1, fun d hd => ⟨fun s k => ⟨fun h => ?_, ?_⟩, ?_⟩⟩
  · obtain ⟨qs, cs, h0, h1, h2, h3⟩ := nsList_sound hT inv.sib d [] [] 0 _ rfl hroot hs s k h
    rw [List.nil_append] at h1 h2 h3
    obtain ⟨hg, hb⟩ := clsAt_good inv.sib _ _ h1
    obtain ⟨cd, e1, _, _, e2⟩ := clsAt_spec hT _ _ h1
    have hh : (joinName (qs, cs)).head? ≠ some '[' := by rw [← e2]; exact hb cd e1
    refine ⟨joinName (qs, cs), ?_, ⟨hh, ?_⟩, ?_⟩
    · rw [inv.map _ hh, parts_join hg]; exact h1
    · intro m hm
      rw [encloses_iff hh, parts_join hg] at hm
      obtain ⟨g1, i, j, g2, g3, g4⟩ := hm
      have g1 : (parts m).1 = qs := g1
      have := h3 i j g2 g3
      rw [← g4, ← g1] at this
      rwa [show ((parts m).1, (parts m).2) = parts m from rfl, joinName_parts] at this
    · rw [h2, cppScope_join hg]
  · rintro ⟨n, h1, ⟨h2, h3⟩, h4⟩
    rw [inv.map n h2] at h1
    have hg := parts_good n
    obtain ⟨cd, e1, e2, _, _⟩ := clsAt_spec hT _ _ h1
    have hk := (List.getElem?_eq_some_iff.1 e1).1
    have l1 := hB.cls k hk
    have l2 := hB2 k hk
    rw [e2] at l1
    simp only [e2] at l2
    refine nsList_complete hT (parts n).1 d [] [] 0 _ (parts n).2 (by simp only at l1; omega) rfl hroot hs s k ⟨hg.2.2, h1, ?_, ?_⟩
    · rw [h4, List.nil_append]
      conv => lhs; rw [← joinName_parts n]
      exact cppScope_join hg
    · intro i j e hi
      rw [List.nil_append]
      apply h3
      have hg' : GoodParts ((parts n).1, i) :=
        ⟨hg.1, fun x hx => hg.2.1 x (by rw [e]; simp [hx]), hi⟩
      rw [encloses_iff h2, parts_join hg']
      exact ⟨rfl, i, j, e, hi, rfl⟩
  · unfold List.Nodup
    rw [List.pairwise_map]
    exact nsList_nodup hT inv.sib d [] [] 0 _ rfl hroot hs

/-! ### When the dump succeeds -/

/-- No method that is declared by the dump has a signature that ends too early. -/
def Dumpable (w : World) (c : Nat) : Prop :=
  ∀ m ∈ (w.mem c).methods, m.native = none → cutOff .outside m.signature = false

theorem scanSig_outcome (fake : Bool) (sig : Str) : DumpOutcome (scanSig fake sig) (cutOff .outside sig = false) :=
  ⟨(scanSig_cut fake sig).2, fun h => (scanSig_cut fake sig).1 (by simpa using h)⟩

theorem native_outcome {m : MethodRec} {x : Res (List Str × Str)} {f : List Str × Str → Str} {p : Prop}
    (h : DumpOutcome x p) :
    DumpOutcome (if m.native.isSome then .ok [] else x.bind fun a => .ok (f a)) (m.native = none → p) := by
  cases hn : m.native with
  | none => exact h.map.congr (by simp)
  | some a => exact (DumpOutcome.ok _).congr (by simp)

theorem methodHeader_outcome (fake : Bool) (m : MethodRec) (cname : Str) :
    DumpOutcome (methodHeader fake m cname) (m.native = none → cutOff .outside m.signature = false) :=
  native_outcome (scanSig_outcome fake m.signature)

theorem methodStubs_outcome (fake : Bool) (m : MethodRec) (scope cname : Str) :
    DumpOutcome (methodStubs fake m scope cname) (m.native = none → cutOff .outside m.signature = false) :=
  native_outcome (scanSig_outcome fake m.signature)

theorem methodBinding_outcome (fake : Bool) (m : MethodRec) (scope cname : Str) :
    DumpOutcome (methodBinding fake m scope cname) (m.native = none → cutOff .outside m.signature = false) :=
  native_outcome (scanSig_outcome fake m.signature)

theorem fieldHeader_outcome (fake : Bool) (f : FieldRec) : DumpOutcome (fieldHeader fake f) True := by
  obtain ⟨r, h⟩ := parse_total fake f.type
  unfold fieldHeader
  rw [h]
  exact DumpOutcome.ok _

theorem fieldStubs_outcome (fake : Bool) (f : FieldRec) (scope : Str) : DumpOutcome (fieldStubs fake f scope) True := by
  obtain ⟨r, h⟩ := parse_total fake f.type
  unfold fieldStubs
  rw [h]
  cases f.static
  · exact DumpOutcome.ok _
  · exact DumpOutcome.ok _

theorem classPre_outcome {k : Nat} {kd : ClassNode} (h : w.reg.cls[k]? = some kd) : DumpOutcome (classPre w k) True := by
  unfold classPre
  rw [withClass_some h]
  split
  · exact DumpOutcome.ok _
  · exact DumpOutcome.ok _

theorem classText_outcome (fake : Bool) (scope : Str) (c : Nat) (cd : ClassNode)
    (hk : ∀ k ∈ cd.classes, ∃ kd, w.reg.cls[k]? = some kd) :
    DumpOutcome (classText fake w scope c cd) (Dumpable w c) := by
  unfold classText
  refine ((DumpOutcome.catMap (p := fun _ => True) fun k hkm => ?_).bind fun pre =>
    (DumpOutcome.catMap (p := fun _ => True) fun f _ => (fieldHeader_outcome fake f).map).bind fun fs =>
    (DumpOutcome.catMap fun m _ => (methodHeader_outcome fake m cd.name).map).map).congr ?_
  · obtain ⟨kd, h⟩ := hk k hkm
    exact (classPre_outcome h).map
  · simp [Dumpable]

theorem stubText_outcome (fake : Bool) (scope : Str) (c : Nat) (cd : ClassNode) :
    DumpOutcome (stubText fake w scope c cd) (Dumpable w c) := by
  unfold stubText
  refine ((DumpOutcome.catMap (p := fun _ => True) fun f _ => fieldStubs_outcome fake f scope).bind fun fs =>
    (DumpOutcome.catMap fun m _ => methodStubs_outcome fake m scope cd.name).map).congr ?_
  simp [Dumpable]

theorem clsList_known {d : Nat} : ∀ {scope : Str} {c : Nat} {x : Str × Nat}, x ∈ clsList r d scope c →
    ∃ cd, r.cls[x.2]? = some cd := by
  induction d with
  | zero => intro _ _ _ h; simp [clsList] at h
  | succ d ih =>
    intro scope c x h
    rw [clsList] at h
    cases hc : r.cls[c]? with
    | none => simp only [hc] at h; cases h
    | some cd =>
      simp only [hc] at h
      split at h
      · cases h
      · rcases List.mem_cons.1 h with h | h
        · subst h; exact ⟨cd, hc⟩
        · obtain ⟨k, _, h⟩ := List.mem_flatMap.1 h
          exact ih h

theorem nsList_known {d : Nat} : ∀ {scope : Str} {n : Nat} {x : Str × Nat}, x ∈ nsList r d scope n →
    ∃ cd, r.cls[x.2]? = some cd := by
  induction d with
  | zero => intro _ _ _ h; simp [nsList] at h
  | succ d ih =>
    intro scope n x h
    rw [nsList] at h
    cases hn : r.ns[n]? with
    | none => simp only [hn] at h; cases h
    | some nd =>
      simp only [hn] at h
      rcases List.mem_append.1 h with h | h
      · obtain ⟨k, _, h⟩ := List.mem_flatMap.1 h
        exact clsList_known h
      · obtain ⟨k, _, h⟩ := List.mem_flatMap.1 h
        exact ih h

theorem headerOf_outcome (fake : Bool) (inv : TreeInv w.reg π σ) {x : Str × Nat} {cd : ClassNode}
    (h : w.reg.cls[x.2]? = some cd) : DumpOutcome (headerOf fake w x) (Dumpable w x.2) := by
  unfold headerOf
  simp only [h]
  apply classText_outcome
  intro k hk
  obtain ⟨kd, hkd, _⟩ := inv.clsKids x.2 cd h k hk
  exact ⟨kd, hkd⟩

theorem stubsOf_outcome (fake : Bool) {x : Str × Nat} {cd : ClassNode}
    (h : w.reg.cls[x.2]? = some cd) : DumpOutcome (stubsOf fake w x) (Dumpable w x.2) := by
  unfold stubsOf
  simp only [h]
  exact stubText_outcome fake x.1 x.2 cd

theorem registerOf_outcome (fake : Bool) {x : Str × Nat} {cd : ClassNode}
    (h : w.reg.cls[x.2]? = some cd) : DumpOutcome (registerOf fake w x) True := by
  unfold registerOf
  simp only [h]
  exact DumpOutcome.ok _

theorem forall_cons {α : Type} {x : α} {l : List α} {p : α → Prop} :
    (∀ y ∈ x :: l, p y) ↔ p x ∧ ∀ y ∈ l, p y := by simp

theorem forall_flatMap {α β : Type} {l : List α} {f : α → List β} {p : β → Prop} :
    (∀ y ∈ l.flatMap f, p y) ↔ ∀ x ∈ l, ∀ y ∈ f x, p y := by
  constructor
  · intro h x hx y hy; exact h y (List.mem_flatMap.2 ⟨x, hx, hy⟩)
  · intro h y hy
    obtain ⟨x, hx, hy⟩ := List.mem_flatMap.1 hy
    exact h x hx y hy

theorem classBinding_outcome (fake : Bool) (inv : TreeInv w.reg π σ) {B : Nat} (hB : Bound w.reg π σ B) (d : Nat) :
    ∀ scope c cd, w.reg.cls[c]? = some cd → B < d + (σ c).2.length →
      DumpOutcome (classBinding fake w d scope c) (∀ x ∈ clsList w.reg d scope c, Dumpable w x.2) := by
  induction d with
  | zero =>
    intro scope c cd hc hf
    obtain ⟨d', e, _⟩ := fuel_cls inv hB hc hf
    omega
  | succ d ih =>
    intro scope c cd hc hf
    obtain ⟨d', e, hk⟩ := fuel_cls inv hB hc hf
    cases e
    rw [classBinding, withClass_some hc, clsList]
    simp only [hc]
    by_cases hb : cd.nativeprefix ∈ blacklisted
    · rw [if_pos hb, if_pos hb]; exact (DumpOutcome.ok _).congr (by simp)
    · rw [if_neg hb, if_neg hb]
      have hi : ∀ k ∈ cd.classes, DumpOutcome (classBinding fake w d (addScope scope cd.name) k)
          (∀ x ∈ clsList w.reg d (addScope scope cd.name) k, Dumpable w x.2) := by
        intro k hkm
        obtain ⟨kd, h1, h2⟩ := hk k hkm
        exact ih _ k kd h1 h2
      have hm : DumpOutcome (catMap (fun m => methodBinding fake m (addScope scope cd.name) cd.name) (w.mem c).methods)
          (Dumpable w c) := DumpOutcome.catMap fun m _ => methodBinding_outcome fake m _ cd.name
      rw [forall_cons, forall_flatMap]
      split
      · exact ((DumpOutcome.catMap hi).bind fun _ => hm.map).congr And.comm
      · exact (hm.bind fun _ => (DumpOutcome.catMap hi).map)

theorem nsBinding_outcome (fake : Bool) (inv : TreeInv w.reg π σ) {B : Nat} (hB : Bound w.reg π σ B) (d : Nat) :
    ∀ scope n nd, w.reg.ns[n]? = some nd → 2 * B < d + (π n).length →
      DumpOutcome (nsBinding fake w d scope n) (∀ x ∈ nsList w.reg d scope n, Dumpable w x.2) := by
  induction d with
  | zero =>
    intro scope n nd hn hf
    obtain ⟨d', e, _⟩ := fuel_ns inv hB hn hf
    omega
  | succ d ih =>
    intro scope n nd hn hf
    obtain ⟨d', e, hc, hk⟩ := fuel_ns inv hB hn hf
    cases e
    rw [nsBinding, withNs_some hn, nsList]
    simp only [hn]
    refine ((DumpOutcome.catMap (p := fun c => ∀ x ∈ clsList w.reg d (nsScope scope nd.name) c, Dumpable w x.2)
      fun c hcm => ?_).bind fun _ => (DumpOutcome.catMap
      (p := fun k => ∀ x ∈ nsList w.reg d (nsScope scope nd.name) k, Dumpable w x.2) fun k hkm => ?_).map).congr ?_
    · obtain ⟨cd, h1, h2⟩ := hc c hcm
      exact classBinding_outcome fake inv hB d _ c cd h1 h2
    · obtain ⟨kd, h1, h2⟩ := hk k hkm
      exact ih _ k kd h1 h2
    · rw [← forall_flatMap, ← forall_flatMap]
      constructor
      · rintro ⟨h1, h2⟩ y hy
        exact (List.mem_append.1 hy).elim (h1 y) (h2 y)
      · intro h
        exact ⟨fun y hy => h y (List.mem_append_left _ hy), fun y hy => h y (List.mem_append_right _ hy)⟩

theorem preLoop_ok (name : Str) (l : List (Res Str)) (h : ∀ x ∈ l, ∃ s, x = .ok s) :
    ∀ acc, ∃ r, preLoop name acc l = .ok r := by
  induction l with
  | nil => intro acc; exact ⟨acc, rfl⟩
  | cons x l ih =>
    intro acc
    obtain ⟨s, rfl⟩ := h x (by simp)
    exact ih (fun y hy => h y (by simp [hy])) _

theorem nsPre_ok (inv : TreeInv w.reg π σ) {B : Nat} (hB : Bound w.reg π σ B) (d : Nat) :
    ∀ n nd, w.reg.ns[n]? = some nd → 2 * B < d + (π n).length → ∃ s, nsPre w d n = .ok s := by
  induction d with
  | zero =>
    intro n nd hn hf
    obtain ⟨d', e, _⟩ := fuel_ns inv hB hn hf
    omega
  | succ d ih =>
    intro n nd hn hf
    obtain ⟨d', e, hc, hk⟩ := fuel_ns inv hB hn hf
    cases e
    rw [nsPre, withNs_some hn]
    obtain ⟨r, hr⟩ := preLoop_ok nd.name (nd.classes.map (classPre w) ++ nd.namespaces.map (nsPre w d)) (by
      intro x hx
      rcases List.mem_append.1 hx with hx | hx
      · obtain ⟨c, hcm, rfl⟩ := List.mem_map.1 hx
        obtain ⟨cd, h1, _⟩ := hc c hcm
        exact (classPre_outcome h1).1 trivial
      · obtain ⟨k, hkm, rfl⟩ := List.mem_map.1 hx
        obtain ⟨kd, h1, h2⟩ := hk k hkm
        exact ih k kd h1 h2) ([], true)
    rw [hr]
    exact ⟨_, rfl⟩

/-- The whole dump. -/
theorem classDump_outcome (fake : Bool) (inv : RegInv w.reg) : ∃ d0, ∀ d, d0 ≤ d →
    nsHeader fake w d [] 0 = catMap (headerOf fake w) (nsList w.reg d [] 0) ∧
    nsStubs fake w d [] 0 = catMap (stubsOf fake w) (nsListPost w.reg d [] 0) ∧
    nsRegister fake w d 0 = catMap (registerOf fake w) (nsList w.reg d [] 0) ∧
    DumpOutcome (w.classDump fake d) (∀ x ∈ nsList w.reg d [] 0, Dumpable w x.2) := by
  obtain ⟨π, σ, hT⟩ := inv.tree
  obtain ⟨B, hB⟩ := exists_bound w.reg π σ
  have hroot : w.reg.ns[0]? = some (w.reg.ns[0]'hT.root) := List.getElem?_eq_getElem hT.root
  refine ⟨2 * B + 1, fun d hd => ?_⟩
  have hf : 2 * B < d + (π 0).length := by omega
  have e1 := nsHeader_list fake hT hB d [] 0 _ hroot hf
  have e2 := nsStubs_list fake hT hB d [] 0 _ hroot hf
  have e3 := nsRegister_list fake hT hB d [] 0 _ hroot hf
  refine ⟨e1, e2, e3, ?_⟩
  have o1 : DumpOutcome (nsHeader fake w d [] 0) (∀ x ∈ nsList w.reg d [] 0, Dumpable w x.2) := by
    rw [e1]
    apply DumpOutcome.catMap
    intro x hx
    obtain ⟨cd, h⟩ := nsList_known hx
    exact headerOf_outcome fake hT h
  have o2 : DumpOutcome (nsStubs fake w d [] 0) (∀ x ∈ nsList w.reg d [] 0, Dumpable w x.2) := by
    rw [e2]
    refine (DumpOutcome.catMap (p := fun x => Dumpable w x.2) fun x hx => ?_).congr ?_
    · obtain ⟨cd, h⟩ := nsList_known ((nsListPost_perm w.reg d [] 0).mem_iff.1 hx)
      exact stubsOf_outcome fake h
    · exact forall_congr' fun x => by rw [(nsListPost_perm w.reg d [] 0).mem_iff]
  have o3 : DumpOutcome (nsRegister fake w d 0) True := by
    rw [e3]
    refine (DumpOutcome.catMap (p := fun _ => True) fun x hx => ?_).congr (by simp)
    obtain ⟨cd, h⟩ := nsList_known hx
    exact registerOf_outcome fake h
  have o4 := nsBinding_outcome fake hT hB d [] 0 _ hroot hf
  obtain ⟨pre, hp⟩ := nsPre_ok hT hB d 0 _ hroot hf
  unfold World.classDump
  rw [hp, Res.bind_ok]
  cases fake
  · refine (o1.bind fun _ => o2.bind fun _ => o3.bind fun _ => o4.map).congr ?_
    simp
  · refine (o1.bind fun _ => o2.bind fun _ => o4.bind fun _ => o3.map).congr ?_
    simp

end Jnivm
