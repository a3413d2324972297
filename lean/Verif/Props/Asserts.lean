import Verif.Lemmas.Asserts
import Verif.Props.Hooks
/-!
C78: the class hierarchy of a VM is that of the C++ types it was given, and what a build with assertions
does differently: a lookup that asks a class for base classes that are not registered throws.
-/
namespace Jnivm
open Spec

variable {w : World}

/-! ### Lookups in a build with assertions -/

theorem getMethodIDA_isClass (inv : MemInv w) {n : Str} {c : Nat} (h : w.IsClass n c)
    (depth : Nat) (st rn nat : Bool) (name sig : Str) :
    w.getMethodIDA depth st rn nat (some c) name sig = w.methodOfA depth rn c (effKey n st nat name sig) := by
  obtain ⟨cd, h1, rfl⟩ := isClass_record inv h
  simp only [World.getMethodIDA, h1, effKey]
  split <;> rfl

/-- C78, methods: the lookup throws if it meets an unregistered base before an answer, and otherwise does
what the build without assertions does. -/
theorem method_lookup_asserts (hr : MemReachable w) {n : Str} {c : Nat} (hc : w.IsClass n c)
    {order : List Nat} (ho : SearchOrder w.bases [some c] order) {depth : Nat} (hd : order.length ≤ depth)
    (st rn nat : Bool) (name sig : Str) (hname : name = "<init>".toList → st = true) :
    (MeetsUnregistered w (fun d => ∃ m, w.Declares d st nat name sig m) order →
      w.getMethodIDA depth st rn nat (some c) name sig = .throws .runtimeError) ∧
    (¬ MeetsUnregistered w (fun d => ∃ m, w.Declares d st nat name sig m) order →
      w.getMethodIDA depth st rn nat (some c) name sig = w.getMethodID depth st rn nat (some c) name sig) := by
  rw [getMethodIDA_isClass hr.inv hc, getMethodID_isClass hr.inv hc, effKey_plain hname]
  have hi := meetsOwn_iff (w := w) (own := w.ownMethod ⟨st, nat, name, sig⟩)
    (has := fun d => ∃ m, w.Declares d st nat name sig m)
    (fun d => by rw [ownMethod_none]; exact ⟨fun h ⟨m, hm⟩ => h m hm, fun h m hm => h ⟨m, hm⟩⟩) (order := order)
  rw [← hi]
  obtain ⟨h1, h2⟩ := dfsA_searchOrder (own := w.ownMethod ⟨st, nat, name, sig⟩) ho hd
  unfold World.methodOfA World.methodOf
  constructor
  · intro h; rw [h1 h]; rfl
  · intro h; rw [h2 h, dfs_searchOrder ho hd]; rfl

/-- C78, constructors: `<init>` is looked up as the static factory of the class, in this build too. -/
theorem constructor_lookup_asserts (hr : MemReachable w) {n : Str} {c : Nat} (hc : w.IsClass n c)
    {order : List Nat} (ho : SearchOrder w.bases [some c] order) {depth : Nat} (hd : order.length ≤ depth)
    (rn nat : Bool) (args ret : Str) (ha : ')' ∉ args) :
    (MeetsUnregistered w (fun d => ∃ m, w.Declares d true nat "<init>".toList
        ("(".toList ++ args ++ ")L".toList ++ n ++ ";".toList) m) order →
      w.getMethodIDA depth false rn nat (some c) "<init>".toList ("(".toList ++ args ++ ")".toList ++ ret) =
        .throws .runtimeError) ∧
    (¬ MeetsUnregistered w (fun d => ∃ m, w.Declares d true nat "<init>".toList
        ("(".toList ++ args ++ ")L".toList ++ n ++ ";".toList) m) order →
      w.getMethodIDA depth false rn nat (some c) "<init>".toList ("(".toList ++ args ++ ")".toList ++ ret) =
        w.getMethodID depth false rn nat (some c) "<init>".toList ("(".toList ++ args ++ ")".toList ++ ret)) := by
  have e : effKey n false nat "<init>".toList ("(".toList ++ args ++ ")".toList ++ ret) =
      effKey n true nat "<init>".toList ("(".toList ++ args ++ ")L".toList ++ n ++ ";".toList) := by
    unfold effKey
    rw [if_pos (by decide), if_neg (by decide)]
    unfold initSignature
    have : "(".toList ++ args ++ ")".toList ++ ret = ('(' :: args) ++ ')' :: ret := by
      simp
    rw [this, cutAt_split (by simp [ha])]
    simp
  have key := method_lookup_asserts hr hc ho hd true rn nat "<init>".toList
    ("(".toList ++ args ++ ")L".toList ++ n ++ ";".toList) (fun _ => rfl)
  rw [getMethodIDA_isClass hr.inv hc, e, ← getMethodIDA_isClass hr.inv hc,
    constructor_is_static_factory hr hc depth rn nat args ret ha]
  exact key

/-- C78, fields. -/
theorem field_lookup_asserts (hr : MemReachable w) {n : Str} {c : Nat} (hc : w.IsClass n c)
    {order : List Nat} (ho : SearchOrder w.bases [some c] order) {depth : Nat} (hd : order.length ≤ depth)
    (st rn : Bool) (name type : Str) :
    (MeetsUnregistered w (fun d => ∃ f, w.DeclaresField d st name type f) order →
      w.getFieldIDA depth st rn (some c) name type = .throws .runtimeError) ∧
    (¬ MeetsUnregistered w (fun d => ∃ f, w.DeclaresField d st name type f) order →
      w.getFieldIDA depth st rn (some c) name type = w.getFieldID depth st rn (some c) name type) := by
  obtain ⟨cd, hcd, rfl⟩ := isClass_record hr.inv hc
  have hi := meetsOwn_iff (w := w) (own := w.ownField ⟨st, name, type⟩)
    (has := fun d => ∃ f, w.DeclaresField d st name type f)
    (fun d => by rw [ownField_none]; exact ⟨fun h ⟨m, hm⟩ => h m hm, fun h m hm => h ⟨m, hm⟩⟩) (order := order)
  rw [← hi]
  obtain ⟨h1, h2⟩ := dfsA_searchOrder (own := w.ownField ⟨st, name, type⟩) ho hd
  simp only [World.getFieldIDA, World.getFieldID, hcd]
  constructor
  · intro h; rw [h1 h]; rfl
  · intro h; rw [h2 h, dfs_searchOrder ho hd]; rfl

/-- C78, `IsAssignableFrom`: the answer is found before, or the base is missing. -/
theorem assignable_asserts {c1 : Nat} {order : List Nat} (ho : SearchOrder w.bases [some c1] order)
    {depth : Nat} (hd : order.length ≤ depth) (c2 : Nat) :
    (MeetsUnregistered w (· = c2) order → w.isAssignableFromA depth c1 c2 = .throws .runtimeError) ∧
    (¬ MeetsUnregistered w (· = c2) order →
      w.isAssignableFromA depth c1 c2 = w.isAssignableFrom depth (some c1) (some c2)) := by
  have hi := meetsOwn_iff (w := w) (own := fun c => if c = c2 then some () else none) (has := (· = c2))
    (fun d => by by_cases h : d = c2 <;> simp [h]) (order := order)
  rw [← hi]
  obtain ⟨h1, h2⟩ := dfsA_searchOrder (own := fun c => if c = c2 then some () else none) ho hd
  simp only [World.isAssignableFromA, World.isAssignableFrom, World.hasBaseClass]
  constructor
  · intro h; rw [h1 h]; rfl
  · intro h; rw [h2 h, dfs_searchOrder ho hd]

/-- C78, `GetSuperclass`: only the bases of the class itself are asked for. -/
theorem superclass_asserts (c : Nat) :
    (Unregistered w c → w.getSuperclassA c = .throws .runtimeError) ∧
    (¬ Unregistered w c → w.getSuperclassA c = w.getSuperclass c) := by
  unfold World.getSuperclassA World.getSuperclass
  constructor
  · intro h; rw [basesA_throws h]; rfl
  · intro h
    rw [basesA_ok h]
    cases w.bases c with
    | none => rfl
    | some bs => cases bs <;> rfl

/-- C78: whatever the classes and however little stack there is, an operation does the same in both builds
or throws in the one with assertions. -/
theorem asserts_agree (op : MemOp) : op.runA w = op.run w ∨ op.runA w = .throws .runtimeError := by
  cases op with
  | getMethodID d s r a cl n sig =>
    simp only [MemOp.runA, MemOp.run]
    cases cl with
    | none => exact .inl rfl
    | some c =>
      simp only [World.getMethodIDA, World.getMethodID]
      cases w.reg.cls[c]? with
      | none => exact .inl rfl
      | some cd =>
        have key : ∀ k, w.methodOfA d (r || a) c k = w.methodOf d (r || a) c k ∨
            w.methodOfA d (r || a) c k = .throws .runtimeError := by
          intro k
          unfold World.methodOfA World.methodOf
          rcases dfsA_agree (w := w) (own := w.ownMethod k) d c with e | e
          · rw [e]; exact .inl rfl
          · rw [e]; exact .inr rfl
        dsimp only
        split
        · rcases key ⟨true, a, n, initSignature cd.nativeprefix sig⟩ with e | e
          · rw [e]; exact .inl rfl
          · rw [e]; exact .inr rfl
        · rcases key ⟨s, a, n, sig⟩ with e | e
          · rw [e]; exact .inl rfl
          · rw [e]; exact .inr rfl
  | getFieldID d s r cl n t =>
    simp only [MemOp.runA, MemOp.run]
    cases cl with
    | none => exact .inl rfl
    | some c =>
      simp only [World.getFieldIDA, World.getFieldID]
      cases w.reg.cls[c]? with
      | none => exact .inl rfl
      | some cd =>
        rcases dfsA_agree (w := w) (own := w.ownField ⟨s, n, t⟩) d c with e | e
        · dsimp only; rw [e]; exact .inl rfl
        · dsimp only; rw [e]; exact .inr rfl
  | _ => exact .inl rfl

/-- C78: when all base types of the classes are registered, the builds do the same. -/
theorem asserts_same (h : ∀ c, ¬ Unregistered w c) (op : MemOp) : op.runA w = op.run w := by
  cases op with
  | getMethodID d s r a cl n sig =>
    simp only [MemOp.runA, MemOp.run]
    cases cl with
    | none => rfl
    | some c =>
      simp only [World.getMethodIDA, World.getMethodID, World.methodOfA, World.methodOf, dfsA_eq h]
      rfl
  | getFieldID d s r cl n t =>
    simp only [MemOp.runA, MemOp.run]
    cases cl with
    | none => rfl
    | some c => simp only [World.getFieldIDA, World.getFieldID, dfsA_eq h]; rfl
  | _ => rfl

theorem assignable_same (h : ∀ c, ¬ Unregistered w c) (depth c1 c2 : Nat) :
    w.isAssignableFromA depth c1 c2 = w.isAssignableFrom depth (some c1) (some c2) := by
  simp only [World.isAssignableFromA, World.isAssignableFrom, World.hasBaseClass, dfsA_eq h]

/-! ### The order of registration -/

/-- C78: base types may be registered before or after the types that extend them. -/
theorem all_registered {ops : List MemOp} (h : runMem .initial ops = .ok w) (hb : BasesGiven (declareds ops)) :
    ∀ c, ¬ Unregistered w c := by
  rintro c ⟨ts, t, h1, h2, h3⟩
  have inv := rawInv h
  obtain ⟨d, hd, rfl, _⟩ := inv.bases c ts h1
  exact (inv.types t).2 (hb d hd t h2) h3

/-- C78: if a type has one class and a class one type, that is necessary. -/
theorem all_registered_iff {ops : List MemOp} (h : runMem .initial ops = .ok w) (h1 : OneToOne (declareds ops)) :
    BasesGiven (declareds ops) ↔ ∀ c, ¬ Unregistered w c := by
  refine ⟨all_registered h, fun hw d hd t ht => ?_⟩
  have inv := rawInv h
  obtain ⟨c, hc, hb⟩ := inv.known d hd
  cases hts : (w.mem c).bases with
  | none => exact absurd hts hb
  | some ts =>
    obtain ⟨e, he, rfl, hn⟩ := inv.bases c ts hts
    have : e = d := h1 e he d hd (.inr (isClass_one inv.reach hn hc))
    subst this
    exact (inv.types t).1 fun hnone => hw c ⟨_, t, hts, ht, hnone⟩

/-- C78: a history in which every base type is registered before the types that extend it runs in a build
with assertions as in one without. -/
theorem bases_first_same {ops : List MemOp} (hf : BasesFirst [] (declareds ops)) :
    runMemA .initial ops = runMem .initial ops := by
  have key : ∀ (ops : List MemOp) (w : World) (ds : List Declared) (seen : List Nat), RawInv w ds →
      (∀ t ∈ seen, ∃ d ∈ ds, d.type = t) → BasesGiven ds → BasesFirst seen (declareds ops) →
      runMemA w ops = runMem w ops := by
    intro ops
    induction ops with
    | nil => intros; rfl
    | cons op ops ih =>
      intro w ds seen inv hs hg hf
      have hall : ∀ c, ¬ Unregistered w c := by
        rintro c ⟨ts, t, h1, h2, h3⟩
        obtain ⟨d, hd, rfl, _⟩ := inv.bases c ts h1
        exact (inv.types t).2 (hg d hd t h2) h3
      simp only [runMemA, runMem, asserts_same hall]
      cases hrun : op.run w with
      | throws e => rfl
      | ub u => rfl
      | diverges => rfl
      | ok w' =>
        have inv' := inv.step hrun
        show runMemA w' ops = runMem w' ops
        have other : declareds [op] = [] → runMemA w' ops = runMem w' ops := by
          intro e
          rw [declareds_cons, e] at hf
          rw [e, List.append_nil] at inv'
          exact ih w' ds seen inv' hs hg (by simpa using hf)
        cases op with
        | bindType t n bs =>
          obtain ⟨hb, hf⟩ := hf
          refine ih w' _ (t :: seen) inv' ?_ ?_ hf
          · intro u hu
            rcases List.mem_cons.1 hu with rfl | hu
            · exact ⟨⟨u, n, bs⟩, by simp [declareds], rfl⟩
            · obtain ⟨d, hd, e⟩ := hs u hu
              exact ⟨d, List.mem_append_left _ hd, e⟩
          · intro d hd u hu
            rcases List.mem_append.1 hd with hd | hd
            · obtain ⟨e, he, ht⟩ := hg d hd u hu
              exact ⟨e, List.mem_append_left _ he, ht⟩
            · simp only [declareds, List.mem_singleton] at hd
              subst hd
              obtain ⟨e, he, ht⟩ := hs u (hb _ hu u rfl)
              exact ⟨e, List.mem_append_left _ he, ht⟩
        | _ => exact other rfl
  exact key ops _ [] [] initial_rawInv (fun _ h => nomatch h) (fun _ h => nomatch h) hf

/-! ### The hierarchy -/

section Types
variable {ops : List MemOp} (h : runMem .initial ops = .ok w) (h1 : OneToOne (declareds ops))
include h h1

theorem class_bases {d : Declared} (hd : d ∈ declareds ops) {c : Nat} (hc : w.IsClass d.name c) :
    (w.mem c).bases = some d.bases := by
  have inv := rawInv h
  obtain ⟨x, hx, hb⟩ := inv.known d hd
  have := isClass_fun hc hx
  subst this
  cases hts : (w.mem c).bases with
  | none => exact absurd hts hb
  | some ts =>
    obtain ⟨e, he, rfl, hn⟩ := inv.bases c ts hts
    rw [h1 e he d hd (.inr (isClass_one inv.reach hn hc))]

theorem direct_types {d : Declared} (hd : d ∈ declareds ops) {c : Nat} (hc : w.IsClass d.name c) (x : Nat) :
    Direct w.bases c x ↔ ∃ e ∈ declareds ops, some e.type ∈ d.bases ∧ w.IsClass e.name x := by
  have inv := rawInv h
  have hp := paired h h1
  have hb := class_bases h h1 hd hc
  unfold Direct World.bases
  rw [hb]
  simp only [Option.map_some, Option.some.injEq, exists_eq_left', List.mem_map]
  constructor
  · rintro ⟨o, ho, e⟩
    cases o with
    | none => exact nomatch e
    | some t =>
      have e' : w.types t = some x := e
      obtain ⟨f, hf, rfl⟩ := (inv.types t).1 (by rw [e']; exact fun h => nomatch h)
      obtain ⟨y, hy, _⟩ := inv.known f hf
      have := hp f hf y hy
      rw [e'] at this
      cases this
      exact ⟨f, hf, ho, hy⟩
  · rintro ⟨e, he, hm, hx⟩
    exact ⟨some e.type, hm, hp e he x hx⟩

/-- C78: the superclasses of a class are the classes of the bases of its type. -/
theorem super_types {d : Declared} (hd : d ∈ declareds ops) {c : Nat} (hc : w.IsClass d.name c) (x : Nat) :
    Super w.bases c x ↔ ∃ e ∈ declareds ops, TypeSuper (declareds ops) d.type e.type ∧ w.IsClass e.name x := by
  constructor
  · intro hs
    induction hs generalizing d with
    | refl c => exact ⟨d, hd, .refl _, hc⟩
    | step hdir _ ih =>
      obtain ⟨e, he, hm, hx⟩ := (direct_types h h1 hd hc _).1 hdir
      obtain ⟨f, hf, hs, hy⟩ := ih he hx
      exact ⟨f, hf, .step ⟨d, hd, rfl, hm⟩ hs, hy⟩
  · rintro ⟨e, he, hs, hx⟩
    generalize ht : d.type = t at hs
    generalize hu : e.type = u at hs
    induction hs generalizing d c with
    | refl t =>
      have := h1 d hd e he (.inl (ht.trans hu.symm))
      subst this
      rw [isClass_fun hx hc]
      exact .refl _
    | @step t v u hb hs ih =>
      obtain ⟨d', hd', ht', hm⟩ := hb
      have := h1 d' hd' d hd (.inl (ht'.trans ht.symm))
      subst this
      have hv : ∃ f ∈ declareds ops, f.type = v := by
        cases hs with
        | refl => exact ⟨e, he, hu⟩
        | step hb _ =>
          obtain ⟨f, hf, e, _⟩ := hb
          exact ⟨f, hf, e⟩
      obtain ⟨f, hf, rfl⟩ := hv
      obtain ⟨y, hy, _⟩ := (rawInv h).known f hf
      exact .step ((direct_types h h1 hd hc y).2 ⟨f, hf, hm, hy⟩) (ih hf hy rfl hu)

/-- C78: `IsAssignableFrom` is "is a base of" between the C++ types. -/
theorem assignable_types {d e : Declared} (hd : d ∈ declareds ops) (he : e ∈ declareds ops) {c x : Nat}
    (hc : w.IsClass d.name c) (hx : w.IsClass e.name x) {depth : Nat} {b : Bool}
    (ha : w.isAssignableFrom depth (some c) (some x) = .ok b) :
    b = true ↔ TypeSuper (declareds ops) d.type e.type := by
  rw [assignable_iff ha, super_types h h1 hd hc]
  constructor
  · rintro ⟨f, hf, hs, hy⟩
    rw [← h1 f hf e he (.inr (isClass_one (rawInv h).reach hy hx))]
    exact hs
  · exact fun hs => ⟨e, he, hs, hx⟩

theorem types_acyclic (ha : TypesAcyclic (declareds ops)) : Acyclic w.bases := by
  obtain ⟨rank, hr⟩ := ha
  have inv := rawInv h
  classical
  refine ⟨fun c => if hx : ∃ d ∈ declareds ops, w.IsClass d.name c then rank hx.choose.type else 0, ?_⟩
  intro c x hdir
  obtain ⟨bs, hbs, _⟩ := hdir
  have hdir : Direct w.bases c x := ⟨bs, hbs, by assumption⟩
  have hd : ∃ d ∈ declareds ops, w.IsClass d.name c := by
    unfold World.bases at hbs
    cases hts : (w.mem c).bases with
    | none => rw [hts] at hbs; exact nomatch hbs
    | some ts =>
      obtain ⟨d, hd, _, hn⟩ := inv.bases c ts hts
      exact ⟨d, hd, hn⟩
  obtain ⟨e, he, hm, hx⟩ := (direct_types h h1 hd.choose_spec.1 hd.choose_spec.2 x).1 hdir
  have hxe : ∃ d ∈ declareds ops, w.IsClass d.name x := ⟨e, he, hx⟩
  show (if hx : ∃ d ∈ declareds ops, w.IsClass d.name x then rank hx.choose.type else 0) <
    (if hx : ∃ d ∈ declareds ops, w.IsClass d.name c then rank hx.choose.type else 0)
  rw [dif_pos hd, dif_pos hxe]
  have : hxe.choose = e :=
    h1 _ hxe.choose_spec.1 _ he (.inr (isClass_one inv.reach hxe.choose_spec.2 hx))
  rw [this]
  exact hr _ _ ⟨_, hd.choose_spec.1, rfl, hm⟩

/-- C78: with enough stack it answers, for all types of a program: their bases have no cycles. -/
theorem assignable_types_total (ha : TypesAcyclic (declareds ops)) {d e : Declared} (hd : d ∈ declareds ops)
    (he : e ∈ declareds ops) {c x : Nat} (hc : w.IsClass d.name c) (hx : w.IsClass e.name x) :
    ∃ N, ∀ depth, N ≤ depth → ∃ b, w.isAssignableFrom depth (some c) (some x) = .ok b ∧
      (b = true ↔ TypeSuper (declareds ops) d.type e.type) := by
  obtain ⟨N, hN⟩ := assignable_total (types_acyclic h h1 ha) c
  refine ⟨N, fun depth hd' => ?_⟩
  obtain ⟨b, hb⟩ := hN depth hd' x
  exact ⟨b, hb, assignable_types h h1 hd he hc hx hb⟩

/-- C78, `GetSuperclass`: the class of the first base type, or null if that has none. -/
theorem superclass_types {d : Declared} (hd : d ∈ declareds ops) {c : Nat} (hc : w.IsClass d.name c)
    {b : Option Nat} {bs : List (Option Nat)} (hb : d.bases = b :: bs) :
    ∃ r, w.getSuperclass c = .ok r ∧ ∀ x, r = some x ↔
      ∃ e ∈ declareds ops, b = some e.type ∧ w.IsClass e.name x := by
  have hcb := class_bases h h1 hd hc
  have inv := rawInv h
  have hp := paired h h1
  refine ⟨b.bind w.types, ?_, fun x => ?_⟩
  · unfold World.getSuperclass World.bases
    rw [hcb, hb]
    rfl
  · cases b with
    | none => exact ⟨fun h => (nomatch h), fun ⟨_, _, h, _⟩ => nomatch h⟩
    | some t =>
      constructor
      · intro e
        have e' : w.types t = some x := e
        obtain ⟨f, hf, rfl⟩ := (inv.types t).1 (by rw [e']; exact fun h => nomatch h)
        obtain ⟨y, hy, _⟩ := inv.known f hf
        have := hp f hf y hy
        rw [e'] at this
        cases this
        exact ⟨f, hf, rfl, hy⟩
      · rintro ⟨e, he, hte, hx⟩
        cases hte
        exact hp e he x hx

/-- C78, negation of "everything is an object": a type with `Object`'s list of bases is assignable to
nothing but itself and has no superclass. -/
theorem rootless_not_object {d : Declared} (hd : d ∈ declareds ops) {c : Nat} (hc : w.IsClass d.name c)
    (hb : d.bases = [none]) (depth : Nat) {x : Nat} (hx : x ≠ c) :
    w.isAssignableFrom (depth + 1) (some c) (some x) = .ok false ∧ w.getSuperclass c = .ok none := by
  have hcb := class_bases h h1 hd hc
  have e : w.bases c = some [none] := by
    unfold World.bases
    rw [hcb, hb]
    rfl
  constructor
  · simp only [World.isAssignableFrom, World.hasBaseClass, dfs, if_neg (Ne.symm hx), e, firstAnswer]
    rfl
  · unfold World.getSuperclass
    rw [e]

/-- C78: what of "everything is an object" holds: a class is assignable to the root if every type above its
own, other than the root's, has a base type.  Not covered: the classes above. -/
theorem object_top_partial (ha : TypesAcyclic (declareds ops)) (hg : BasesGiven (declareds ops))
    {root : Declared} (hroot : root ∈ declareds ops) {d : Declared} (hd : d ∈ declareds ops) {c r : Nat}
    (hc : w.IsClass d.name c) (hr : w.IsClass root.name r)
    (hup : ∀ u, TypeSuper (declareds ops) d.type u → u = root.type ∨ ∃ v, TypeBase (declareds ops) u v) :
    ∃ N, ∀ depth, N ≤ depth → w.isAssignableFrom depth (some c) (some r) = .ok true ∧
      w.isAssignableFromA depth c r = .ok true := by
  have hts : TypeSuper (declareds ops) d.type root.type := by
    obtain ⟨rank, hrank⟩ := ha
    generalize d.type = t at hup
    induction hn : rank t using Nat.strongRecOn generalizing t with
    | ind n ih =>
      subst hn
      rcases hup t (.refl t) with rfl | ⟨v, hv⟩
      · exact .refl _
      · exact .step hv (ih (rank v) (hrank t v hv) v (fun u hu => hup u (.step hv hu)) rfl)
  obtain ⟨N, hN⟩ := assignable_types_total h h1 ha hd hroot hc hr
  refine ⟨N, fun depth hdep => ?_⟩
  obtain ⟨b, hb, hiff⟩ := hN depth hdep
  rw [hiff.2 hts] at hb
  exact ⟨hb, (assignable_same (all_registered h hg) depth c r).trans hb⟩

end Types

/-- C78: a class that no type was given for, such as one made up by `FindClass`, is assignable to nothing but
itself and has no superclass. -/
theorem made_up_not_object {ops : List MemOp} (h : runMem .initial ops = .ok w) {n : Str} {c : Nat}
    (hc : w.IsClass n c) (hn : ∀ d ∈ declareds ops, d.name ≠ n) (depth : Nat) {x : Nat} (hx : x ≠ c) :
    w.isAssignableFrom (depth + 1) (some c) (some x) = .ok false ∧ w.getSuperclass c = .ok none := by
  have inv := rawInv h
  have e : w.bases c = none := by
    unfold World.bases
    cases hts : (w.mem c).bases with
    | none => rfl
    | some ts =>
      obtain ⟨d, hd, _, hdn⟩ := inv.bases c ts hts
      exact absurd (isClass_one inv.reach hdn hc) (hn d hd)
  constructor
  · simp only [World.isAssignableFrom, World.hasBaseClass, dfs, if_neg (Ne.symm hx), e]
    rfl
  · unfold World.getSuperclass
    rw [e]

/-- C78: the order of registration does not matter for the hierarchy. -/
theorem order_irrelevant {ops ops' : List MemOp} {w' : World} (h : runMem .initial ops = .ok w)
    (h' : runMem .initial ops' = .ok w') (hsame : ∀ d, d ∈ declareds ops ↔ d ∈ declareds ops')
    (h1 : OneToOne (declareds ops)) {d e : Declared} (hd : d ∈ declareds ops) (he : e ∈ declareds ops)
    {c x c' x' : Nat} (hc : w.IsClass d.name c) (hx : w.IsClass e.name x) (hc' : w'.IsClass d.name c')
    (hx' : w'.IsClass e.name x') {depth depth' : Nat} {b b' : Bool}
    (ha : w.isAssignableFrom depth (some c) (some x) = .ok b)
    (ha' : w'.isAssignableFrom depth' (some c') (some x') = .ok b') : b = b' := by
  have h1' : OneToOne (declareds ops') := fun d hd e he => h1 d ((hsame d).2 hd) e ((hsame e).2 he)
  have mono : ∀ {ds es : List Declared}, (∀ d, d ∈ ds → d ∈ es) → ∀ {t u}, TypeSuper ds t u → TypeSuper es t u := by
    intro ds es hde t u hs
    induction hs with
    | refl t => exact .refl t
    | step hb _ ih =>
      obtain ⟨d, hd, e1, e2⟩ := hb
      exact .step ⟨d, hde d hd, e1, e2⟩ ih
  have i1 := assignable_types h h1 hd he hc hx ha
  have i2 := assignable_types h' h1' ((hsame d).1 hd) ((hsame e).1 he) hc' hx' ha'
  rw [Bool.eq_iff_iff, i1, i2]
  exact ⟨mono fun d => (hsame d).1, mono fun d => (hsame d).2⟩

/-! ### The classes of a new VM -/

/-- C78: `VM::initialize` runs the same in both builds, and binds base types first. -/
theorem start_first : BasesFirst [] (declareds startOps) ∧ OneToOne (declareds startOps) := by
  refine ⟨?_, by decide +kernel⟩
  simp [startOps, declareds, BasesFirst]

/-- C78, negation: in every VM of a program whose types have one class each, a `java/lang/String` is not an
object for `IsAssignableFrom`. -/
theorem string_not_object {ops : List MemOp} (h : runMem .initial (startOps ++ ops) = .ok w)
    (h1 : OneToOne (declareds (startOps ++ ops))) {s o : Nat} (hs : w.IsClass "java/lang/String".toList s)
    (ho : w.IsClass "java/lang/Object".toList o) (depth : Nat) :
    w.isAssignableFrom (depth + 1) (some s) (some o) = .ok false ∧ w.getSuperclass s = .ok none := by
  have hd : (⟨2, "java/lang/String".toList, [none]⟩ : Declared) ∈ declareds (startOps ++ ops) := by
    rw [declareds_append]
    exact List.mem_append_left _ (by simp only [startOps, declareds]; simp)
  exact rootless_not_object h h1 hd hs rfl depth (isClass_ne (rawInv h).reach.inv ho hs (by decide))

/-! ### Concrete VMs -/

/-- A new VM that is given a type, a type extending it and one extending a string. -/
def typesOps : List MemOp := startOps ++
  [.bindType 10 "a/Base".toList [some 0], .bindType 11 "a/Derived".toList [some 10],
   .bindType 12 "a/Text".toList [some 2], .findClass false "a/MadeUp".toList]

/-- The type that extends the other is given first, and used before the other one is known. -/
def lateOps : List MemOp := startOps ++ [.bindType 11 "a/Derived".toList [some 10]]

/-- `f` of the VM after a history. -/
def after {α : Type} (ops : List MemOp) (f : World → Res α) : Res α := (runMem .initial ops).bind f

example : OneToOne (declareds typesOps) ∧ BasesFirst [] (declareds typesOps) := by
  refine ⟨by decide +kernel, ?_⟩
  simp [typesOps, startOps, declareds, BasesFirst]

example : TypesAcyclic (declareds typesOps) := by
  refine ⟨fun t => if t = 11 then 2 else if t = 0 ∨ t = 2 then 0 else 1, ?_⟩
  rintro t u ⟨d, hd, rfl, hu⟩
  simp only [typesOps, startOps, declareds, List.cons_append, List.nil_append, List.mem_cons, List.not_mem_nil,
    or_false] at hd
  rcases hd with rfl | rfl | rfl | rfl | rfl | rfl | rfl | rfl | rfl | rfl | rfl | rfl <;> simp at hu <;>
    subst hu <;> decide

example : BasesGiven (declareds typesOps) ∧
    (∀ u, TypeSuper (declareds typesOps) 11 u → u = 0 ∨ ∃ v, TypeBase (declareds typesOps) u v) := by
  have hm10 : (⟨10, "a/Base".toList, [some 0]⟩ : Declared) ∈ declareds typesOps := by decide +kernel
  have hm11 : (⟨11, "a/Derived".toList, [some 10]⟩ : Declared) ∈ declareds typesOps := by decide +kernel
  have base : ∀ t u, TypeBase (declareds typesOps) t u → (t = 11 → u = 10) ∧ (t = 10 → u = 0) ∧ t ≠ 0 := by
    rintro t u ⟨d, hd, rfl, hu⟩
    simp only [typesOps, startOps, declareds, List.cons_append, List.nil_append, List.mem_cons,
      List.not_mem_nil, or_false] at hd
    rcases hd with rfl | rfl | rfl | rfl | rfl | rfl | rfl | rfl | rfl | rfl | rfl | rfl <;> simp at hu <;>
      subst hu <;> decide
  refine ⟨?_, fun u hu => ?_⟩
  · intro d hd t ht
    have : ∀ d ∈ declareds typesOps, ∀ o ∈ d.bases, o = none ∨ ∃ e ∈ declareds typesOps, o = some e.type := by
      decide +kernel
    rcases this d hd _ ht with h | ⟨e, he, h⟩
    · exact nomatch h
    · cases h; exact ⟨e, he, rfl⟩
  · cases hu with
    | refl => exact .inr ⟨10, _, hm11, rfl, .head _⟩
    | step hb hs =>
      cases (base _ _ hb).1 rfl
      cases hs with
      | refl => exact .inr ⟨0, _, hm10, rfl, .head _⟩
      | step hb hs =>
        cases (base _ _ hb).2.1 rfl
        cases hs with
        | refl => exact .inl rfl
        | step hb _ => exact absurd rfl (base _ _ hb).2.2

/-- The answers: `a/Derived` extends `a/Base` and is an object, a string is not, nor is a class that extends
it, nor one that `FindClass` made up. -/
example :
    after typesOps (fun w => .ok ((findClass true w.reg "a/Base".toList).2,
      (findClass true w.reg "a/Derived".toList).2, (findClass true w.reg "a/Text".toList).2,
      (findClass true w.reg "a/MadeUp".toList).2)) = .ok (some 9, some 10, some 11, some 12) ∧
    after typesOps (fun w => w.isAssignableFrom 5 (some 10) (some 9)) = .ok true ∧
    after typesOps (fun w => w.isAssignableFrom 5 (some 10) (some 0)) = .ok true ∧
    after typesOps (fun w => w.isAssignableFrom 5 (some 9) (some 10)) = .ok false ∧
    after typesOps (fun w => w.isAssignableFrom 5 (some 2) (some 0)) = .ok false ∧
    after typesOps (fun w => w.isAssignableFrom 5 (some 11) (some 0)) = .ok false ∧
    after typesOps (fun w => w.isAssignableFrom 5 (some 12) (some 0)) = .ok false ∧
    after typesOps (fun w => w.getSuperclass 10) = .ok (some 9) ∧
    after typesOps (fun w => w.getSuperclass 2) = .ok none := by
  decide +kernel

/-- Before the base is known the builds differ; an own member is found in both, and afterwards all is well. -/
example :
    after lateOps (fun w => w.isAssignableFrom 5 (some 9) (some 0)) = .ok false ∧
    after lateOps (fun w => w.isAssignableFromA 5 9 0) = .throws .runtimeError ∧
    after lateOps (fun w => w.isAssignableFromA 5 9 9) = .ok true ∧
    after lateOps (fun w => w.getSuperclassA 9) = .throws .runtimeError ∧
    after lateOps (fun w => (w.getMethodIDA 5 false true false (some 9) "f".toList "()V".toList).bind fun r =>
      .ok r.2) = .throws .runtimeError ∧
    after lateOps (fun w => (w.getFieldIDA 5 false true (some 9) "f".toList "I".toList).bind fun r =>
      .ok r.2) = .throws .runtimeError ∧
    after lateOps (fun w => (w.getMethodIDA 5 false true false (some 9) "<init>".toList "(I)V".toList).bind fun r =>
      .ok r.2) = .throws .runtimeError ∧
    after (lateOps ++ [.hookMethod 9 true "<init>".toList "(I)La/Derived;".toList 7]) (fun w =>
      (w.getMethodIDA 5 false true false (some 9) "<init>".toList "(I)V".toList).bind fun r => .ok r.2) =
        .ok (some 0) ∧
    after (lateOps ++ [.hookMethod 9 false "f".toList "()V".toList 7]) (fun w =>
      (w.getMethodIDA 5 false true false (some 9) "f".toList "()V".toList).bind fun r => .ok r.2) = .ok (some 0) ∧
    after (lateOps ++ [.bindType 10 "a/Base".toList [some 0]]) (fun w => w.isAssignableFromA 5 9 0) = .ok true := by
  decide +kernel

/-- The hypotheses about searches are met by the second VM, where class 9 is `a/Derived`. -/
example : ∃ w, runMem .initial lateOps = .ok w ∧ w.IsClass "a/Derived".toList 9 ∧
    SearchOrder w.bases [some 9] [9] ∧ Unregistered w 9 ∧
    MeetsUnregistered w (fun d => ∃ m, w.Declares d false false "f".toList "()V".toList m) [9] := by
  have hrun : ∃ w, runMem .initial lateOps = .ok w := by
    have : (match runMem .initial lateOps with | .ok _ => true | _ => false) = true := by decide +kernel
    cases h : runMem .initial lateOps with
    | ok w => exact ⟨w, rfl⟩
    | throws e => rw [h] at this; cases this
    | ub u => rw [h] at this; cases this
    | diverges => rw [h] at this; cases this
  obtain ⟨w, hw⟩ := hrun
  have get : ∀ {α : Type} (f : World → Res α) (r : Res α), after lateOps f = r → f w = r := by
    intro α f r h
    unfold after at h
    rw [hw] at h
    exact h
  have hc : (findClass true w.reg "a/Derived".toList).2 = some 9 := by
    have := get (fun w => .ok (findClass true w.reg "a/Derived".toList).2) (.ok (some 9)) (by decide +kernel)
    exact Res.ok.inj this
  have hb : (w.mem 9).bases = some [some 10] :=
    Res.ok.inj (get (fun w => .ok (w.mem 9).bases) (.ok (some [some 10])) (by decide +kernel))
  have ht : w.types 10 = none := Res.ok.inj (get (fun w => .ok (w.types 10)) (.ok none) (by decide +kernel))
  have hm : (w.mem 9).methods = [] := Res.ok.inj (get (fun w => .ok (w.mem 9).methods) (.ok []) (by decide +kernel))
  have hu : Unregistered w 9 := ⟨_, 10, hb, .head _, ht⟩
  have hbs : w.bases 9 = some [none] := by
    unfold World.bases
    rw [hb]
    simp [ht]
  refine ⟨w, hw, hc, .visit (up := []) (l := []) ?_ .nil, hu, [], 9, [], rfl, fun _ h => (nomatch h), ?_, hu⟩
  · rw [hbs]; exact .skip .nil
  · rintro ⟨m, hm', _⟩
    rw [hm] at hm'
    exact nomatch hm'

end Jnivm
