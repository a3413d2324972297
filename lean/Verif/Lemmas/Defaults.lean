import Verif.Spec.Defaults
import Verif.Lemmas.HookSig
import Verif.Lemmas.MemberSample

namespace Jnivm
open Spec

theorem takeWhile_all {p : Char → Bool} {s : Str} (h : ∀ c ∈ s, p c = true) : s.takeWhile p = s := by
  induction s with
  | nil => rfl
  | cons c s ih =>
    rw [List.takeWhile_cons, if_pos (h c (.head _)), ih fun d hd => h d (.tail _ hd)]

theorem resultText_self {s : Str} (h : ')' ∉ s) : resultText s = s := by
  unfold resultText
  have : s.reverse.takeWhile (· ≠ ')') = s.reverse := by
    apply takeWhile_all
    intro c hc
    have hc' : c ∈ s := by simpa using hc
    simp only [decide_eq_true_eq]
    rintro rfl
    exact h hc'
  rw [this, List.reverse_reverse]

theorem resultText_after {a s : Str} (h : ')' ∉ s) : resultText (a ++ ')' :: s) = s := by
  have e : (a ++ ')' :: s).reverse = s.reverse ++ ')' :: a.reverse := by simp
  unfold resultText
  rw [e, List.takeWhile_append]
  have hs : s.reverse.takeWhile (· ≠ ')') = s.reverse := by
    apply takeWhile_all
    intro c hc
    have hc' : c ∈ s := by simpa using hc
    simp only [decide_eq_true_eq]
    rintro rfl
    exact h hc'
  rw [hs, if_pos rfl, List.takeWhile_cons]
  simp

theorem plain_render {t : Ty} (h : ElemNames t) : ')' ∉ t.render := by
  induction t with
  | prim p => cases p <;> decide
  | cls n => intro hm; simp [Ty.render] at hm; exact h.1 hm
  | arr t ih => intro hm; simp [Ty.render] at hm; exact ih h hm

theorem resultText_returns {sig : Str} {ret : Option Ty} (h : Returns sig ret) (hn : ')' ∉ renderRet ret) :
    resultText sig = renderRet ret := by
  rcases h with rfl | ⟨ps, rfl⟩
  · exact resultText_self hn
  · exact resultText_after (a := '(' :: ps.flatMap Ty.render) hn

theorem getLast_snoc (n : Str) (c : Char) : (n ++ [c]).getLast? = some c := by simp

/-- `FindClass` that makes up classes. -/
theorem find_create {w : World} (hr : MemReachable w) (n : Str) :
    ∃ r c, findClass false w.reg n = (r, some c) ∧ MemReachable { w with reg := r } ∧
      World.IsClass { w with reg := r } n c ∧ ∀ m d, w.IsClass m d → World.IsClass { w with reg := r } m d := by
  obtain ⟨r, c, e, hl, hcr⟩ := findClass_create hr.inv.reg n
  have hrun : (MemOp.findClass false n).run w = .ok ({ w with reg := r } : World) := by
    simp only [MemOp.run, e]
  have hr1 := hr.step hrun
  exact ⟨r, c, e, hr1, (isClass_iff hr1.inv).2 hl,
    fun m d hd => (isClass_iff hr1.inv).2 (hcr.keep m d ((isClass_iff hr.inv).1 hd))⟩

theorem find_known {w : World} (hr : MemReachable w) {n : Str} {c : Nat} (h : w.IsClass n c) :
    findClass true w.reg n = (w.reg, some c) := by
  rw [findClass_find hr.inv.reg, (isClass_iff hr.inv).1 h]

theorem find_unknown {w : World} (hr : MemReachable w) {n : Str} (h : ∀ c, ¬ w.IsClass n c) :
    findClass true w.reg n = (w.reg, none) := by
  rw [findClass_find hr.inv.reg]
  cases hl : w.reg.byName.lookup n with
  | none => rfl
  | some c => exact absurd ((isClass_iff hr.inv).2 hl) (h c)

theorem find_allowed {w : World} (hr : MemReachable w) {f : Finder} {n : Str} (ha : Allows f w n) :
    ∃ r c, f.find w.reg n = (r, some c) ∧ MemReachable { w with reg := r } ∧
      World.IsClass { w with reg := r } n c ∧ ∀ m d, w.IsClass m d → World.IsClass { w with reg := r } m d := by
  cases f with
  | create => exact find_create hr n
  | known =>
    obtain ⟨c, hc⟩ := ha
    exact ⟨w.reg, c, find_known hr hc, hr, hc, fun _ _ h => h⟩
  | baron d =>
    by_cases hk : ∃ c, w.IsClass n c
    · obtain ⟨c, hc⟩ := hk
      refine ⟨w.reg, c, ?_, hr, hc, fun _ _ h => h⟩
      simp only [Finder.find, Deny.findClass, find_known hr hc]
    · have hd : n ∉ d.classes := ha.resolve_left hk
      obtain ⟨r, c, e, h⟩ := find_create hr n
      refine ⟨r, c, ?_, h⟩
      have hd' : ¬ d.isClassDenied n = true := by simpa [Deny.isClassDenied] using hd
      simp only [Finder.find, Deny.findClass, find_unknown hr (fun c hc => hk ⟨c, hc⟩)]
      rw [if_neg hd', e]

theorem find_refused {w : World} (hr : MemReachable w) {f : Finder} {n : Str} (ha : ¬ Allows f w n) :
    f.find w.reg n = (w.reg, none) := by
  cases f with
  | create => exact absurd trivial ha
  | known => exact find_unknown hr fun c hc => ha ⟨c, hc⟩
  | baron d =>
    have hk : ∀ c, ¬ w.IsClass n c := fun c hc => ha (.inl ⟨c, hc⟩)
    have hd : n ∈ d.classes := Classical.byContradiction fun h => ha (.inr h)
    have hd' : d.isClassDenied n = true := by simpa [Deny.isClassDenied] using hd
    simp only [Finder.find, Deny.findClass, find_unknown hr hk]
    rw [if_pos hd']

theorem _root_.Spec.OnlyFound.refl (m : Makers) : OnlyFound m m := ⟨rfl, rfl, rfl, rfl, rfl, rfl, fun _ _ h => h⟩

theorem onlyFound_setReg {m : Makers} {r : Registry}
    (h : ∀ n c, m.world.IsClass n c → (m.setReg r).world.IsClass n c) : OnlyFound m (m.setReg r) :=
  ⟨rfl, rfl, rfl, rfl, rfl, rfl, h⟩

/-- The class of an array of this class. -/
def arrayOf (n : Str) : Str := if n.head? = some '[' then '[' :: n else '[' :: 'L' :: (n ++ [';'])

theorem newPrims_ok {m : Makers} (hr : MemReachable m.world) (l : Char) :
    ∃ m' x c, m.newPrims l = (m', x) ∧ x.kind = .prims l ∧ x.clazz = some c ∧ m'.world.IsClass ['[', l] c ∧
      MemReachable m'.world ∧ OnlyFound m m' := by
  obtain ⟨r, c, e, h1, h2, h3⟩ := find_create hr ['[', l]
  refine ⟨m.setReg r, ⟨.prims l, some c⟩, c, ?_, rfl, rfl, h2, h1, onlyFound_setReg h3⟩
  simp only [Makers.newPrims, e]

theorem newRefs_ok {m : Makers} (hr : MemReachable m.world) {f : Finder} {n : Str} (ha : Allows f m.world n) :
    ∃ m' x c, m.newRefs f n = .ok (m', x) ∧ x.kind = .refs ∧ x.clazz = some c ∧
      m'.world.IsClass (arrayOf n) c ∧ MemReachable m'.world ∧ OnlyFound m m' := by
  obtain ⟨r, c, e, h1, h2, h3⟩ := find_allowed hr ha
  obtain ⟨cd, hcd, hn⟩ := isClass_record h1.inv h2
  obtain ⟨r2, c2, e2, k1, k2, k3⟩ := find_create h1 (arrayOf n)
  refine ⟨m.setReg r2, ⟨.refs, some c2⟩, c2, ?_, rfl, rfl, k2, k1,
    onlyFound_setReg fun n c h => k3 n c (h3 n c h)⟩
  have hcd' : r.cls[c]? = some cd := hcd
  have e2' : findClass false r (arrayOf n) = (r2, some c2) := e2
  simp only [Makers.newRefs, e, hcd', hn]
  unfold arrayOf at e2'
  rw [e2']

theorem newRefs_refused {m : Makers} (hr : MemReachable m.world) {f : Finder} {n : Str}
    (ha : ¬ Allows f m.world n) : m.newRefs f n = .ub .nullDeref := by
  simp only [Makers.newRefs, find_refused hr ha]

/-- What `newObject` returns. -/
def Makers.objectOf (m : Makers) (c : Nat) : Option Made :=
  match m.inst c with
  | some t => some ⟨.cpp t, m.world.types t⟩
  | none => if m.bound.any fun t => m.world.types t == some c then none else some ⟨.dummy, some c⟩

theorem newObject_ok {m : Makers} (hr : MemReachable m.world) (n : Str) :
    ∃ m' c, m.newObject n = .ok (m', m.objectOf c) ∧ m'.world.IsClass n c ∧
      MemReachable m'.world ∧ OnlyFound m m' := by
  obtain ⟨r, c, e, h1, h2, h3⟩ := find_create hr n
  refine ⟨m.setReg r, c, ?_, h2, h1, onlyFound_setReg h3⟩
  simp only [Makers.newObject, e]
  rfl

/-- Which of the four things is done depends on the text only. -/
theorem default_plan (sig : Str) :
    (∃ n, ∀ f (m : Makers), m.default f sig = (m.newRefs f n).bind fun (m, x) => .ok (m, some x)) ∨
    (∃ l, ∀ f (m : Makers), m.default f sig = .ok ((m.newPrims l).1, some (m.newPrims l).2)) ∨
    (∃ n, ∀ f (m : Makers), m.default f sig = m.newObject n) ∨
    (∀ f (m : Makers), m.default f sig = .ok (m, none)) := by
  unfold Makers.default
  split
  · exact .inl ⟨_, fun _ _ => rfl⟩
  · exact .inl ⟨_, fun _ _ => rfl⟩
  · split
    · exact .inr (.inl ⟨_, fun _ _ => rfl⟩)
    · exact .inr (.inr (.inr fun _ _ => rfl))
  · split
    · exact .inr (.inr (.inl ⟨_, fun _ _ => rfl⟩))
    · exact .inr (.inr (.inr fun _ _ => rfl))
  · exact .inr (.inr (.inr fun _ _ => rfl))

/-- Without undefined behaviour, a default result only looks for classes. -/
theorem default_found {m m' : Makers} (hr : MemReachable m.world) {f : Finder} {sig : Str} {r : Option Made}
    (h : m.default f sig = .ok (m', r)) : MemReachable m'.world ∧ OnlyFound m m' := by
  have refs : ∀ n (k : Makers × Option Made), ((m.newRefs f n).bind fun (m, x) => .ok (m, some x)) = .ok k →
      MemReachable k.1.world ∧ OnlyFound m k.1 := by
    intro n k h
    by_cases ha : Allows f m.world n
    · obtain ⟨m1, x, c, e, _, _, _, h1, h2⟩ := newRefs_ok hr ha
      rw [e] at h
      cases h
      exact ⟨h1, h2⟩
    · rw [newRefs_refused hr ha] at h
      cases h
  unfold Makers.default at h
  split at h
  · exact refs _ _ h
  · exact refs _ _ h
  · rename_i l _ _ _ _
    obtain ⟨m1, x, c, e, _, _, _, h1, h2⟩ := newPrims_ok hr l
    rw [e] at h
    split at h
    · cases h; exact ⟨h1, h2⟩
    · cases h; exact ⟨hr, .refl m⟩
  · split at h
    · rename_i rest _ _
      obtain ⟨m1, c, e, _, h1, h2⟩ := newObject_ok hr rest.dropLast
      rw [e] at h
      cases h
      exact ⟨h1, h2⟩
    · cases h; exact ⟨hr, .refl m⟩
  · cases h; exact ⟨hr, .refl m⟩

/-- The classes, types and makers of a VM agree with the types that it was given. -/
structure MakersInv (m : Makers) (gs : List Given) : Prop where
  reach : MemReachable m.world
  known : ∀ g ∈ gs, ∃ c, m.world.IsClass g.name c
  types : ∀ t n c, nameOf gs t = some n → m.world.IsClass n c → m.world.types t = some c
  typed : ∀ t, nameOf gs t = none → m.world.types t = none
  bound : ∀ t, t ∈ m.bound ↔ nameOf gs t ≠ none
  inst : ∀ n c, m.world.IsClass n c →
    m.inst c = (lastGiven gs n).bind fun g => if g.makes then some g.type else none
  fresh : ∀ c, (∀ n, ¬ m.world.IsClass n c) → m.inst c = none

theorem lastGiven_snoc (gs : List Given) (g : Given) (n : Str) :
    lastGiven (gs ++ [g]) n = if g.name = n then some g else lastGiven gs n := by
  unfold lastGiven
  rw [List.reverse_append, List.reverse_singleton, List.singleton_append, List.find?_cons]
  by_cases h : g.name = n
  · rw [if_pos h]; simp [h]
  · rw [if_neg h]
    have : (g.name == n) = false := by simpa using h
    rw [this]

theorem nameOf_snoc (gs : List Given) (g : Given) (t : Nat) :
    nameOf (gs ++ [g]) t = if g.type = t then some g.name else nameOf gs t := by
  unfold nameOf
  rw [List.reverse_append, List.reverse_singleton, List.singleton_append, List.find?_cons]
  by_cases h : g.type = t
  · rw [if_pos h]; simp [h]
  · rw [if_neg h]
    have : (g.type == t) = false := by simpa using h
    rw [this]

theorem lastGiven_mem {gs : List Given} {n : Str} {g : Given} (h : lastGiven gs n = some g) :
    g ∈ gs ∧ g.name = n := by
  unfold lastGiven at h
  exact ⟨by simpa using List.mem_of_find?_eq_some h, by simpa using List.find?_some h⟩

theorem lastGiven_none {gs : List Given} {n : Str} : lastGiven gs n = none ↔ ∀ g ∈ gs, g.name ≠ n := by
  unfold lastGiven
  rw [List.find?_eq_none]
  simp

theorem nameOf_mem {gs : List Given} {t : Nat} {n : Str} (h : nameOf gs t = some n) :
    ∃ g ∈ gs, g.type = t ∧ g.name = n := by
  unfold nameOf at h
  obtain ⟨g, hg, rfl⟩ := Option.map_eq_some_iff.1 h
  exact ⟨g, by simpa using List.mem_of_find?_eq_some hg, by simpa using List.find?_some hg, rfl⟩

theorem nameOf_ne_none {gs : List Given} {g : Given} (h : g ∈ gs) : nameOf gs g.type ≠ none := by
  unfold nameOf
  intro hn
  rw [Option.map_eq_none_iff, List.find?_eq_none] at hn
  exact hn g (by simpa using h) (by simp)

theorem nameOf_one {gs : List Given} (h1 : OneName gs) {g : Given} (h : g ∈ gs) :
    nameOf gs g.type = some g.name := by
  cases hn : nameOf gs g.type with
  | none => exact absurd hn (nameOf_ne_none h)
  | some n =>
    obtain ⟨g', hg', ht, rfl⟩ := nameOf_mem hn
    rw [h1 g' hg' g h ht]

theorem initial_makersInv : MakersInv Makers.initial [] := by
  refine ⟨⟨[], rfl⟩, fun g h => (nomatch h), fun t n c h => ?_, fun t _ => rfl, fun t => ?_, fun n c h => rfl,
    fun c _ => rfl⟩
  · exact nomatch h
  · exact ⟨fun h => (nomatch h), fun h => absurd rfl h⟩

theorem isClass_one {w : World} (hr : MemReachable w) {m n : Str} {c : Nat} (h : w.IsClass m c)
    (h' : w.IsClass n c) : m = n :=
  Classical.byContradiction fun hne => isClass_ne hr.inv h h' hne rfl

theorem isClass_fun {w : World} {n : Str} {c d : Nat} (h : w.IsClass n c) (h' : w.IsClass n d) : c = d := by
  unfold World.IsClass at h h'
  rw [h] at h'
  exact Option.some.inj h'

theorem MakersInv.keep {m m' : Makers} {gs : List Given} (inv : MakersInv m gs) (hr : MemReachable m'.world)
    (ht : m'.world.types = m.world.types) (hi : m'.inst = m.inst) (hb : m'.bound = m.bound)
    (hk : ∀ n c, m.world.IsClass n c → m'.world.IsClass n c) : MakersInv m' gs := by
  have old : ∀ n c, m'.world.IsClass n c → (∃ d, m.world.IsClass n d) → m.world.IsClass n c := by
    rintro n c h ⟨d, hd⟩
    rw [isClass_fun h (hk n d hd)]
    exact hd
  have fresh : ∀ n c, m'.world.IsClass n c → (¬ ∃ d, m.world.IsClass n d) → ∀ k, ¬ m.world.IsClass k c := by
    intro n c h hno k hkc
    have := isClass_one hr h (hk k c hkc)
    exact hno ⟨c, this ▸ hkc⟩
  refine ⟨hr, fun g hg => ?_, fun t n c hn hc => ?_, fun t hn => ?_, fun t => ?_, fun n c hc => ?_, fun c hc => ?_⟩
  · obtain ⟨c, hc⟩ := inv.known g hg
    exact ⟨c, hk _ _ hc⟩
  · obtain ⟨g, hg, _, rfl⟩ := nameOf_mem hn
    rw [ht]
    exact inv.types t _ c hn (old _ _ hc (inv.known g hg))
  · rw [ht]; exact inv.typed t hn
  · rw [hb]; exact inv.bound t
  · rw [hi]
    by_cases ho : ∃ d, m.world.IsClass n d
    · exact inv.inst n c (old n c hc ho)
    · rw [inv.fresh c (fresh n c hc ho)]
      cases hl : lastGiven gs n with
      | none => rfl
      | some g =>
        obtain ⟨hg, rfl⟩ := lastGiven_mem hl
        exact absurd (inv.known g hg) ho
  · rw [hi]
    exact inv.fresh c fun n h => hc n (hk n c h)

theorem bind_makersInv {m m' : Makers} {gs : List Given} (inv : MakersInv m gs) {t : Nat} {n : Str}
    {bs : List (Option Nat)} {b : Bool} (h : m.bind t n bs b = .ok m') : MakersInv m' (gs ++ [⟨t, n, b⟩]) := by
  obtain ⟨w1, c, hrun, hc, htypes, _, hkeep, _⟩ := bindType_spec inv.reach.inv t n bs
  have hr1 := inv.reach.step hrun
  have hc' : (m.world.bindType t n bs).1 = w1 := by
    simpa [MemOp.run] using hrun
  have hsome : ∃ d, (m.world.bindType t n bs) = (w1, some d) ∧ d = c := by
    obtain ⟨r, d, e, hl, hcr⟩ := findClass_create inv.reach.inv.reg n
    have e1 : m.world.bindType t n bs = ((m.world.bindType t n bs).1, some d) := by
      simp only [World.bindType, e]
    rw [hc'] at e1
    refine ⟨d, e1, ?_⟩
    have ht := htypes t
    rw [if_pos rfl, ← hc'] at ht
    simp only [World.bindType, e, if_pos] at ht
    exact Option.some.inj ht
  obtain ⟨d, e, rfl⟩ := hsome
  unfold Makers.bind at h
  rw [e] at h
  simp only [Res.ok.injEq] at h
  subst h
  have old : ∀ k c, w1.IsClass k c → (∃ d, m.world.IsClass k d) → m.world.IsClass k c := by
    rintro k c h ⟨x, hx⟩
    rw [isClass_fun h (hkeep k x hx)]
    exact hx
  refine ⟨hr1, fun g hg => ?_, fun u k x hn hx => ?_, fun u hn => ?_, fun u => ?_, fun k x hx => ?_, fun x hx => ?_⟩
  · rcases List.mem_append.1 hg with hg | hg
    · obtain ⟨x, hx⟩ := inv.known g hg
      exact ⟨x, hkeep _ _ hx⟩
    · cases List.mem_singleton.1 hg
      exact ⟨d, hc⟩
  · rw [nameOf_snoc] at hn
    show w1.types u = some x
    rw [htypes]
    by_cases hu : t = u
    · rw [if_pos hu] at hn
      rw [if_pos hu.symm]
      cases hn
      rw [isClass_fun hc hx]
    · rw [if_neg hu] at hn
      rw [if_neg (fun e => hu e.symm)]
      obtain ⟨g, hg, _, rfl⟩ := nameOf_mem hn
      exact inv.types u _ x hn (old _ _ hx (inv.known g hg))
  · rw [nameOf_snoc] at hn
    show w1.types u = none
    rw [htypes]
    by_cases hu : t = u
    · rw [if_pos hu] at hn; exact nomatch hn
    · rw [if_neg hu] at hn
      rw [if_neg (fun e => hu e.symm)]
      exact inv.typed u hn
  · rw [nameOf_snoc]
    show u ∈ t :: m.bound ↔ _
    rw [List.mem_cons]
    by_cases hu : t = u
    · rw [if_pos hu]
      exact ⟨fun _ h => (nomatch h), fun _ => .inl hu.symm⟩
    · rw [if_neg hu, ← inv.bound u]
      exact ⟨fun h => h.resolve_left fun e => hu e.symm, .inr⟩
  · rw [lastGiven_snoc]
    show (if x = d then (if b then some t else none) else m.inst x) = _
    by_cases hk : n = k
    · subst hk
      rw [if_pos rfl, if_pos (isClass_fun hx hc)]
      rfl
    · have hne : x ≠ d := fun e => hk (isClass_one hr1 hc (e ▸ hx))
      rw [if_neg hk, if_neg hne]
      by_cases ho : ∃ y, m.world.IsClass k y
      · exact inv.inst k x (old k x hx ho)
      · have hf : ∀ j, ¬ m.world.IsClass j x := by
          intro j hj
          have := isClass_one hr1 hx (hkeep j x hj)
          exact ho ⟨x, this ▸ hj⟩
        rw [inv.fresh x hf]
        cases hl : lastGiven gs k with
        | none => rfl
        | some g =>
          obtain ⟨hg, rfl⟩ := lastGiven_mem hl
          exact absurd (inv.known g hg) ho
  · show (if x = d then (if b then some t else none) else m.inst x) = none
    have hne : x ≠ d := fun e => hx n (e ▸ hc)
    rw [if_neg hne]
    exact inv.fresh x fun k hk => hx k (hkeep k x hk)

/-- One step of a history. -/
theorem maker_step {m m' : Makers} {gs : List Given} (inv : MakersInv m gs) {op : MakerOp}
    (h : op.run m = .ok m') : MakersInv m' (gs ++ givens [op]) := by
  have mem : ∀ o : MemOp, (∀ t n bs, o ≠ .bindType t n bs) →
      ((o.run m.world).bind fun w => .ok { m with world := w }) = .ok m' → MakersInv m' gs := by
    intro o ho h
    obtain ⟨w, h1, h2⟩ := Res.bind_eq_ok.1 h
    cases h2
    refine inv.keep (inv.reach.step h1) ?_ rfl rfl fun n c => isClass_step inv.reach.inv h1
    rcases step_types h1 with e | ⟨t, n, bs, e⟩
    · exact e
    · exact absurd e (ho t n bs)
  cases op with
  | mem o =>
    cases o with
    | bindType t n bs => exact bind_makersInv inv h
    | findClass z n =>
      simp only [givens, List.append_nil]
      exact mem (.findClass z n) (fun _ _ _ e => (nomatch e)) h
    | getMethodID d s r a cl n sig =>
      simp only [givens, List.append_nil]
      exact mem (.getMethodID d s r a cl n sig) (fun _ _ _ e => (nomatch e)) h
    | getFieldID d s r cl n t =>
      simp only [givens, List.append_nil]
      exact mem (.getFieldID d s r cl n t) (fun _ _ _ e => (nomatch e)) h
    | hookMethod c s n sig fn =>
      simp only [givens, List.append_nil]
      exact mem (.hookMethod c s n sig fn) (fun _ _ _ e => (nomatch e)) h
    | hookField c g s n t fn =>
      simp only [givens, List.append_nil]
      exact mem (.hookField c g s n t fn) (fun _ _ _ e => (nomatch e)) h
    | registerNatives cl l =>
      simp only [givens, List.append_nil]
      exact mem (.registerNatives cl l) (fun _ _ _ e => (nomatch e)) h
    | unregisterNatives cl =>
      simp only [givens, List.append_nil]
      exact mem (.unregisterNatives cl) (fun _ _ _ e => (nomatch e)) h
  | bind t n bs b => exact bind_makersInv inv h
  | default f sig =>
    simp only [givens, List.append_nil]
    simp only [MakerOp.run] at h
    obtain ⟨⟨m1, r⟩, h1, h2⟩ := Res.bind_eq_ok.1 h
    cases h2
    obtain ⟨hr, hf⟩ := default_found inv.reach h1
    exact inv.keep hr hf.types hf.inst hf.bound hf.keep

theorem givens_cons (op : MakerOp) (ops : List MakerOp) : givens (op :: ops) = givens [op] ++ givens ops := by
  cases op with
  | mem o => cases o <;> rfl
  | bind t n bs b => rfl
  | default f sig => rfl

theorem makers_run {ops : List MakerOp} : ∀ {m m' : Makers} {gs : List Given}, MakersInv m gs →
    runMakers m ops = .ok m' → MakersInv m' (gs ++ givens ops) := by
  induction ops with
  | nil => intro m m' gs inv h; cases h; simpa [givens] using inv
  | cons op ops ih =>
    intro m m' gs inv h
    simp only [runMakers] at h
    obtain ⟨m1, h1, h2⟩ := Res.bind_eq_ok.1 h
    have := ih (maker_step inv h1) h2
    rw [givens_cons, ← List.append_assoc]
    exact this

theorem makers_inv {ops : List MakerOp} {m : Makers} (h : runMakers .initial ops = .ok m) :
    MakersInv m (givens ops) := by
  simpa using makers_run initial_makersInv h

end Jnivm
