import Verif.Spec.HookSig
import Verif.Lemmas.MemberOps
import Verif.Lemmas.MemberSample
import Verif.Lemmas.Sig
/-! Lemmas about the signatures of hooked C++ functions. -/
namespace Jnivm
open Spec

theorem objectSig_name {ci : CppInfo} {w : World} (inv : MemInv w) {c : CppClass} {n : Str}
    (h : JavaName ci w c n) : objectSig ci w c = .ok (Ty.cls n).render := by
  rcases h with ⟨k, h1, h2⟩ | ⟨h1, h2, h3⟩
  · obtain ⟨cd, h3, h4⟩ := isClass_record inv h2
    simp only [objectSig, h1, h3, h4, Ty.render]
  · simp only [objectSig, h1, h2, h3, Ty.render, Bool.false_eq_true, if_false]

theorem primSig_render (p : Prim) : primSig p = (Ty.prim p).render := by cases p <;> rfl

theorem _root_.Spec.OnlyClasses.refl (w : World) : OnlyClasses w w [] :=
  ⟨rfl, rfl, rfl, rfl, fun _ _ h => h, by simp⟩

theorem _root_.Spec.OnlyClasses.trans {w w1 w2 : World} {a b : List Str} (h1 : OnlyClasses w w1 a)
    (h2 : OnlyClasses w1 w2 b) : OnlyClasses w w2 (a ++ b) := by
  refine ⟨h2.types.trans h1.types, h2.mem.trans h1.mem, h2.loose.trans h1.loose, h2.next.trans h1.next,
    fun n c h => h2.keep n c (h1.keep n c h), fun n => ?_⟩
  rw [h2.known, h1.known, List.mem_append, or_assoc]

theorem _root_.Spec.OnlyClasses.congr {w w' : World} {a b : List Str} (h : OnlyClasses w w' a)
    (hab : ∀ n, n ∈ a ↔ n ∈ b) : OnlyClasses w w' b :=
  ⟨h.types, h.mem, h.loose, h.next, h.keep, fun n => by rw [h.known, hab]⟩

/-- The types keep their classes. -/
structure Keeps (w w' : World) : Prop where
  types : w'.types = w.types
  keep : ∀ n c, w.IsClass n c → w'.IsClass n c

theorem _root_.Spec.OnlyClasses.keeps {w w' : World} {a : List Str} (h : OnlyClasses w w' a) : Keeps w w' :=
  ⟨h.types, h.keep⟩

theorem _root_.Spec.JavaName.mono {ci : CppInfo} {w w' : World} (g : Keeps w w')
    {c : CppClass} {n : Str} (h : JavaName ci w c n) : JavaName ci w' c n := by
  unfold JavaName
  rw [g.types]
  rcases h with ⟨k, h1, h2⟩ | h
  · exact .inl ⟨k, h1, g.keep n k h2⟩
  · exact .inr h

theorem _root_.Spec.JavaElem.mono {ci : CppInfo} {w w' : World} (g : Keeps w w')
    {c : CppClass} {t : Ty} (h : JavaElem ci w c t) : JavaElem ci w' c t := by
  induction h with
  | prim => exact .prim
  | cls h => exact .cls (JavaName.mono g h)
  | arr _ ih => exact .arr ih

theorem _root_.Spec.JavaType.mono {ci : CppInfo} {w w' : World} (g : Keeps w w')
    {p : CppTy} {t : Ty} (h : JavaType ci w p t) : JavaType ci w' p t := by
  cases h with
  | value h => exact .value (JavaElem.mono g h)
  | array h => exact .array (JavaElem.mono g h)
  | object h => exact .object (JavaName.mono g h)
  | handle h => exact .handle (JavaName.mono g h)

theorem _root_.Spec.JavaTypes.mono {ci : CppInfo} {w w' : World} (g : Keeps w w')
    {ps : List CppTy} {ts : List Ty} (h : JavaTypes ci w ps ts) : JavaTypes ci w' ps ts := by
  induction h with
  | nil => exact .nil
  | cons h _ ih => exact .cons (JavaType.mono g h) ih

theorem _root_.Spec.JavaRet.mono {ci : CppInfo} {w w' : World} (g : Keeps w w')
    {p : CppTy} {t : Option Ty} (h : JavaRet ci w p t) : JavaRet ci w' p t := by
  cases h with
  | void => exact .void
  | some h => exact .some (JavaType.mono g h)

/-- Finding or creating an array class adds at most that class. -/
theorem onlyClasses_array {w : World} (hr : MemReachable w) (s : Str) :
    MemReachable { w with reg := (findClass false w.reg ('[' :: s)).1 } ∧
    OnlyClasses w { w with reg := (findClass false w.reg ('[' :: s)).1 } ['[' :: s] := by
  have hrun : (MemOp.findClass false ('[' :: s)).run w
    = .ok { w with reg := (findClass false w.reg ('[' :: s)).1 } := rfl
  refine ⟨hr.step hrun, rfl, rfl, rfl, rfl, fun n c h => isClass_step hr.inv hrun h, fun n => ?_⟩
  obtain ⟨r', c, e, hl, hc⟩ := findClass_create hr.inv.reg ('[' :: s)
  have hnew := hc.new n
  simp only [Option.isSome_iff_exists] at hnew
  have h1 : ∀ k, World.IsClass { w with reg := (findClass false w.reg ('[' :: s)).1 } n k ↔
      r'.byName.lookup n = some k := by
    intro k
    rw [isClass_iff (hr.step hrun).inv, e]
  simp only [h1, isClass_iff hr.inv]
  rw [hnew]
  have : Encloses n ('[' :: s) ↔ n ∈ ['[' :: s] := by
    constructor
    · rintro (h | ⟨h, _⟩)
      · simp [h]
      · simp at h
    · intro h; exact .inl (by simpa using h)
  rw [this]

theorem elem_sig {ci : CppInfo} {c : CppClass} : ∀ {w : World} {t : Ty}, MemReachable w → JavaElem ci w c t →
    ∃ w', c.sig ci w = .ok (w', t.render) ∧ MemReachable w' ∧ OnlyClasses w w' (arrayNames t) := by
  induction c with
  | prim p =>
    intro w t hr h
    cases h
    exact ⟨w, by rw [CppClass.sig, primSig_render], hr, OnlyClasses.refl w⟩
  | cls k =>
    intro w t hr h
    cases h with
    | cls h => exact ⟨w, by rw [CppClass.sig, objectSig_name hr.inv h]; rfl, hr, OnlyClasses.refl w⟩
  | arr e ih =>
    intro w t hr h
    cases h with
    | @arr _ t h =>
      obtain ⟨w1, h1, hr1, g1⟩ := ih hr h
      cases h with
      | @prim p =>
        exact ⟨w1, by rw [CppClass.sig, h1]; rfl, hr1, g1⟩
      | @cls k n h =>
        obtain ⟨hr2, g2⟩ := onlyClasses_array hr1 (Ty.cls n).render
        exact ⟨_, by rw [CppClass.sig, h1]; rfl, hr2, (g1.trans g2).congr (by simp [arrayNames])⟩
      | @arr e t h =>
        obtain ⟨hr2, g2⟩ := onlyClasses_array hr1 (Ty.arr t).render
        exact ⟨_, by rw [CppClass.sig, h1]; rfl, hr2, (g1.trans g2).congr (by
          intro n
          simp only [arrayNames, List.mem_append, List.mem_cons, List.not_mem_nil, or_false]
          exact or_comm)⟩

theorem ty_sig {ci : CppInfo} {p : CppTy} {w : World} {t : Ty} (hr : MemReachable w) (h : JavaType ci w p t) :
    ∃ w', p.sig ci w = .ok (w', t.render) ∧ MemReachable w' ∧ OnlyClasses w w' (arrayNames t) := by
  cases h with
  | value h => exact elem_sig hr h
  | array h => exact elem_sig hr (.arr h)
  | @object b k n h =>
    refine ⟨w, ?_, hr, OnlyClasses.refl w⟩
    have := objectSig_name hr.inv h
    cases b <;> simp only [CppTy.sig, CppClass.sig, this, Res.bind_ok]
  | @handle k n h =>
    exact ⟨w, by simp only [CppTy.sig, objectSig_name hr.inv h, Res.bind_ok], hr, OnlyClasses.refl w⟩

theorem unfold_sig {ci : CppInfo} {ps : List CppTy} : ∀ {w : World} {ts : List Ty}, MemReachable w →
    JavaTypes ci w ps ts → ∃ w', unfoldSig ci w ps = .ok (w', ts.flatMap Ty.render) ∧ MemReachable w' ∧
      OnlyClasses w w' (ts.flatMap arrayNames) := by
  induction ps with
  | nil => intro w ts hr h; cases h; exact ⟨w, rfl, hr, OnlyClasses.refl w⟩
  | cons p ps ih =>
    intro w ts hr h
    cases h with
    | cons h hs =>
      obtain ⟨w1, h1, hr1, g1⟩ := ty_sig hr h
      obtain ⟨w2, h2, hr2, g2⟩ := ih hr1 (JavaTypes.mono g1.keeps hs)
      exact ⟨w2, by simp only [unfoldSig, h1, Res.bind_ok, h2, List.flatMap_cons], hr2,
        by rw [List.flatMap_cons]; exact g1.trans g2⟩

/-- The array classes mentioned in a result type. -/
def retNames : Option Ty → List (List Char)
  | none => []
  | some t => arrayNames t

theorem ret_sig {ci : CppInfo} {p : CppTy} {w : World} {t : Option Ty} (hr : MemReachable w) (h : JavaRet ci w p t) :
    ∃ w', p.sig ci w = .ok (w', renderRet t) ∧ MemReachable w' ∧ OnlyClasses w w' (retNames t) := by
  cases h with
  | void => exact ⟨w, rfl, hr, OnlyClasses.refl w⟩
  | some h => exact ty_sig hr h

/-- The types in `typecheck` are bound to classes of the registry. -/
def TypesBound (w : World) : Prop := ∀ t k, w.types t = some k → ∃ n, w.IsClass n k

theorem registerNatives_types (c : Nat) (l : List NativeMethod) : ∀ w : World,
    (w.registerNatives (some c) l).types = w.types := by
  induction l with
  | nil => intro w; rfl
  | cons x l ih => intro w; exact (ih (w.registerOne c x)).trans rfl

theorem step_types {w w' : World} {op : MemOp} (h : op.run w = .ok w') :
    w'.types = w.types ∨ ∃ t n bs, op = .bindType t n bs := by
  cases op with
  | bindType t n bs => exact .inr ⟨t, n, bs, rfl⟩
  | findClass z n => simp [MemOp.run] at h; subst h; exact .inl rfl
  | getMethodID depth st rn nat cl n s =>
    simp only [MemOp.run] at h
    obtain ⟨⟨w2, r⟩, h1, h2⟩ := Res.bind_eq_ok.1 h
    simp at h2; subst h2
    left
    obtain ⟨_, _, e, _⟩ | ⟨_, _, _, _, _, e⟩ | ⟨_, _, _, _, h3⟩ := getMethodID_ok h1
    · rw [e]
    · rw [e]
    · obtain ⟨e, _⟩ | ⟨_, _, _, _, _, e⟩ := methodOf_ok h3
      · rw [e]
      · rw [e]; rfl
  | getFieldID depth st rn cl n s =>
    simp only [MemOp.run] at h
    obtain ⟨⟨w2, r⟩, h1, h2⟩ := Res.bind_eq_ok.1 h
    simp at h2; subst h2
    left
    obtain ⟨_, _, _, _, ⟨e, _⟩ | ⟨_, _, _, _, _, e⟩⟩ := getFieldID_ok h1
    · rw [e]
    · rw [e]; rfl
  | hookMethod c st n s fn =>
    simp [MemOp.run] at h; subst h; left
    unfold World.hookMethod
    dsimp only
    split <;> rfl
  | hookField c g st n s fn =>
    simp [MemOp.run] at h; subst h; left
    unfold World.hookField
    dsimp only
    split <;> rfl
  | registerNatives cl l =>
    simp [MemOp.run] at h; subst h; left
    cases cl with
    | none => rfl
    | some c => exact registerNatives_types c l w
  | unregisterNatives cl =>
    simp [MemOp.run] at h; subst h; left
    cases cl <;> rfl

theorem MemReachable.typesBound {w : World} (h : MemReachable w) : TypesBound w := by
  obtain ⟨ops, h⟩ := h
  have key : ∀ (ops : List MemOp) {v : World}, MemInv v → TypesBound v → runMem v ops = .ok w → TypesBound w := by
    intro ops
    induction ops with
    | nil => intro v _ hv h; cases h; exact hv
    | cons op ops ih =>
      intro v inv hv h
      unfold runMem at h
      obtain ⟨v1, h1, h2⟩ := Res.bind_eq_ok.1 h
      refine ih (step_memInv inv h1) ?_ h2
      intro t k hk
      rcases step_types h1 with e | ⟨u, n, bs, rfl⟩
      · rw [e] at hk
        obtain ⟨n, hn⟩ := hv t k hk
        exact ⟨n, isClass_step inv h1 hn⟩
      · obtain ⟨w', c, e1, e2, e3, _, e5, _⟩ := bindType_spec inv u n bs
        rw [e1] at h1
        cases h1
        rw [e3] at hk
        by_cases ht : t = u
        · rw [if_pos ht] at hk; cases hk; exact ⟨n, e2⟩
        · rw [if_neg ht] at hk
          obtain ⟨m, hm⟩ := hv t k hk
          exact ⟨m, e5 m k hm⟩
  exact key ops initial_memInv (by intro t k hk; cases hk) h

theorem objectSig_ok {ci : CppInfo} {w : World} (hr : MemReachable w) {c : CppClass} {s : Str}
    (h : objectSig ci w c = .ok s) : ∃ n, JavaName ci w c n ∧ s = (Ty.cls n).render := by
  unfold objectSig at h
  cases hk : w.types (ci.id c) with
  | some k =>
    obtain ⟨n, hn⟩ := hr.typesBound _ k hk
    obtain ⟨cd, h1, h2⟩ := isClass_record hr.inv hn
    simp only [hk, h1, Res.ok.injEq] at h
    exact ⟨n, .inl ⟨k, hk, hn⟩, by rw [← h, h2]; rfl⟩
  | none =>
    rw [hk] at h
    simp only at h
    cases hz : ci.nulls (ci.id c) with
    | true => rw [hz] at h; simp at h
    | false =>
      rw [hz] at h
      simp only [Bool.false_eq_true, if_false] at h
      cases hd : ci.declared c with
      | none => rw [hd] at h; cases h
      | some n =>
        rw [hd] at h
        cases h
        exact ⟨n, .inr ⟨hk, hz, hd⟩, rfl⟩

theorem elem_sig_ok {ci : CppInfo} {c : CppClass} : ∀ {w w' : World} {s : Str}, MemReachable w →
    c.sig ci w = .ok (w', s) → ∃ t, JavaElem ci w c t := by
  induction c with
  | prim p => intro w w' s _ _; exact ⟨_, .prim⟩
  | cls k =>
    intro w w' s hr h
    unfold CppClass.sig at h
    obtain ⟨s', h1, _⟩ := Res.bind_eq_ok.1 h
    obtain ⟨n, hn, _⟩ := objectSig_ok hr h1
    exact ⟨_, .cls hn⟩
  | arr e ih =>
    intro w w' s hr h
    unfold CppClass.sig at h
    obtain ⟨⟨w1, s'⟩, h1, _⟩ := Res.bind_eq_ok.1 h
    obtain ⟨t, ht⟩ := ih hr h1
    exact ⟨_, .arr ht⟩

theorem ty_sig_ok {ci : CppInfo} {p : CppTy} {w w' : World} {s : Str} (hr : MemReachable w) (hs : Supported p)
    (h : p.sig ci w = .ok (w', s)) : ∃ t, JavaType ci w p t := by
  have obj : ∀ {c : CppClass}, ((objectSig ci w c).bind fun s => .ok (w, s)) = .ok (w', s) →
      ∃ n, JavaName ci w c n := by
    intro c h
    obtain ⟨s', h1, _⟩ := Res.bind_eq_ok.1 h
    obtain ⟨n, hn, _⟩ := objectSig_ok hr h1
    exact ⟨n, hn⟩
  match p, hs, h with
  | .handle t, _, h => obtain ⟨n, hn⟩ := obj h; exact ⟨_, .handle hn⟩
  | .data .value c, _, h => obtain ⟨t, ht⟩ := elem_sig_ok hr h; exact ⟨_, .value ht⟩
  | .data .shared (.arr e), _, h =>
    obtain ⟨t, ht⟩ := elem_sig_ok hr h
    cases ht with
    | arr ht => exact ⟨_, .array ht⟩
  | .data .shared (.cls t), _, h => obtain ⟨n, hn⟩ := obj h; exact ⟨_, .object hn⟩
  | .data .pointer (.cls t), _, h => obtain ⟨n, hn⟩ := obj h; exact ⟨_, .object hn⟩
  | .data .ref (.cls t), _, h => obtain ⟨n, hn⟩ := obj h; exact ⟨_, .object hn⟩
  | .data .constRef (.cls t), _, h => obtain ⟨n, hn⟩ := obj h; exact ⟨_, .object hn⟩
  | .data .constShared (.cls t), _, h => obtain ⟨n, hn⟩ := obj h; exact ⟨_, .object hn⟩

/-- Types that denote Java types in a grown world did so before. -/
theorem _root_.Spec.JavaName.back {ci : CppInfo} {w w' : World} (hr : MemReachable w) (hr' : MemReachable w') {ns : List Str}
    (g : OnlyClasses w w' ns) {c : CppClass} {n : Str} (h : JavaName ci w' c n) : JavaName ci w c n := by
  unfold JavaName at *
  rw [g.types] at h
  rcases h with ⟨k, h1, h2⟩ | h
  · obtain ⟨m, hm⟩ := hr.typesBound _ k h1
    have : m = n := by
      obtain ⟨cd, e1, p1⟩ := isClass_record hr'.inv h2
      obtain ⟨cd', e2, p2⟩ := isClass_record hr'.inv (g.keep m k hm)
      rw [e1] at e2; cases e2
      exact p2.symm.trans p1
    subst this
    exact .inl ⟨k, h1, hm⟩
  · exact .inr h

theorem _root_.Spec.JavaElem.back {ci : CppInfo} {w w' : World} (hr : MemReachable w) (hr' : MemReachable w') {ns : List Str}
    (g : OnlyClasses w w' ns) {c : CppClass} {t : Ty} (h : JavaElem ci w' c t) : JavaElem ci w c t := by
  induction h with
  | prim => exact .prim
  | cls h => exact .cls (JavaName.back hr hr' g h)
  | arr _ ih => exact .arr ih

theorem _root_.Spec.JavaType.back {ci : CppInfo} {w w' : World} (hr : MemReachable w) (hr' : MemReachable w') {ns : List Str}
    (g : OnlyClasses w w' ns) {p : CppTy} {t : Ty} (h : JavaType ci w' p t) : JavaType ci w p t := by
  cases h with
  | value h => exact .value (JavaElem.back hr hr' g h)
  | array h => exact .array (JavaElem.back hr hr' g h)
  | object h => exact .object (JavaName.back hr hr' g h)
  | handle h => exact .handle (JavaName.back hr hr' g h)

theorem _root_.Spec.JavaTypes.back {ci : CppInfo} {w w' : World} (hr : MemReachable w) (hr' : MemReachable w') {ns : List Str}
    (g : OnlyClasses w w' ns) {ps : List CppTy} {ts : List Ty} (h : JavaTypes ci w' ps ts) :
    JavaTypes ci w ps ts := by
  induction h with
  | nil => exact .nil
  | cons h _ ih => exact .cons (JavaType.back hr hr' g h) ih

theorem unfold_sig_ok {ci : CppInfo} {ps : List CppTy} : ∀ {w w' : World} {s : Str}, MemReachable w →
    (∀ p ∈ ps, Supported p) → unfoldSig ci w ps = .ok (w', s) → ∃ ts, JavaTypes ci w ps ts := by
  induction ps with
  | nil => intro w w' s _ _ _; exact ⟨[], .nil⟩
  | cons p ps ih =>
    intro w w' s hr hs h
    unfold unfoldSig at h
    obtain ⟨⟨w1, s1⟩, h1, h2⟩ := Res.bind_eq_ok.1 h
    obtain ⟨⟨w2, s2⟩, h3, _⟩ := Res.bind_eq_ok.1 h2
    obtain ⟨t, ht⟩ := ty_sig_ok hr (hs p (List.mem_cons_self ..)) h1
    obtain ⟨w1', h1', hr1, g1⟩ := ty_sig hr ht
    have e : (w1, s1) = (w1', t.render) := Res.ok.inj (h1.symm.trans h1')
    cases e
    obtain ⟨ts, hts⟩ := ih hr1 (fun q hq => hs q (List.mem_cons_of_mem _ hq)) h3
    exact ⟨t :: ts, .cons ht (JavaTypes.back hr hr1 g1 hts)⟩

/-! ### Reading a list of descriptors back -/

theorem split_semicolon : ∀ {a b x y : List Char}, ';' ∉ a → ';' ∉ b → a ++ ';' :: x = b ++ ';' :: y →
    a = b ∧ x = y
  | [], [], _, _, _, _, h => ⟨rfl, (List.cons.inj h).2⟩
  | [], c :: b, _, _, _, hb, h => absurd (by rw [(List.cons.inj h).1]; exact List.mem_cons_self ..) hb
  | c :: a, [], _, _, ha, _, h => absurd (by rw [← (List.cons.inj h).1]; exact List.mem_cons_self ..) ha
  | c :: a, d :: b, _, _, ha, hb, h => by
    obtain ⟨h1, h2⟩ := List.cons.inj h
    obtain ⟨h3, h4⟩ := split_semicolon (fun h => ha (List.mem_cons_of_mem _ h))
      (fun h => hb (List.mem_cons_of_mem _ h)) h2
    exact ⟨by rw [h1, h3], h4⟩

theorem render_cancel : ∀ {t t' : Ty}, t.Valid → t'.Valid → ∀ {a b : List Char},
    t.render ++ a = t'.render ++ b → t = t' ∧ a = b := by
  intro t
  induction t with
  | prim p =>
    intro t' _ _ a b h
    cases t' with
    | prim q =>
      obtain ⟨h1, h2⟩ := List.cons.inj h
      refine ⟨?_, h2⟩
      cases p <;> cases q <;> first | rfl | exact absurd h1 (by decide)
    | cls n => exact absurd (List.cons.inj h).1 (by cases p <;> decide)
    | arr u => exact absurd (List.cons.inj h).1 (by cases p <;> decide)
  | cls n =>
    intro t' ht ht' a b h
    cases t' with
    | prim q => exact absurd (List.cons.inj h).1 (by cases q <;> decide)
    | cls m =>
      have : (n ++ [';']) ++ a = (m ++ [';']) ++ b := (List.cons.inj h).2
      rw [List.append_assoc, List.append_assoc] at this
      obtain ⟨h1, h2⟩ := split_semicolon ht ht' this
      exact ⟨by rw [h1], h2⟩
    | arr u => exact absurd (List.cons.inj h).1 (by decide)
  | arr u ih =>
    intro t' ht ht' a b h
    cases t' with
    | prim q => exact absurd (List.cons.inj h).1 (by cases q <;> decide)
    | cls m => exact absurd (List.cons.inj h).1 (by decide)
    | arr u' =>
      have h' : u.render ++ a = u'.render ++ b := (List.cons.inj h).2
      obtain ⟨h1, h2⟩ := ih (t' := u') ht ht' h'
      exact ⟨by rw [h1], h2⟩

theorem render_ne_paren (t : Ty) (a b : List Char) : t.render ++ a ≠ ')' :: b := by
  intro h
  cases t with
  | prim p => exact absurd (List.cons.inj h).1 (by cases p <;> decide)
  | cls n => exact absurd (List.cons.inj h).1 (by decide)
  | arr u => exact absurd (List.cons.inj h).1 (by decide)

theorem params_cancel : ∀ {ts us : List Ty}, (∀ t ∈ ts, t.Valid) → (∀ t ∈ us, t.Valid) → ∀ {a b : List Char},
    ts.flatMap Ty.render ++ ')' :: a = us.flatMap Ty.render ++ ')' :: b → ts = us ∧ a = b
  | [], [], _, _, _, _, h => ⟨rfl, (List.cons.inj h).2⟩
  | [], u :: us, _, _, _, _, h => by
    rw [List.flatMap_cons, List.append_assoc] at h
    exact (render_ne_paren _ _ _ h.symm).elim
  | t :: ts, [], _, _, _, _, h => by
    rw [List.flatMap_cons, List.append_assoc] at h
    exact (render_ne_paren _ _ _ h).elim
  | t :: ts, u :: us, hts, hus, _, _, h => by
    rw [List.flatMap_cons, List.append_assoc, List.flatMap_cons, List.append_assoc] at h
    obtain ⟨h1, h2⟩ := render_cancel (hts t (List.mem_cons_self ..)) (hus u (List.mem_cons_self ..)) h
    obtain ⟨h3, h4⟩ := params_cancel (fun x hx => hts x (List.mem_cons_of_mem _ hx))
      (fun x hx => hus x (List.mem_cons_of_mem _ hx)) h2
    exact ⟨by rw [h1, h3], h4⟩

/-! ### Arguments -/

theorem truncate_back {n : Nat} (hn : n ≤ 64) (v : BitVec n) : (v.zeroExtend 64).truncate n = v := by
  apply BitVec.eq_of_toNat_eq
  simp only [BitVec.truncate_eq_setWidth, BitVec.toNat_setWidth]
  have h1 := v.isLt
  have h2 : 2 ^ n ≤ 2 ^ 64 := Nat.pow_le_pow_right (by omega) hn
  rw [Nat.mod_eq_of_lt (show v.toNat < 2 ^ 64 by omega), Nat.mod_eq_of_lt h1]

/-- Reading a delivered value through the C++ type of the parameter. -/
theorem received_delivered {d2f : BitVec 64 → BitVec 32} {ci : CppInfo} {w : World} {p : CppTy} {t : Ty}
    (hp : JavaType ci w p t) {a : CArg} {v : CppVal} (h : received d2f t a = some v) :
    ∃ x, delivered d2f t a = some x ∧ p.jniCast x = v := by
  have hobj : (∀ q, p ≠ .data .value (.prim q)) → ∀ x, p.jniCast x = .l x := by
    intro hq x
    unfold CppTy.jniCast
    split <;> first | rfl | exact absurd rfl (hq _)
  have harr : (∀ q, p ≠ .data .value (.prim q)) → (∀ q, t ≠ .prim q) → ∃ x, delivered d2f t a = some x ∧
      p.jniCast x = v := by
    intro h1 h2
    cases t with
    | prim q => exact absurd rfl (h2 q)
    | cls n => cases a <;> simp only [received, reduceCtorEq, Option.some.injEq] at h
               exact ⟨_, rfl, by rw [hobj h1, h]⟩
    | arr n => cases a <;> simp only [received, reduceCtorEq, Option.some.injEq] at h
               exact ⟨_, rfl, by rw [hobj h1, h]⟩
  cases hp with
  | value he =>
    cases he with
    | @prim q =>
      cases q <;> cases a <;> simp only [received, reduceCtorEq, Option.some.injEq] at h <;> subst h <;>
        refine ⟨_, rfl, ?_⟩ <;> simp only [CppTy.jniCast]
      all_goals rw [truncate_back (by omega)]
    | cls _ => exact harr (by simp) (by simp)
    | arr _ => exact harr (by simp) (by simp)
  | array _ => exact harr (by simp) (by simp)
  | object _ => exact harr (by simp) (by simp)
  | handle _ => exact harr (by simp) (by simp)

theorem receives_passes {d2f : BitVec 64 → BitVec 32} {ci : CppInfo} {w : World} {ps : List CppTy} :
    ∀ {ts : List Ty} {args : List CArg} {as : List CppArg}, JavaTypes ci w ps ts → Receives d2f ts args as →
      ∃ vals, Passes d2f ts args vals ∧ castAll ps vals = .ok as := by
  induction ps with
  | nil => intro ts args as h hr; cases h; cases hr; exact ⟨[], .nil, rfl⟩
  | cons p ps ih =>
    intro ts args as h hr
    cases h with
    | cons h1 h2 =>
      cases hr with
      | cons hv hr =>
        obtain ⟨x, e1, e2⟩ := received_delivered h1 hv
        obtain ⟨vals, e3, e4⟩ := ih h2 hr
        exact ⟨x :: vals, .cons e1 e3, by simp only [castAll, e4, Res.bind_ok, e2]⟩

end Jnivm
