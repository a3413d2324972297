import Verif.Lemmas.ObjArgs
import Verif.Spec.Invoke
/-! Conversion of C++ values to `jvalue`s and back. -/
namespace Jnivm
open Spec
namespace Heap

variable {w : CppTypes} {share : Bool}

theorem toJNI_classes {h h' : Heap} {t i : Nat} {s : Option Nat} (hx : h.toJNI t s i = .ok h') :
    h'.classes = h.classes ∧ h'.pinned = h.pinned := by
  simp only [toJNI] at hx
  cases ho : h.objs i with
  | none => simp [ho] at hx
  | some o =>
    simp only [ho] at hx
    by_cases hc : o.cls.isNone = true
    · rw [if_pos hc] at hx
      obtain ⟨e, f, fs, _, _, rfl⟩ := pushLocal_ok hx
      exact ⟨rfl, rfl⟩
    · rw [if_neg hc] at hx
      obtain ⟨e, f, fs, _, _, rfl⟩ := pushLocal_ok hx
      exact ⟨rfl, rfl⟩

/-- What one converted argument does. -/
structure HandOver (w : CppTypes) (share : Bool) (t : Nat) (h h' : Heap) (a : InvokeArg) (j : JArg) : Prop where
  step : Step t h h'
  pushed : Pushed t (handedLocal a j) h h'
  classes : h'.classes = h.classes
  pinned : h'.pinned = h.pinned
  next : h'.next = h.next + if copies share a then 1 else 0
  objs : ∀ i o, h.objs i = some o → h'.objs i = some { o with cls := o.cls.or (givesClass w share h i a) }
  handed : Handed w share h h' a j
  copy : copies share a = true → j = .ref (some h.next)

theorem toJNI_objs {h h' : Heap} {t i : Nat} {s : Option Nat} (hx : h.toJNI t s i = .ok h') :
    ∀ j o, h.objs j = some o → h'.objs j = some { o with cls := o.cls.or (if i = j then s else none) } := by
  obtain ⟨o, ho, _, h1, h2⟩ := toJNI_ok hx
  intro j oj hj
  by_cases hij : i = j
  · subst hij
    rw [ho] at hj
    cases hj
    rw [h2, if_pos rfl]
    obtain ⟨k, c⟩ := o
    cases c with
    | none => simp
    | some c => simp
  · rw [h1 j (fun h => hij h.symm), hj, if_neg hij, Option.or_none]

theorem same_objs (h : Heap) : ∀ i o, h.objs i = some o → h.objs i = some { o with cls := o.cls.or none } := by
  intro i o ho
  rw [ho, Option.or_none]

theorem toJValue_mod (ty : JType) (v : BitVec 64) :
    ty.toJValue v = BitVec.ofNat 64 (v.toNat % 2 ^ bits ty) := by
  cases ty <;> apply BitVec.eq_of_toNat_eq <;>
    simp [JType.toJValue, bits, BitVec.truncate, BitVec.toNat_setWidth, Nat.mod_one] <;> omega

theorem member_toJValue {ty : JType} (h1 : ty ≠ .void) (h2 : ty ≠ .object) (v : BitVec 64) :
    ty.member (ty.toJValue v) = BitVec.ofNat 64 (v.toNat % 2 ^ bits ty) := by
  cases ty <;> first | exact absurd rfl h1 | exact absurd rfl h2 | skip
  all_goals apply BitVec.eq_of_toNat_eq
  all_goals simp [JType.member, JType.toJValue, bits, BitVec.truncate, BitVec.toNat_setWidth]
  all_goals omega

/-- A copy in the heap. -/
theorem passCopy_ok {h h' : Heap} (hp : h.Pre) {t : Nat} {c : CppClass} {cls : Option Nat} {j : JArg}
    (hx : h.passCopy w t c cls = .ok (h', j)) :
    j = .ref (some h.next) ∧ Step t h h' ∧ Pushed t [h.next] h h' ∧ h'.classes = h.classes ∧ h'.pinned = h.pinned ∧
      h'.next = h.next + 1 ∧ (∀ i o, h.objs i = some o → h'.objs i = some o) ∧
      h'.objs h.next = some ⟨.plain, cls.or ((w.name c).bind h.typeClass)⟩ := by
  unfold passCopy at hx
  split at hx
  · next hc =>
    obtain ⟨⟨h1, r⟩, hx1, hx2⟩ := Res.bind_eq_ok.1 hx
    cases hx2
    have hcls : ∀ k, cls = some k → ∃ n, (n, k) ∈ h.classes := by
      rintro k rfl
      simpa using hc
    have s1 := hp.alloc t (o := ⟨.plain, cls⟩) (by simp [Kind.edges]) (by simp) hcls
    have hs : ∀ k, h.staticClass w c = some k → ∃ n, (n, k) ∈ (h.alloc ⟨.plain, cls⟩).1.classes :=
      staticClass_ok hp
    obtain ⟨s2, rfl⟩ := s1.pre.toJNI? hs hx1
    obtain ⟨_, hpu⟩ := pushed_toJNI? hx1
    obtain ⟨h2, hx3, hx4⟩ := Res.bind_eq_ok.1 hx1
    cases hx4
    obtain ⟨o, ho, hn, hj, hi⟩ := toJNI_ok hx3
    have heq : o = ⟨.plain, cls⟩ := by
      have : (h.alloc ⟨.plain, cls⟩).1.objs (h.alloc ⟨.plain, cls⟩).2 = some ⟨.plain, cls⟩ := by simp [alloc]
      rw [this] at ho; cases ho; rfl
    subst heq
    refine ⟨rfl, s1.trans s2, ?_, (toJNI_classes hx3).1, (toJNI_classes hx3).2, hn.1, fun i o hio => ?_, ?_⟩
    · exact ⟨fun e he => hpu.env e he, hpu.globals⟩
    · have hne : i ≠ h.next := Nat.ne_of_lt (hp.bound i o hio)
      rw [hj i hne]
      simp [alloc, hne, hio]
    · show h'.objs (h.alloc ⟨.plain, cls⟩).2 = _
      rw [hi]
      cases cls with
      | none => rfl
      | some k => rfl
  · cases hx

theorem toJNIArg_ok {h h' : Heap} (hp : h.Pre) {t : Nat} {c : CppClass} {o : Option Nat} {j : JArg}
    (hx : ((h.toJNI? t (h.staticClass w c) o).bind fun (h, r) => .ok (h, .ref r)) = .ok (h', j)) :
    j = .ref o ∧ Step t h h' ∧ Pushed t o.toList h h' ∧ h'.classes = h.classes ∧ h'.pinned = h.pinned ∧ h'.next = h.next ∧
      ∀ i x, h.objs i = some x → h'.objs i =
        some { x with cls := x.cls.or (if o = some i then (w.name c).bind h.typeClass else none) } := by
  obtain ⟨⟨h1, r⟩, hx1, hx2⟩ := Res.bind_eq_ok.1 hx
  cases hx2
  obtain ⟨s, rfl⟩ := hp.toJNI? (staticClass_ok hp) hx1
  refine ⟨rfl, s, (pushed_toJNI? hx1).2, ?_⟩
  cases r with
  | none =>
    cases hx1
    refine ⟨rfl, rfl, rfl, ?_⟩
    intro i x hix
    simp [hix]
  | some k =>
    obtain ⟨h2, hx3, hx4⟩ := Res.bind_eq_ok.1 hx1
    cases hx4
    refine ⟨(toJNI_classes hx3).1, (toJNI_classes hx3).2, (toJNI_ok hx3).choose_spec.2.1.1, fun i x hix => ?_⟩
    rw [toJNI_objs hx3 i x hix]
    simp [staticClass]

theorem passArg_ok {h h' : Heap} (hp : h.Pre) {t : Nat} {a : InvokeArg} {j : JArg}
    (hx : h.passArg w share t a = .ok (h', j)) : HandOver w share t h h' a j := by
  have copied : ∀ {c : CppClass} {cls : Option Nat}, h.passCopy w t c cls = .ok (h', j) →
      copies share a = true → (∀ i, givesClass w share h i a = none) →
      handedLocal a (.ref (some h.next)) = [h.next] →
      (∀ k, IsCopy w h h' c cls k → Handed w share h h' a (.ref (some k))) → HandOver w share t h h' a j := by
    intro c cls hx hc hg hl hh
    obtain ⟨rfl, s, hpu, hcl, hpi, hn, ho, hk⟩ := passCopy_ok hp hx
    refine ⟨s, by rw [hl]; exact hpu, hcl, hpi, by rw [hn, hc]; rfl, fun i o hio => ?_,
      hh _ ⟨Nat.le_refl _, hk⟩, fun _ => rfl⟩
    rw [hg i, Option.or_none]; exact ho i o hio
  cases a with
  | prim ty v =>
    cases hx
    refine ⟨Step.refl t hp, Pushed.refl t h, rfl, rfl, rfl, same_objs h, ?_, fun h => nomatch h⟩
    rw [toJValue_mod]; exact .number
  | jobject r =>
    cases hx
    exact ⟨Step.refl t hp, Pushed.refl t h, rfl, rfl, rfl, same_objs h, .jobject, fun h => nomatch h⟩
  | shared c o =>
    obtain ⟨rfl, s, hpu, hcl, hpi, hn, ho⟩ := toJNIArg_ok hp hx
    refine ⟨s, hpu, hcl, hpi, hn, fun i x hix => ?_, .shared, fun h => nomatch h⟩
    rw [ho i x hix]
    cases o with
    | none => simp [givesClass]
    | some k => simp [givesClass]
  | pointer c o =>
    cases o with
    | none =>
      cases hx
      exact ⟨Step.refl t hp, Pushed.refl t h, rfl, rfl, rfl, same_objs h, .null, fun h => nomatch h⟩
    | some k =>
      cases share with
      | true =>
        simp only [passArg, if_true] at hx
        obtain ⟨rfl, s, hpu, hcl, hpi, hn, ho⟩ := toJNIArg_ok hp hx
        refine ⟨s, hpu, hcl, hpi, hn, fun i x hix => ?_, .pointer rfl, fun h => nomatch h⟩
        rw [ho i x hix]
        simp [givesClass]
      | false =>
        simp only [passArg, Bool.false_eq_true, if_false] at hx
        cases hk : h.objs k with
        | none => simp [hk] at hx
        | some o =>
          simp only [hk] at hx
          exact copied hx rfl (fun i => by simp [givesClass]) rfl fun n hn =>
            .pointerCopy rfl hk (fun _ h => h) hn
  | unowned c cls => exact copied hx rfl (fun i => rfl) rfl fun n hn => .unowned hn
  | value c cls => exact copied hx rfl (fun i => rfl) rfl fun n hn => .value hn

/-- Objects that an argument mentions. -/
theorem givesClass_old {h : Heap} {a : InvokeArg} (hok : ArgOk h a) {i : Nat} (hi : h.objs i = none) (h' : Heap) :
    givesClass w share h' i a = none := by
  have key : ∀ {o : Option Nat} {j : Nat}, (∀ i, o = some i → Ordinary h i) → o = some j → j ≠ i := by
    rintro o j hk rfl rfl
    obtain ⟨x, hx, _⟩ := hk j rfl
    rw [hi] at hx; cases hx
  cases a with
  | shared c o =>
    cases o with
    | none => rfl
    | some j => exact if_neg (key hok rfl)
  | pointer c o =>
    cases o with
    | none => rfl
    | some j => exact if_neg (fun h => key hok rfl h.2)
  | _ => rfl

theorem argOk_step {t : Nat} {h h' : Heap} (s : Step t h h') (hc : h'.classes = h.classes) {a : InvokeArg}
    (hok : ArgOk h a) : ArgOk h' a := by
  have key : ∀ i, Ordinary h i → Ordinary h' i := by
    rintro i ⟨o, ho, hk⟩
    obtain ⟨o', ho', hs, _⟩ := s.live i o ho
    refine ⟨o', ho', isWrapper_iff.1 ?_⟩
    rw [hs.wrapper]; exact isWrapper_iff.2 hk
  cases a with
  | prim ty v => exact hok
  | jobject r => exact s.valid hok
  | shared c o => exact fun i hi => key i (hok i hi)
  | pointer c o => exact fun i hi => key i (hok i hi)
  | unowned c cls => exact fun k hk => by rw [hc]; exact hok k hk
  | value c cls => exact fun k hk => by rw [hc]; exact hok k hk

theorem passArg_exists {h : Heap} (hp : h.Pre) {t : Nat} {e : Env} (he : h.envs t = some e) {a : InvokeArg}
    (hok : ArgOk h a) : ∃ h' j, h.passArg w share t a = .ok (h', j) := by
  have copied : ∀ {c : CppClass} {cls : Option Nat}, (∀ k, cls = some k → ∃ n, (n, k) ∈ h.classes) →
      ∃ h' j, h.passCopy w t c cls = .ok (h', j) := by
    intro c cls hk
    have hc : cls.all (fun k => (h.classes.map (·.2)).contains k) = true := by
      cases cls with
      | none => rfl
      | some k => simpa using hk k rfl
    have s1 := hp.alloc t (o := ⟨.plain, cls⟩) (by simp [Kind.edges]) (by simp) hk
    obtain ⟨h', hx⟩ := toJNI?_exists (i := some (h.alloc ⟨.plain, cls⟩).2) s1.pre (e := e) he
      (by rintro j hj; cases hj; exact ⟨⟨.plain, cls⟩, by simp [alloc]⟩)
      (s := h.staticClass w c) (staticClass_ok hp)
    exact ⟨h', .ref (some h.next), by rw [passCopy, if_pos hc, hx, Res.bind_ok]; rfl⟩
  have ref : ∀ {c : CppClass} {o : Option Nat}, (∀ i, o = some i → Ordinary h i) →
      ∃ h' j, ((h.toJNI? t (h.staticClass w c) o).bind fun (h, r) => .ok (h, JArg.ref r)) = .ok (h', j) := by
    intro c o ho
    obtain ⟨h', hx⟩ := toJNI?_exists (i := o) hp he
      (fun i hi => by obtain ⟨x, hx, _⟩ := ho i hi; exact ⟨x, hx⟩) (s := h.staticClass w c) (staticClass_ok hp)
    exact ⟨h', _, by rw [hx, Res.bind_ok]⟩
  cases a with
  | prim ty v => exact ⟨_, _, rfl⟩
  | jobject r => exact ⟨_, _, rfl⟩
  | shared c o => exact ref hok
  | pointer c o =>
    cases o with
    | none => exact ⟨_, _, rfl⟩
    | some k =>
      cases share with
      | true => exact ref hok
      | false =>
        obtain ⟨o, ho, _⟩ := hok k rfl
        simp only [passArg, Bool.false_eq_true, if_false, ho]
        exact copied fun c hc => hp.cls k o c ho hc
  | unowned c cls => exact copied hok
  | value c cls => exact copied hok

/-- What all converted arguments do. -/
structure HandOverAll (w : CppTypes) (share : Bool) (t : Nat) (h h' : Heap) (as : List InvokeArg)
    (js : List JArg) : Prop where
  step : Step t h h'
  pushed : Pushed t (handedLocals as js) h h'
  classes : h'.classes = h.classes
  pinned : h'.pinned = h.pinned
  next : h'.next = h.next + (as.filter (copies share)).length
  objs : ∀ i o, h.objs i = some o →
    h'.objs i = some { o with cls := o.cls.or (as.findSome? (givesClass w share h i)) }
  handed : HandedAll w share h h' as js
  copy : newObjects share as js = List.range' h.next (as.filter (copies share)).length

theorem givesClass_congr {h h' : Heap} (hc : h'.classes = h.classes) (i : Nat) (a : InvokeArg) :
    givesClass w share h' i a = givesClass w share h i a := by
  have : h'.typeClass = h.typeClass := by funext n; simp [typeClass, hc]
  cases a with
  | shared c o => cases o <;> simp [givesClass, this]
  | pointer c o => cases o <;> simp [givesClass, this]
  | _ => rfl

theorem isCopy_later {h h1 h2 : Heap} {c : CppClass} {cls : Option Nat} {k : Nat} (hk : IsCopy w h h1 c cls k)
    (hkeep : h2.objs k = h1.objs k) : IsCopy w h h2 c cls k := ⟨hk.1, hkeep.trans hk.2⟩

theorem handed_later {h h1 h2 : Heap} {a : InvokeArg} {j : JArg} (hh : Handed w share h h1 a j)
    (hkeep : ∀ k, h.next ≤ k → h1.Live k → h2.objs k = h1.objs k) : Handed w share h h2 a j := by
  have key : ∀ {c cls k}, IsCopy w h h1 c cls k → IsCopy w h h2 c cls k := fun hk =>
    isCopy_later hk (hkeep _ hk.1 ⟨_, hk.2⟩)
  cases hh with
  | number => exact .number
  | jobject => exact .jobject
  | shared => exact .shared
  | null => exact .null
  | pointer h => exact .pointer h
  | pointerCopy h1 h2 h3 h4 => exact .pointerCopy h1 h2 h3 (key h4)
  | unowned h => exact .unowned (key h)
  | value h => exact .value (key h)

theorem handed_earlier {h0 h h1 : Heap} (hn : h0.next ≤ h.next) (hc : h.classes = h0.classes)
    (ho : ∀ i o, h0.objs i = some o → ∃ o', h.objs i = some o' ∧ ∀ c, o.cls = some c → o'.cls = some c)
    {a : InvokeArg} {j : JArg} (hok : ArgOk h0 a) (hh : Handed w share h h1 a j) :
    Handed w share h0 h1 a j := by
  have ht : h.typeClass = h0.typeClass := by funext n; simp [typeClass, hc]
  have key : ∀ {c cls k}, IsCopy w h h1 c cls k → IsCopy w h0 h1 c cls k := fun hk =>
    ⟨Nat.le_trans hn hk.1, by rw [← ht]; exact hk.2⟩
  cases hh with
  | number => exact .number
  | jobject => exact .jobject
  | shared => exact .shared
  | null => exact .null
  | pointer h => exact .pointer h
  | pointerCopy hs h2 h3 h4 =>
    obtain ⟨o, hio, _⟩ := hok _ rfl
    obtain ⟨o', hio', hk⟩ := ho _ o hio
    rw [h2] at hio'; cases hio'
    exact .pointerCopy hs hio (fun x hx => h3 x (hk x hx)) (key h4)
  | unowned h => exact .unowned (key h)
  | value h => exact .value (key h)

theorem passAll_ok {as : List InvokeArg} {h h' : Heap} (hp : h.Pre) {t : Nat} {js : List JArg}
    (hok : ∀ a ∈ as, ArgOk h a) (hx : passAll w share t h as = .ok (h', js)) :
    HandOverAll w share t h h' as js := by
  induction as generalizing h js with
  | nil =>
    cases hx
    exact ⟨Step.refl t hp, Pushed.refl t h', rfl, rfl, rfl, same_objs h', .nil, rfl⟩
  | cons a as ih =>
    obtain ⟨⟨h1, j⟩, hx1, hx2⟩ := Res.bind_eq_ok.1 hx
    dsimp only at hx2
    obtain ⟨⟨h2, ys⟩, hx2', hx3⟩ := Res.bind_eq_ok.1 hx2
    cases hx3
    have H1 := passArg_ok hp hx1
    have hok' : ∀ a ∈ as, ArgOk h a := fun b hb => hok b (List.mem_cons_of_mem _ hb)
    have H2 := ih H1.step.pre (fun b hb => argOk_step H1.step H1.classes (hok' b hb)) hx2'
    have hgive : ∀ i, as.findSome? (givesClass w share h1 i) = as.findSome? (givesClass w share h i) :=
      fun i => by congr 1; funext b; exact givesClass_congr H1.classes i b
    refine ⟨H1.step.trans H2.step, ?_, H2.classes.trans H1.classes, H2.pinned.trans H1.pinned, ?_, ?_, .cons ?_ ?_, ?_⟩
    · exact H1.pushed.trans H2.pushed
    · rw [H2.next, H1.next, List.filter_cons]
      cases copies share a <;> simp [Nat.add_assoc, Nat.add_comm]
    · intro i o ho
      rw [H2.objs i _ (H1.objs i o ho), hgive i, List.findSome?_cons]
      cases hg : givesClass w share h i a with
      | none => simp
      | some c => cases o.cls <;> simp
    · refine handed_later H1.handed fun k hk ⟨o, ho⟩ => ?_
      have hnone : h.objs k = none := by
        cases hko : h.objs k with
        | none => rfl
        | some x => exact absurd (hp.bound k x hko) (Nat.not_lt.2 hk)
      have hf : as.findSome? (givesClass w share h1 k) = none := by
        rw [List.findSome?_eq_none_iff]
        exact fun b hb => givesClass_old (hok' b hb) hnone h1
      rw [H2.objs k o ho, ho, hf, Option.or_none]
    · have hh := H2.handed
      clear hgive ih hx2' H2 hx hx2 hok
      induction hh with
      | nil => exact .nil
      | cons h3 _ ih =>
        refine .cons ?_ (ih fun b hb => hok' b (List.mem_cons_of_mem _ hb))
        refine handed_earlier H1.step.next H1.classes (fun i o ho => ?_) (hok' _ List.mem_cons_self) h3
        obtain ⟨o', ho', _, hk⟩ := H1.step.live i o ho
        exact ⟨o', ho', hk⟩
    · have hc := H2.copy
      rw [H1.next] at hc
      cases hcp : copies share a with
      | false =>
        rw [hcp] at hc
        simpa [newObjects, hcp, List.filter_cons] using hc
      | true =>
        rw [hcp] at hc
        cases H1.copy hcp
        simp only [newObjects, List.zipWith_cons_cons, List.flatten_cons, hcp, List.filter_cons, if_true,
          List.length_cons, List.range'_succ] at hc ⊢
        rw [hc]; rfl

theorem passAll_exists {as : List InvokeArg} {h : Heap} (hp : h.Pre) {t : Nat} {e : Env}
    (he : h.envs t = some e) (hok : ∀ a ∈ as, ArgOk h a) :
    ∃ h' js, passAll w share t h as = .ok (h', js) := by
  induction as generalizing h e with
  | nil => exact ⟨h, [], rfl⟩
  | cons a as ih =>
    obtain ⟨h1, j, hx⟩ := passArg_exists (w := w) (share := share) hp he (hok a List.mem_cons_self)
    have H := passArg_ok hp hx
    obtain ⟨h2, js, hy⟩ := ih H.step.pre (H.pushed.env e he)
      (fun b hb => argOk_step H.step H.classes (hok b (List.mem_cons_of_mem _ hb)))
    exact ⟨h2, j :: js, by rw [passAll, hx, Res.bind_ok]; simp only [hy]; rfl⟩

/-! ### Ownership while arguments are converted -/

theorem allHeld_grow {h h' : Heap} (hp : h.Pre) (hp' : h'.Pre) (ha : h.AllHeld)
    (hroot : ∀ i, Root h i → Root h' i)
    (hold : ∀ i o, h.objs i = some o → ∃ o', h'.objs i = some o' ∧ o'.kind = o.kind)
    (hnew : ∀ i o, h'.objs i = some o → h.objs i = none → Root h' i) : h'.AllHeld := by
  intro i o hi
  rw [held_iff hp'.bound]
  cases ho : h.objs i with
  | none => exact .inl ((root_iff hp').1 (hnew i o hi ho))
  | some x =>
    rcases (held_iff hp.bound).1 (ha i x ho) with hr | ⟨j, oj, hj, he⟩
    · exact .inl ((root_iff hp').1 (hroot i ((root_iff hp).2 hr)))
    · obtain ⟨o', ho', hk⟩ := hold j oj hj
      exact .inr ⟨j, o', ho', by rw [hk]; exact he⟩

theorem mem_addFront {l : List Nat} {fs : List (List Nat)} {i : Nat} (hi : ∃ f ∈ fs, i ∈ f) :
    ∃ f ∈ addFront l fs, i ∈ f := by
  obtain ⟨f, hf, hi⟩ := hi
  cases fs with
  | nil => cases hf
  | cons g gs =>
    rcases List.mem_cons.1 hf with rfl | hf
    · exact ⟨_, List.mem_cons_self, List.mem_append_left _ hi⟩
    · exact ⟨f, List.mem_cons_of_mem _ hf, hi⟩

theorem hasLocal_pushed {t u : Nat} {l : List Nat} {h h' : Heap} (s : Step t h h') (hpu : Pushed t l h h')
    {i : Nat} (hl : HasLocal h u i) : HasLocal h' u i := by
  obtain ⟨e, he, hf⟩ := hl
  by_cases hut : u = t
  · subst hut
    exact ⟨_, hpu.env e he, mem_addFront hf⟩
  · exact ⟨e, by rw [s.others u hut]; exact he, hf⟩

theorem pushed_local {t : Nat} {l : List Nat} {h h' : Heap} (hp : h.Pre) (hpu : Pushed t l h h') {e : Env}
    (he : h.envs t = some e) {i : Nat} (hi : i ∈ l) : HasLocal h' t i := by
  refine ⟨_, hpu.env e he, ?_⟩
  have := hp.frames t e he
  cases hf : e.frames with
  | nil => exact absurd hf this
  | cons f fs => exact ⟨f ++ l, List.mem_cons_self, List.mem_append_right _ hi⟩

theorem root_grow {t : Nat} {l : List Nat} {h h' : Heap} (s : Step t h h') (hpu : Pushed t l h h') {i : Nat}
    (hr : Root h i) : Root h' i := by
  rcases hr with hg | hp | ⟨u, hl⟩ | ⟨u, e, he, hpe⟩
  · exact .inl (by rw [hpu.globals]; exact hg)
  · exact .inr (.inl (s.pinned.subset hp))
  · exact .inr (.inr (.inl ⟨u, hasLocal_pushed s hpu hl⟩))
  · refine .inr (.inr (.inr ?_))
    by_cases hut : u = t
    · subst hut
      exact ⟨u, _, hpu.env e he, hpe⟩
    · exact ⟨u, e, by rw [s.others u hut]; exact he, hpe⟩

theorem newObjects_sub {as : List InvokeArg} {js : List JArg} {i : Nat} (hi : i ∈ newObjects share as js) :
    i ∈ handedLocals as js := by
  induction as generalizing js with
  | nil => simp [newObjects] at hi
  | cons a as ih =>
    cases js with
    | nil => simp [newObjects] at hi
    | cons j js =>
      simp only [newObjects, handedLocals, List.zipWith_cons_cons, List.flatten_cons, List.mem_append] at hi ⊢
      refine hi.imp (fun hi => ?_) ih
      cases hc : copies share a with
      | false => simp [hc] at hi
      | true =>
        rw [hc] at hi
        cases j with
        | bits v => simp at hi
        | ref r => cases a <;> simp_all [copies, handedLocal]

theorem HandOverAll.allHeld {t : Nat} {h h' : Heap} {as : List InvokeArg} {js : List JArg} {e : Env}
    (H : HandOverAll w share t h h' as js) (hp : h.Pre) (ha : h.AllHeld) (he : h.envs t = some e) :
    h'.AllHeld := by
  refine allHeld_grow hp H.step.pre ha (fun i => root_grow H.step H.pushed) (fun i o ho => ⟨_, H.objs i o ho, rfl⟩)
    fun i o hi hn => ?_
  have hlt := H.step.pre.bound i o hi
  have hge : h.next ≤ i := Nat.not_lt.1 fun hlt' => by
    have := H.step.fresh i hlt' hn
    rw [this] at hi; cases hi
  have : i ∈ newObjects share as js := by
    rw [H.copy, List.mem_range'_1]
    exact ⟨hge, by rw [← H.next]; exact hlt⟩
  exact .inr (.inr (.inl ⟨t, pushed_local hp H.pushed he (newObjects_sub this)⟩))

theorem toJNI?_allHeld {h h' : Heap} (hp : h.Pre) {t : Nat} {s o r : Option Nat}
    (hs : ∀ c, s = some c → ∃ n, (n, c) ∈ h.classes) (ha : h.AllHeld) (hx : h.toJNI? t s o = .ok (h', r)) :
    h'.AllHeld := by
  obtain ⟨st, rfl⟩ := hp.toJNI? hs hx
  have hpu := (pushed_toJNI? hx).2
  cases r with
  | none => cases hx; exact ha
  | some i =>
    obtain ⟨h1, hx1, hx2⟩ := Res.bind_eq_ok.1 hx
    cases hx2
    refine allHeld_grow hp st.pre ha (fun i => root_grow st hpu)
      (fun j o ho => ⟨_, toJNI_objs hx1 j o ho, rfl⟩) fun j o hj hn => ?_
    obtain ⟨x, hx', _, hj', _⟩ := toJNI_ok hx1
    have : j ≠ i := by rintro rfl; rw [hx'] at hn; cases hn
    rw [hj' j this, hn] at hj; cases hj

theorem ordinary_denotes {h : Heap} {i : Nat} (ho : Ordinary h i) : Denotes h (some i) (some i) := by
  obtain ⟨o, ho, hk⟩ := ho
  exact .direct ho hk

theorem ordinary_step {t : Nat} {h h' : Heap} (s : Step t h h') {i : Nat} (ho : Ordinary h i) :
    Ordinary h' i := by
  obtain ⟨o, ho, hk⟩ := ho
  obtain ⟨o', ho', hs, _⟩ := s.live i o ho
  refine ⟨o', ho', isWrapper_iff.1 ?_⟩
  rw [hs.wrapper]; exact isWrapper_iff.2 hk

/-- `GetObjectClass` of an object. -/
theorem getObjectClass_ok {h h' : Heap} (hp : h.Pre) {t i : Nat} {o : Obj} (ho : h.objs i = some o)
    (hk : ∀ t, o.kind ≠ .weak t ∧ o.kind ≠ .global t) {r : Option Nat}
    (hx : h.getObjectClass t (some i) = .ok (h', r)) :
    h.toJNI? t (h.typeClass "java/lang/Class".toList) o.cls = .ok (h', r) ∧ r = o.cls := by
  simp only [getObjectClass, (denote_iff hp).2 (.direct ho hk), Res.bind_ok, ho] at hx
  exact ⟨hx, (pushed_toJNI? hx).1⟩

/-- All objects stay what they are. -/
def SameKinds (h h' : Heap) : Prop := ∀ i o, h.objs i = some o → ∃ o', h'.objs i = some o' ∧ o'.kind = o.kind

theorem SameKinds.trans {h h1 h2 : Heap} (a : SameKinds h h1) (b : SameKinds h1 h2) : SameKinds h h2 := by
  intro i o ho
  obtain ⟨o1, ho1, hk1⟩ := a i o ho
  obtain ⟨o2, ho2, hk2⟩ := b i o1 ho1
  exact ⟨o2, ho2, hk2.trans hk1⟩

theorem toJNI?_kinds {h h' : Heap} {t : Nat} {s o r : Option Nat} (hx : h.toJNI? t s o = .ok (h', r)) :
    SameKinds h h' ∧ h'.next = h.next ∧ h'.classes = h.classes ∧ h'.pinned = h.pinned := by
  cases o with
  | none => cases hx; exact ⟨fun i o ho => ⟨o, ho, rfl⟩, rfl, rfl, rfl⟩
  | some i =>
    obtain ⟨h1, hx1, hx2⟩ := Res.bind_eq_ok.1 hx
    cases hx2
    exact ⟨fun j o ho => ⟨_, toJNI_objs hx1 j o ho, rfl⟩, (toJNI_ok hx1).choose_spec.2.1.1,
      toJNI_classes hx1⟩

/-- The state in which the hooked function is entered. -/
structure Begun (w : CppTypes) (share : Bool) (t : Nat) (target : Recipient) (args : List InvokeArg)
    (h h1 : Heap) (js : List JArg) : Prop where
  inv : h1.Inv
  holding : Holding (invokeOwned target args) h1
  handed : HandedAll w share h h1 args js
  step : Step t (h.hold (invokeOwned target args)) h1
  locals : ∃ k : Option Nat, Pushed t (target.ref :: handedLocals args js ++ k.toList)
    (h.hold (invokeOwned target args)) h1 ∧ ClassLocal w share h target args k
  copy : newObjects share args js = List.range' h.next (args.filter (copies share)).length
  kinds : SameKinds h h1
  next : h1.next = h.next + (args.filter (copies share)).length
  classes : h1.classes = h.classes
  pinned : h1.pinned = invokeOwned target args ++ h.pinned

theorem owned_live {h : Heap} {target : Recipient} (ht : Ordinary h target.ref) {args : List InvokeArg}
    (hok : ∀ a ∈ args, ArgOk h a) : ∀ i ∈ invokeOwned target args, h.Live i := by
  intro i hi
  rcases List.mem_cons.1 hi with rfl | hi
  · obtain ⟨o, ho, _⟩ := ht; exact ⟨o, ho⟩
  · obtain ⟨a, ha, hai⟩ := List.mem_filterMap.1 hi
    cases a with
    | shared c o =>
      obtain ⟨o, ho, _⟩ := hok _ ha i hai; exact ⟨o, ho⟩
    | _ => cases hai

theorem typeClass_ok {h : Heap} (hp : h.Pre) (n : Str) :
    ∀ c, h.typeClass n = some c → ∃ n, (n, c) ∈ h.classes := fun c hc =>
  hp.typeClass? (ty := some n) c hc

theorem handedAll_later {h h1 h2 : Heap} {as : List InvokeArg} {js : List JArg}
    (hh : HandedAll w share h h1 as js) (hkeep : ∀ k, h.next ≤ k → h1.Live k → h2.objs k = h1.objs k) :
    HandedAll w share h h2 as js := by
  induction hh with
  | nil => exact .nil
  | cons h1 _ ih => exact .cons (handed_later h1 hkeep) ih

theorem handedAll_earlier {h0 h h1 : Heap} (hn : h0.next ≤ h.next) (hc : h.classes = h0.classes)
    (ho : ∀ i o, h0.objs i = some o → ∃ o', h.objs i = some o' ∧ ∀ c, o.cls = some c → o'.cls = some c)
    {as : List InvokeArg} {js : List JArg} (hok : ∀ a ∈ as, ArgOk h0 a) (hh : HandedAll w share h h1 as js) :
    HandedAll w share h0 h1 as js := by
  induction hh with
  | nil => exact .nil
  | cons h1 _ ih =>
    exact .cons (handed_earlier hn hc ho (hok _ List.mem_cons_self) h1)
      (ih fun b hb => hok b (List.mem_cons_of_mem _ hb))

theorem invokeBegin_ok {h h1 : Heap} (hi : h.Inv) {t : Nat} {e : Env} (he : h.envs t = some e)
    {target : Recipient} (ht : Ordinary h target.ref) {args : List InvokeArg} (hok : ∀ a ∈ args, ArgOk h a)
    {js : List JArg} (hx : h.invokeBegin w share t target args = .ok (h1, js)) :
    Begun w share t target args h h1 js := by
  have hlive := owned_live ht hok
  have hp0 := hi.toPre.hold hlive
  have ha0 := allHeld_hold hi.held (invokeOwned target args)
  have hh0 := hi.toPre.holding (invokeOwned target args)
  have hok0 : ∀ a ∈ args, ArgOk (h.hold (invokeOwned target args)) a := hok
  have he0 : (h.hold (invokeOwned target args)).envs t = some e := he
  have ht0 : Ordinary (h.hold (invokeOwned target args)) target.ref := ht
  -- `h` itself is only used for what ownership does not touch
  unfold invokeBegin at hx
  obtain ⟨⟨h2, r⟩, hx1, hx⟩ := Res.bind_eq_ok.1 hx
  dsimp only at hx
  obtain ⟨⟨h3, js'⟩, hx2, hx⟩ := Res.bind_eq_ok.1 hx
  dsimp only at hx
  have hs1 := typeClass_ok hp0 target.type
  obtain ⟨s1, rfl⟩ := hp0.toJNI? hs1 hx1
  have hpu1 := (pushed_toJNI? hx1).2
  have ha1 := toJNI?_allHeld hp0 hs1 ha0 hx1
  obtain ⟨h2', hx1', hx1''⟩ := Res.bind_eq_ok.1 hx1
  cases hx1''
  obtain ⟨hc1, hpi1⟩ := toJNI_classes hx1'
  have hok1 : ∀ a ∈ args, ArgOk h2 a := fun a ha => argOk_step s1 hc1 (hok0 a ha)
  have he1 := hpu1.env e he0
  have H := passAll_ok s1.pre hok1 hx2
  have hn1 := (toJNI_ok hx1').choose_spec.2.1.1
  have ha2 := H.allHeld s1.pre ha1 he1
  have hh : HandedAll w share h h3 args js' := by
    refine handedAll_earlier (h0 := h) (h := h2) (Nat.le_of_eq hn1.symm) hc1 (fun i o ho => ?_) hok H.handed
    obtain ⟨o', ho', _, hk⟩ := s1.live i o ho
    exact ⟨o', ho', hk⟩
  have hk2 : SameKinds h h3 := SameKinds.trans (h1 := h2) (toJNI?_kinds hx1).1
    fun i o ho => ⟨_, H.objs i o ho, rfl⟩
  have hn2 : h3.next = h.next + (args.filter (copies share)).length := by
    rw [H.next, (toJNI?_kinds hx1).2.1]; rfl
  have hcopy : newObjects share args js' = List.range' h.next (args.filter (copies share)).length := by
    rw [H.copy, hn1]; rfl
  cases target with
  | cls k =>
    cases hx
    rw [collect_of_allHeld ha2]
    exact ⟨⟨H.step.pre, ha2⟩, (hh0.mono s1.pinned).mono H.step.pinned, hh, s1.trans H.step,
      ⟨none, by simpa using hpu1.trans H.pushed, rfl⟩, hcopy, hk2, hn2,
      H.classes.trans hc1, H.pinned.trans hpi1⟩
  | obj i =>
    obtain ⟨⟨h4, r⟩, hx3, hx4⟩ := Res.bind_eq_ok.1 hx
    cases hx4
    obtain ⟨o, ho, hk⟩ := ordinary_step H.step (ordinary_step s1 ht0)
    obtain ⟨hx5, rfl⟩ := getObjectClass_ok H.step.pre ho hk hx3
    have hs3 := typeClass_ok H.step.pre "java/lang/Class".toList
    obtain ⟨s3, _⟩ := H.step.pre.toJNI? hs3 hx5
    have ha3 := toJNI?_allHeld H.step.pre hs3 ha2 hx5
    rw [collect_of_allHeld ha3]
    refine ⟨⟨s3.pre, ha3⟩, ((hh0.mono s1.pinned).mono H.step.pinned).mono s3.pinned, ?_,
      (s1.trans H.step).trans s3, ⟨o.cls, ?_, ?_⟩, hcopy,
      hk2.trans (toJNI?_kinds hx5).1, (toJNI?_kinds hx5).2.1.trans hn2,
      (toJNI?_kinds hx5).2.2.1.trans (H.classes.trans hc1),
      (toJNI?_kinds hx5).2.2.2.trans (H.pinned.trans hpi1)⟩
    · refine handedAll_later hh fun k hk ⟨y, hy⟩ => ?_
      cases hcl : o.cls with
      | none => rw [hcl] at hx5; cases hx5; rfl
      | some c =>
        rw [hcl] at hx5
        obtain ⟨h5, hx6, hx7⟩ := Res.bind_eq_ok.1 hx5
        cases hx7
        obtain ⟨_, _, _, hother, _⟩ := toJNI_ok hx6
        refine hother k ?_
        rintro rfl
        obtain ⟨n, hn⟩ := H.step.pre.cls _ o k ho hcl
        rw [H.classes, hc1] at hn
        obtain ⟨_, z, hz, _⟩ := hi.toPre.classes n k hn
        exact absurd (hi.toPre.bound k z hz) (Nat.not_lt.2 hk)
    · have := (hpu1.trans H.pushed).trans (pushed_toJNI? hx5).2
      simpa using this
    · obtain ⟨x, hx, _⟩ := ht
      refine ⟨x, hx, ?_⟩
      have h6 := H.objs i _ (toJNI_objs hx1' i x hx)
      have h7 := Option.some.inj (ho.symm.trans h6)
      subst h7
      have hg : ∀ a, givesClass w share h2 i a = givesClass w share h i a := fun a =>
        givesClass_congr (h := h) hc1 i a
      simp only [if_pos (show (Recipient.obj i).ref = i from rfl), funext hg]
      rfl

end Heap
end Jnivm
