import Verif.Lemmas.Invoke
/-! Whole calls through `Method::invoke`: what arrives, and what owns objects meanwhile. -/
namespace Jnivm
open Spec
namespace Heap

variable {w : CppTypes} {share : Bool}

/-! ### The callee's side -/

theorem receiveArg_step {h h' : Heap} (hp : h.Pre) {t : Nat} {p : Param} {j : JArg} {x : Arg}
    (hx : h.receiveArg w t p j = .ok (h', x)) :
    Step t h h' ∧ Pushed t (receivedLocal p x) h h' ∧ ∀ i, x.owned = some i → h'.Live i := by
  cases p with
  | prim ty =>
    cases j with
    | bits v => cases hx; exact ⟨Step.refl t hp, Pushed.refl t h, fun _ h => nomatch h⟩
    | ref r => cases hx
  | obj p =>
    cases j with
    | bits v => cases hx
    | ref r =>
      obtain ⟨⟨h1, y⟩, hx1, hx2⟩ := Res.bind_eq_ok.1 hx
      cases hx2
      exact convert_step hp hx1

theorem receiveAll_step {ps : List Param} {h h' : Heap} (hp : h.Pre) {t : Nat} {js : List JArg}
    {xs : List Arg} (hx : receiveAll w t h ps js = .ok (h', xs)) :
    Step t h h' ∧ Pushed t (receivedLocals ps xs) h h' ∧ ∀ i ∈ xs.filterMap Arg.owned, h'.Live i := by
  induction ps generalizing h js xs with
  | nil => cases js <;> cases hx <;> exact ⟨Step.refl t hp, Pushed.refl t _, fun _ h => nomatch h⟩
  | cons p ps ih =>
    cases js with
    | nil => cases hx
    | cons j js =>
      obtain ⟨⟨h1, x⟩, hx1, hx2⟩ := Res.bind_eq_ok.1 hx
      dsimp only at hx2
      obtain ⟨⟨h2, ys⟩, hx2', hx3⟩ := Res.bind_eq_ok.1 hx2
      cases hx3
      obtain ⟨s, hpu, hl⟩ := receiveArg_step hp hx1
      obtain ⟨s2, hpu2, hl2⟩ := ih s.pre hx2'
      refine ⟨s.trans s2, hpu.trans hpu2, fun i hi => ?_⟩
      obtain ⟨y, hy, hyi⟩ := List.mem_filterMap.1 hi
      rcases List.mem_cons.1 hy with rfl | hy
      · exact s2.live' (hl i hyi)
      · exact hl2 i (List.mem_filterMap.2 ⟨y, hy, hyi⟩)

theorem receiveArg_kinds {h h' : Heap} (hp : h.Pre) {t : Nat} {p : Param} {j : JArg} {x : Arg}
    (ha : h.AllHeld) (hx : h.receiveArg w t p j = .ok (h', x)) :
    SameKinds h h' ∧ h'.next = h.next ∧ h'.AllHeld ∧ h'.classes = h.classes ∧
      h'.pinned = h.pinned := by
  have refl : SameKinds h h ∧ h.next = h.next ∧ h.AllHeld ∧ h.classes = h.classes ∧ h.pinned = h.pinned :=
    ⟨fun i o ho => ⟨o, ho, rfl⟩, rfl, ha, rfl, rfl⟩
  have ptr : ∀ {c f o h' x}, h.asPointer w t c f o = .ok (h', x) →
      SameKinds h h' ∧ h'.next = h.next ∧ h'.AllHeld ∧ h'.classes = h.classes ∧
      h'.pinned = h.pinned := by
    intro c f o h' x hx
    obtain ⟨⟨h1, y⟩, hx1, hx2⟩ := Res.bind_eq_ok.1 hx
    cases hx2
    exact ⟨(toJNI?_kinds hx1).1, (toJNI?_kinds hx1).2.1, toJNI?_allHeld hp (staticClass_ok hp) ha hx1,
      (toJNI?_kinds hx1).2.2⟩
  cases p with
  | prim ty => cases j <;> cases hx; exact refl
  | obj p =>
    cases j with
    | bits v => cases hx
    | ref r =>
      obtain ⟨⟨h1, y⟩, hx1, hx2⟩ := Res.bind_eq_ok.1 hx
      cases hx2
      cases p with
      | jobject => cases hx1; exact refl
      | shared c => obtain ⟨o, _, h2⟩ := Res.bind_eq_ok.1 hx1; cases h2; exact refl
      | pointer c => obtain ⟨o, _, h2⟩ := Res.bind_eq_ok.1 hx1; exact ptr h2
      | jhandle c => obtain ⟨o, _, h2⟩ := Res.bind_eq_ok.1 hx1; exact ptr h2
      | ref c => obtain ⟨o, _, h2⟩ := Res.bind_eq_ok.1 hx1; cases o <;> cases h2; exact refl
      | value c => obtain ⟨o, _, h2⟩ := Res.bind_eq_ok.1 hx1; cases o <;> cases h2; exact refl

theorem receiveAll_kinds {ps : List Param} {h h' : Heap} (hp : h.Pre) {t : Nat} {js : List JArg}
    {xs : List Arg} (ha : h.AllHeld) (hx : receiveAll w t h ps js = .ok (h', xs)) :
    SameKinds h h' ∧ h'.next = h.next ∧ h'.AllHeld ∧ h'.classes = h.classes ∧
      h'.pinned = h.pinned := by
  induction ps generalizing h js xs with
  | nil => cases js <;> cases hx <;> exact ⟨fun i o ho => ⟨o, ho, rfl⟩, rfl, ha, rfl, rfl⟩
  | cons p ps ih =>
    cases js with
    | nil => cases hx
    | cons j js =>
      obtain ⟨⟨h1, x⟩, hx1, hx2⟩ := Res.bind_eq_ok.1 hx
      dsimp only at hx2
      obtain ⟨⟨h2, ys⟩, hx2', hx3⟩ := Res.bind_eq_ok.1 hx2
      cases hx3
      obtain ⟨k1, n1, a1, c1, p1⟩ := receiveArg_kinds hp ha hx1
      obtain ⟨k2, n2, a2, c2, p2⟩ := ih (receiveArg_step hp hx1).1.pre a1 hx2'
      exact ⟨k1.trans k2, n2.trans n1, a2, c2.trans c1, p2.trans p1⟩

/-- A `jvalue` is ready to be converted for the parameter `p`. -/
inductive Ready (h : Heap) : InvokeArg → JArg → Param → Prop where
  | number {ty v} : ty ≠ .void → ty ≠ .object →
      Ready h (.prim ty v) (.bits (BitVec.ofNat 64 (v.toNat % 2 ^ bits ty))) (.prim ty)
  | jobject {r p} : Valid h r → Ready h (.jobject r) (.ref r) (.obj p)
  | object {a o p} : (∀ ty v, a ≠ .prim ty v) → (∀ r, a ≠ .jobject r) → (∀ i, o = some i → Ordinary h i) →
      Ready h a (.ref o) (.obj p)

inductive ReadyAll (h : Heap) : List InvokeArg → List JArg → List Param → Prop where
  | nil : ReadyAll h [] [] []
  | cons {a j p as js ps} : Ready h a j p → ReadyAll h as js ps → ReadyAll h (a :: as) (j :: js) (p :: ps)

theorem Ready.step {t : Nat} {h h' : Heap} (s : Step t h h') {a : InvokeArg} {j : JArg} {p : Param}
    (hr : Ready h a j p) : Ready h' a j p := by
  cases hr with
  | number h1 h2 => exact .number h1 h2
  | jobject hv => exact .jobject (s.valid hv)
  | object h1 h2 h3 => exact .object h1 h2 fun i hi => ordinary_step s (h3 i hi)

theorem ReadyAll.step {t : Nat} {h h' : Heap} (s : Step t h h') {as : List InvokeArg} {js : List JArg}
    {ps : List Param} (hr : ReadyAll h as js ps) : ReadyAll h' as js ps := by
  induction hr with
  | nil => exact .nil
  | cons h1 _ ih => exact .cons (h1.step s) ih

theorem passed_ordinary {h : Heap} {o : Option Nat} (ho : ∀ i, o = some i → Ordinary h i) {p : ObjParam}
    {x : ObjArg} : Passed w h p o x ↔
      formed p o = some x ∧ ∀ c i, paramClass p = some c → o = some i → w.isa i c = true := by
  have hd : Denotes h o o := by
    cases o with
    | none => exact .null
    | some i => exact ordinary_denotes (ho i rfl)
  have key : ∀ {c y}, DenotesA w h c o y → y = o ∧ ∀ i, o = some i → w.isa i c = true := fun ha => by
    cases denotes_fun ha.1 hd
    exact ⟨rfl, ha.2⟩
  constructor
  · intro hp
    cases hp with
    | jobject => exact ⟨rfl, fun _ _ h => nomatch h⟩
    | shared a => obtain ⟨rfl, hk⟩ := key a; exact ⟨rfl, fun c i hc hi => by cases hc; exact hk i hi⟩
    | pointer a => obtain ⟨rfl, hk⟩ := key a; exact ⟨rfl, fun c i hc hi => by cases hc; exact hk i hi⟩
    | jhandle a => obtain ⟨rfl, hk⟩ := key a; exact ⟨rfl, fun c i hc hi => by cases hc; exact hk i hi⟩
    | ref a => obtain ⟨rfl, hk⟩ := key a; exact ⟨rfl, fun c i hc hi => by cases hc; exact hk i hi⟩
    | value a => obtain ⟨rfl, hk⟩ := key a; exact ⟨rfl, fun c i hc hi => by cases hc; exact hk i hi⟩
  · rintro ⟨hf, hk⟩
    cases p with
    | jobject => cases hf; exact .jobject
    | shared c => cases hf; exact .shared ⟨hd, fun i hi => hk c i rfl hi⟩
    | pointer c => cases hf; exact .pointer ⟨hd, fun i hi => hk c i rfl hi⟩
    | jhandle c => cases hf; exact .jhandle ⟨hd, fun i hi => hk c i rfl hi⟩
    | ref c => cases o <;> cases hf; exact .ref ⟨hd, fun i hi => hk c i rfl hi⟩
    | value c => cases o <;> cases hf; exact .value ⟨hd, fun i hi => hk c i rfl hi⟩

theorem member_mod {ty : JType} (h1 : ty ≠ .void) (h2 : ty ≠ .object) (v : BitVec 64) :
    ty.member (BitVec.ofNat 64 (v.toNat % 2 ^ bits ty)) = BitVec.ofNat 64 (v.toNat % 2 ^ bits ty) := by
  rw [← toJValue_mod, member_toJValue h1 h2, toJValue_mod]

/-- A value that is ready arrives, or the conversion throws. -/
theorem Ready.cases {h : Heap} (hp : h.Pre) {t : Nat} {e : Env} (he : h.envs t = some e) {a : InvokeArg}
    {j : JArg} {p : Param} (hr : Ready h a j p) :
    (∃ h' x, h.receiveArg w t p j = .ok (h', x) ∧ Arrived w h a j p x) ∨
      (∃ ex, h.receiveArg w t p j = .throws ex) ∧ ∀ x, ¬ Arrived w h a j p x := by
  cases hr with
  | number h1 h2 =>
    refine .inl ⟨h, _, rfl, ?_⟩
    rw [member_mod h1 h2]; exact .number h1 h2
  | @jobject r p hv =>
    rcases convert_cases (w := w) hp he hv p with ⟨h', x, hx, hpx, _⟩ | ⟨ex, hx, hrf⟩
    · exact .inl ⟨h', .obj x, by rw [receiveArg, hx, Res.bind_ok], .jobject hpx⟩
    · refine .inr ⟨⟨ex, by rw [receiveArg, hx]; rfl⟩, fun x hx => ?_⟩
      cases hx with
      | jobject hpx => exact hrf.not_passed hpx
      | object _ hno _ _ => exact hno _ rfl
  | @object a o p h1 h2 ho =>
    have hv : Valid h o := by
      cases o with
      | none => exact True.intro
      | some i => obtain ⟨x, hx, _⟩ := ho i rfl; exact ⟨x, hx⟩
    rcases convert_cases (w := w) hp he hv p with ⟨h', x, hx, hpx, _⟩ | ⟨ex, hx, hrf⟩
    · obtain ⟨hf, hk⟩ := (passed_ordinary ho).1 hpx
      exact .inl ⟨h', .obj x, by rw [receiveArg, hx, Res.bind_ok], .object h1 h2 hk hf⟩
    · refine .inr ⟨⟨ex, by rw [receiveArg, hx]; rfl⟩, fun x hx => ?_⟩
      cases hx with
      | jobject _ => exact h2 _ rfl
      | object _ _ hk hf => exact hrf.not_passed ((passed_ordinary ho).2 ⟨hf, hk⟩)

theorem arrived_step {t : Nat} {h h' : Heap} (s : Step t h h') (hp : h.Pre) {a : InvokeArg} {j : JArg}
    {p : Param} {x : Arg} (hr : Ready h a j p) : Arrived w h' a j p x ↔ Arrived w h a j p x := by
  constructor
  · intro ha
    cases ha with
    | number h1 h2 => exact .number h1 h2
    | jobject hpx =>
      cases hr with
      | jobject hv => exact .jobject ((passed_step s hp hv).1 hpx)
      | object _ hno _ => exact absurd rfl (hno _)
    | object h1 h2 h3 h4 => exact .object h1 h2 h3 h4
  · intro ha
    cases ha with
    | number h1 h2 => exact .number h1 h2
    | jobject hpx =>
      cases hr with
      | jobject hv => exact .jobject ((passed_step s hp hv).2 hpx)
      | object _ hno _ => exact absurd rfl (hno _)
    | object h1 h2 h3 h4 => exact .object h1 h2 h3 h4

theorem arrivedAll_step {t : Nat} {h h' : Heap} (s : Step t h h') (hp : h.Pre) {as : List InvokeArg}
    {js : List JArg} {ps : List Param} {xs : List Arg} (hr : ReadyAll h as js ps) :
    ArrivedAll w h' as js ps xs ↔ ArrivedAll w h as js ps xs := by
  induction hr generalizing xs with
  | nil => constructor <;> (intro h; cases h; exact .nil)
  | cons h1 _ ih =>
    constructor
    · intro h; cases h with | cons h2 h3 => exact .cons ((arrived_step s hp h1).1 h2) (ih.1 h3)
    · intro h; cases h with | cons h2 h3 => exact .cons ((arrived_step s hp h1).2 h2) (ih.2 h3)

theorem ReadyAll.cases {as : List InvokeArg} {js : List JArg} {ps : List Param} {h : Heap} (hp : h.Pre)
    {t : Nat} {e : Env} (he : h.envs t = some e) (hr : ReadyAll h as js ps) :
    (∃ h' xs, receiveAll w t h ps js = .ok (h', xs) ∧ ArrivedAll w h as js ps xs) ∨
      (∃ ex, receiveAll w t h ps js = .throws ex) ∧ ∀ xs, ¬ ArrivedAll w h as js ps xs := by
  induction as generalizing js ps h e with
  | nil => cases hr; exact .inl ⟨h, [], rfl, .nil⟩
  | cons a as ih =>
    cases hr with
    | cons h1 hr =>
      rcases h1.cases (w := w) hp he with ⟨h', x, hx, hax⟩ | ⟨⟨ex, hx⟩, hno⟩
      · obtain ⟨s, hpu, _⟩ := receiveArg_step hp hx
        rcases ih s.pre (hpu.env e he) (hr.step s) with ⟨h2, xs, hxs, haxs⟩ | ⟨⟨ex, hxs⟩, hno⟩
        · exact .inl ⟨h2, x :: xs, by rw [receiveAll, hx, Res.bind_ok]; simp only [hxs]; rfl,
            .cons hax ((arrivedAll_step s hp hr).1 haxs)⟩
        · refine .inr ⟨⟨ex, by rw [receiveAll, hx, Res.bind_ok]; simp only [hxs]; rfl⟩, fun ys hys => ?_⟩
          cases hys with
          | cons _ h3 => exact hno _ ((arrivedAll_step s hp hr).2 h3)
      · refine .inr ⟨⟨ex, by rw [receiveAll, hx]; rfl⟩, fun ys hys => ?_⟩
        cases hys with
        | cons h2 _ => exact hno _ h2

theorem _root_.Spec.Arrived.unique {h : Heap} {a : InvokeArg} {j : JArg} {p : Param} {x y : Arg}
    (h1 : Arrived w h a j p x) (h2 : Arrived w h a j p y) : x = y := by
  cases h1 with
  | number _ _ =>
    cases h2 with
    | number _ _ => rfl
  | jobject a =>
    cases h2 with
    | jobject b => rw [a.unique b]
    | object _ hno _ _ => exact absurd rfl (hno _)
  | object _ hno _ hf =>
    cases h2 with
    | jobject _ => exact absurd rfl (hno _)
    | object _ _ _ hf' => rw [hf] at hf'; cases hf'; rfl

theorem _root_.Spec.ArrivedAll.unique {h : Heap} {as : List InvokeArg} {js : List JArg} {ps : List Param}
    {xs ys : List Arg} (h1 : ArrivedAll w h as js ps xs) (h2 : ArrivedAll w h as js ps ys) : xs = ys := by
  induction h1 generalizing ys with
  | nil => cases h2; rfl
  | cons a _ ih => cases h2 with | cons b h2 => rw [a.unique b, ih h2]

theorem ReadyAll.iff {as : List InvokeArg} {js : List JArg} {ps : List Param} {h : Heap} (hp : h.Pre)
    {t : Nat} {e : Env} (he : h.envs t = some e) (hr : ReadyAll h as js ps) {xs : List Arg} :
    (∃ h', receiveAll w t h ps js = .ok (h', xs)) ↔ ArrivedAll w h as js ps xs := by
  rcases hr.cases (w := w) hp he with ⟨h', ys, hx, ha⟩ | ⟨⟨ex, hx⟩, hno⟩
  · constructor
    · rintro ⟨h2, h3⟩
      rw [hx] at h3; cases h3; exact ha
    · intro hb
      rw [hb.unique ha]; exact ⟨h', hx⟩
  · constructor
    · rintro ⟨h2, h3⟩
      rw [hx] at h3; cases h3
    · exact fun hb => absurd hb (hno _)

/-! ### The caller's side succeeds -/

theorem invokeBegin_exists {h : Heap} (hi : h.Inv) {t : Nat} {e : Env} (he : h.envs t = some e)
    {target : Recipient} (ht : Ordinary h target.ref) {args : List InvokeArg} (hok : ∀ a ∈ args, ArgOk h a) :
    ∃ h1 js, h.invokeBegin w share t target args = .ok (h1, js) := by
  have hp0 := hi.toPre.hold (owned_live ht hok)
  have hok0 : ∀ a ∈ args, ArgOk (h.hold (invokeOwned target args)) a := hok
  have ht0 : Ordinary (h.hold (invokeOwned target args)) target.ref := ht
  have hs1 := typeClass_ok hp0 target.type
  obtain ⟨h2, hx1⟩ := toJNI?_exists (i := some target.ref) hp0 (e := e) he
    (fun i hi => by cases hi; obtain ⟨o, ho, _⟩ := ht0; exact ⟨o, ho⟩) hs1
  obtain ⟨s1, _⟩ := hp0.toJNI? hs1 hx1
  have hpu1 := (pushed_toJNI? hx1).2
  obtain ⟨h2', hx1', hx1''⟩ := Res.bind_eq_ok.1 hx1
  cases hx1''
  have hok1 : ∀ a ∈ args, ArgOk h2 a := fun a ha => argOk_step s1 (toJNI_classes hx1').1 (hok0 a ha)
  obtain ⟨h3, js, hx2⟩ := passAll_exists (w := w) (share := share) s1.pre (hpu1.env e he) hok1
  have H := passAll_ok s1.pre hok1 hx2
  unfold invokeBegin
  simp only [hx1, Res.bind_ok, hx2]
  cases target with
  | cls k => exact ⟨_, _, rfl⟩
  | obj i =>
    obtain ⟨o, ho, hk⟩ := ordinary_step H.step (ordinary_step s1 ht0)
    obtain ⟨h4, hx3⟩ := toJNI?_exists (i := o.cls) H.step.pre (H.pushed.env _ (hpu1.env e he))
      (fun c hc => by
        obtain ⟨n, hn⟩ := H.step.pre.cls _ o c ho hc
        obtain ⟨_, x, hx, _⟩ := H.step.pre.classes n c hn
        exact ⟨x, hx⟩) (typeClass_ok H.step.pre "java/lang/Class".toList)
    have hd : h3.denote (some i) = .ok (some i) := (denote_iff H.step.pre).2 (.direct ho hk)
    have ho : h3.objs i = some o := ho
    simp only [getObjectClass, hd, Res.bind_ok, ho, hx3]
    exact ⟨_, _, rfl⟩

/-! ### Between the two sides -/

/-- Calls of other threads keep the local references of this one, and what they denote. -/
theorem ordinary_others {t : Nat} {ops : List (Nat × HeapOp)} {h h' : Heap} (hi : h.Inv)
    (ht : ∀ x ∈ ops, x.1 ≠ t) (hx : runHeap h ops = .ok h') :
    h'.envs t = h.envs t ∧ ∀ i, HasLocal h t i → Ordinary h i → Ordinary h' i := by
  induction ops generalizing h with
  | nil => cases hx; exact ⟨rfl, fun _ _ h => h⟩
  | cons x ops ih =>
    obtain ⟨u, op⟩ := x
    obtain ⟨⟨h1, out⟩, hx1, hx2⟩ := Res.bind_eq_ok.1 hx
    have s := runStep hi.toPre hx1
    have hu : u ≠ t := ht (u, op) List.mem_cons_self
    have he : h1.envs t = h.envs t := s.others t fun h => hu h.symm
    have hi1 := hi.run hx1
    obtain ⟨h2, h3⟩ := ih hi1 (fun y hy => ht y (List.mem_cons_of_mem _ hy)) hx2
    refine ⟨h2.trans he, fun i hl ho => ?_⟩
    have hl1 : HasLocal h1 t i := by
      obtain ⟨e, h4, h5⟩ := hl
      exact ⟨e, by rw [he]; exact h4, h5⟩
    refine h3 i hl1 ?_
    obtain ⟨o, ho, hk⟩ := ho
    obtain ⟨o1, ho1⟩ := hasLocal_live hi1 hl1
    obtain ⟨o2, ho2, hs, _⟩ := s.old i o1 (hi.toPre.bound i o ho) ho1
    rw [ho] at ho2; cases ho2
    refine ⟨o1, ho1, isWrapper_iff.1 ?_⟩
    rw [hs.wrapper]; exact isWrapper_iff.2 hk

/-- What was handed over is ready, if its local references are still there. -/
theorem readyAll_of_handed {h h1 h2 : Heap} (old : ∀ {i}, Ordinary h i → Ordinary h1 i) {as : List InvokeArg} {js : List JArg}
    {ps : List Param} (hh : HandedAll w share h h1 as js) (hm : MatchesAll as ps)
    (hok : ∀ a ∈ as, ArgOk h a) (hj : ∀ r, .jobject r ∈ as → Valid h2 r)
    (hkeep : ∀ i ∈ handedLocals as js, Ordinary h1 i → Ordinary h2 i) : ReadyAll h2 as js ps := by
  induction hh generalizing ps with
  | nil => cases hm; exact .nil
  | @cons a j as js h1' _ ih =>
    cases hm with
    | cons hma hm =>
      have key : ∀ {i : Nat}, handedLocal a (.ref (some i)) = [i] → j = .ref (some i) → Ordinary h1 i →
          Ordinary h2 i := by
        rintro i hl rfl ho
        refine hkeep i ?_ ho
        simp [handedLocals, hl]
      have new : ∀ {c cls k}, IsCopy w h h1 c cls k → Ordinary h1 k := fun hk =>
        ⟨_, hk.2, fun t => ⟨by simp, by simp⟩⟩
      refine .cons ?_ (ih hm (fun b hb => hok b (List.mem_cons_of_mem _ hb))
        (fun r hr => hj r (List.mem_cons_of_mem _ hr)) fun i hi => hkeep i ?_)
      · have hoka := hok a List.mem_cons_self
        cases hma with
        | number g1 g2 => cases h1'; exact .number g1 g2
        | object hnp =>
          cases h1' with
          | number => exact absurd rfl (hnp _ _)
          | jobject => exact .jobject (hj _ List.mem_cons_self)
          | @shared c o =>
            refine .object (by simp) (by simp) fun i hi => ?_
            subst hi
            exact key rfl rfl (old (hoka i rfl))
          | null => exact .object (by simp) (by simp) fun i hi => nomatch hi
          | pointer _ =>
            refine .object (by simp) (by simp) fun i hi => ?_
            cases hi
            exact key rfl rfl (old (hoka _ rfl))
          | pointerCopy _ _ _ hc =>
            refine .object (by simp) (by simp) fun i hi => ?_
            cases hi
            exact key rfl rfl (new hc)
          | unowned hc =>
            refine .object (by simp) (by simp) fun i hi => ?_
            cases hi
            exact key rfl rfl (new hc)
          | value hc =>
            refine .object (by simp) (by simp) fun i hi => ?_
            cases hi
            exact key rfl rfl (new hc)
      · simp only [handedLocals, List.zipWith_cons_cons, List.flatten_cons, List.mem_append]
        exact .inr hi

/-! ### The whole call -/

theorem Holding.drop {as bs : List Nat} {h : Heap} (x : Holding (as ++ bs) h) : Holding as h := by
  obtain ⟨rest, h1, h2⟩ := x.pinned
  exact ⟨bs ++ rest, by rw [h1, List.append_assoc], fun n c hc => List.mem_append_right _ (h2 n c hc)⟩

theorem Holding.letGo {as bs : List Nat} {h : Heap} (x : Holding (as ++ bs) h) : Holding bs (h.letGo as) := by
  obtain ⟨rest, h1, h2⟩ := x.pinned
  refine ⟨rest, ?_, h2⟩
  show as.foldl _ h.pinned = _
  rw [h1, List.append_assoc, foldl_erase]

theorem Holding.hold {bs : List Nat} {h : Heap} (x : Holding bs h) (as : List Nat) :
    Holding (as ++ bs) (h.hold as) := by
  obtain ⟨rest, h1, h2⟩ := x.pinned
  refine ⟨rest, ?_, h2⟩
  show as ++ h.pinned = _
  rw [h1, List.append_assoc]

/-- The function is entered. -/
structure Entered (w : CppTypes) (t : Nat) (target : Recipient) (f : HookedFn) (js : List JArg) (os : List Nat)
    (h h2 : Heap) (temps : List Nat) (xs : List Arg) : Prop where
  inv : h2.Inv
  holding : Holding (temps ++ os) h2
  received : ∃ h1, receiveAll w t h f.params js = .ok (h1, xs) ∧ Step t h h1 ∧
    Pushed t (receivedLocals f.params xs) h h1 ∧ h2 = (h1.hold temps).collect
  temps : ∃ self, temps = self ++ xs.filterMap Arg.owned ∧ ∀ i ∈ self, i = target.ref

theorem invokeEnter_ok {h h2 : Heap} (hp : h.Pre) {t : Nat} {target : Recipient} (ht : Ordinary h target.ref)
    {f : HookedFn} {js : List JArg} {os : List Nat} (hh : Holding os h) {temps : List Nat} {xs : List Arg}
    (hx : h.invokeEnter w t target f js = .ok (h2, temps, xs)) :
    Entered w t target f js os h h2 temps xs := by
  obtain ⟨self, hs, hx⟩ := Res.bind_eq_ok.1 hx
  obtain ⟨⟨h1, ys⟩, hc, hx⟩ := Res.bind_eq_ok.1 hx
  cases hx
  obtain ⟨s, hpu, hl⟩ := receiveAll_step hp hc
  have hlive : ∀ i ∈ self ++ xs.filterMap Arg.owned, h1.Live i := by
    intro i hi
    rcases List.mem_append.1 hi with hi | hi
    · exact s.live' (receiver_live hp hs i hi)
    · exact hl i hi
  refine ⟨(s.pre.hold hlive).collect, ((hh.mono s.pinned).hold _).collect, ⟨h1, hc, s, hpu, rfl⟩, self, rfl, ?_⟩
  cases hft : f.this with
  | none => rw [hft] at hs; cases hs; exact fun _ h => nomatch h
  | some c =>
    rw [hft] at hs
    obtain ⟨o, h3, h4⟩ := Res.bind_eq_ok.1 hs
    cases denotes_fun (unpack_denotes hp h3).1 (ordinary_denotes ht)
    cases h4
    exact fun i hi => List.mem_singleton.1 hi

theorem hookLeave_holding {h h' : Heap} (hi : h.Inv) {t : Nat} {temps os : List Nat}
    (hh : Holding (temps ++ os) h) {ret : ObjRet} {r : Option Nat}
    (hx : h.hookLeave w t temps ret = .ok (h', r)) : Holding os h' := by
  obtain ⟨h1, h2, rfl, _, _, _, _, s, rfl, _, _⟩ := hookLeave_ok hi hh.drop hx
  exact (((hh.letGo.hold _).collect.mono s.pinned).letGo).collect

theorem toJNI_env {h h' : Heap} {t i : Nat} {s : Option Nat} (hx : h.toJNI t s i = .ok h') :
    ∃ e, h.envs t = some e := by
  simp only [toJNI] at hx
  cases ho : h.objs i with
  | none => simp [ho] at hx
  | some o =>
    simp only [ho] at hx
    split at hx
    · obtain ⟨e, _, _, he, _⟩ := pushLocal_ok hx; exact ⟨e, he⟩
    · obtain ⟨e, _, _, he, _⟩ := pushLocal_ok hx; exact ⟨e, he⟩

/-- All stages of a call that returns. -/
theorem invoke_ok {h h' : Heap} (hi : h.Inv) {t : Nat} {target : Recipient} (ht : Ordinary h target.ref)
    {args : List InvokeArg} (hok : ∀ a ∈ args, ArgOk h a) {f : HookedFn} {r : Option Nat} {xs : List Arg}
    (hx : h.invoke w share t target args f = .ok (h', r, xs)) :
    ∃ e h1 js h2 temps h3 h4, h.envs t = some e ∧ h.invokeBegin w share t target args = .ok (h1, js) ∧
      Begun w share t target args h h1 js ∧ h1.invokeEnter w t target f js = .ok (h2, temps, xs) ∧
      Entered w t target f js (invokeOwned target args) h1 h2 temps xs ∧ runHeap h2 f.body = .ok h3 ∧
      h3.Inv ∧ Holding (temps ++ invokeOwned target args) h3 ∧
      h3.hookLeave w t temps f.returns = .ok (h4, r) ∧ h4.Inv ∧ Holding (invokeOwned target args) h4 ∧
      h' = (h4.letGo (invokeOwned target args)).collect ∧ h'.Inv := by
  obtain ⟨⟨h1, js⟩, hx1, hx⟩ := Res.bind_eq_ok.1 hx
  dsimp only at hx
  obtain ⟨⟨h2, temps, ys⟩, hx2, hx⟩ := Res.bind_eq_ok.1 hx
  dsimp only at hx
  obtain ⟨h3, hx3, hx⟩ := Res.bind_eq_ok.1 hx
  obtain ⟨⟨h4, r'⟩, hx4, hx⟩ := Res.bind_eq_ok.1 hx
  cases hx
  have henv : ∃ e, h.envs t = some e := by
    have hb := hx1
    unfold invokeBegin at hb
    obtain ⟨⟨g, _⟩, hb1, _⟩ := Res.bind_eq_ok.1 hb
    obtain ⟨g', hb2, _⟩ := Res.bind_eq_ok.1 hb1
    exact (toJNI_env hb2 :)
  obtain ⟨e, he⟩ := henv
  have B := invokeBegin_ok hi he ht hok hx1
  have ht1 : Ordinary h1 target.ref := ordinary_step (h := h.hold (invokeOwned target args)) B.step ht
  have E := invokeEnter_ok B.inv.toPre ht1 B.holding hx2
  have hi3 := E.inv.runHeap hx3
  have hh3 := E.holding.mono (pins_runHeap E.inv hx3)
  have hh4 := hookLeave_holding hi3 hh3 hx4
  obtain ⟨_, _, _, _, _, _, _, _, _, _, hi4⟩ := hookLeave_ok hi3 hh3.drop hx4
  exact ⟨e, h1, js, h2, temps, h3, h4, he, hx1, B, hx2, E, hx3, hi3, hh3, hx4, hi4, hh4, rfl,
    (hi4.toPre.letGo hh4).collect⟩

/-- A call of a function that does nothing with references and returns nothing: nothing is released. -/
theorem invoke_idle {h h' : Heap} (hi : h.Inv) {t : Nat} {target : Recipient} (ht : Ordinary h target.ref)
    {args : List InvokeArg} (hok : ∀ a ∈ args, ArgOk h a) {f : HookedFn} (hb : f.body = [])
    (hret : f.returns = .void) {r : Option Nat} {xs : List Arg}
    (hx : h.invoke w share t target args f = .ok (h', r, xs)) :
    ∃ e h1 js k, h.envs t = some e ∧ HandedAll w share h h1 args js ∧ ClassLocal w share h target args k ∧
      Step t h h' ∧ SameKinds h h' ∧ h'.AllHeld ∧ h'.classes = h.classes ∧
      h'.pinned = h.pinned ∧ r = none ∧
      Pushed t (target.ref :: handedLocals args js ++ k.toList ++ receivedLocals f.params xs) h h' := by
  obtain ⟨e, h1, js, h2, temps, h3, h4, he, _, B, _, E, hrun, hi3, hh3, hlv, hi4, hh4, rfl, _⟩ :=
    invoke_ok hi ht hok hx
  rw [hb] at hrun
  cases hrun
  obtain ⟨k, hpu, hk⟩ := B.locals
  obtain ⟨g, hg, s, hpu2, rfl⟩ := E.received
  obtain ⟨kg, ng, ag, cg, pg⟩ := receiveAll_kinds B.inv.toPre B.inv.held hg
  have e1 : (g.hold temps).collect = g.hold temps := collect_of_allHeld (allHeld_hold ag temps)
  rw [e1, hret] at hlv
  have e2 : g.hold [] = g := rfl
  have e3 : g.letGo [] = g := rfl
  simp only [hookLeave, ObjRet.owned, List.all_nil, if_true, letGo_hold, e2, collect_of_allHeld ag,
    convertResult, Res.bind_ok, e3] at hlv
  cases hlv
  have S : Step t (h.hold (invokeOwned target args)) h4 := B.step.trans s
  have P := hpu.trans hpu2
  have hp' := hi4.toPre.letGo hh4
  have hpin : Pins h (h4.letGo (invokeOwned target args)) := by
    obtain ⟨l, h5, h6⟩ := S.pinned
    refine ⟨l, ?_, h6⟩
    show (invokeOwned target args).foldl _ h4.pinned = _
    rw [h5]
    show (invokeOwned target args).foldl _ ((invokeOwned target args ++ h.pinned) ++ l) = _
    rw [List.append_assoc, foldl_erase]
  have hS : Step t h (h4.letGo (invokeOwned target args)) :=
    ⟨hp', S.next, S.live, S.fresh, S.others, S.classes, hpin⟩
  have hP : Pushed t (target.ref :: handedLocals args js ++ k.toList ++ receivedLocals f.params xs) h
      (h4.letGo (invokeOwned target args)) := ⟨P.env, P.globals⟩
  have hK : SameKinds h (h4.letGo (invokeOwned target args)) := B.kinds.trans kg
  have hA : (h4.letGo (invokeOwned target args)).AllHeld := by
    refine allHeld_grow hi.toPre hp' hi.held (fun i => root_grow hS hP) hK fun i o hio hn => ?_
    have hlt : i < h4.next := hp'.bound i o hio
    have hge : h.next ≤ i := Nat.not_lt.1 fun hlt' => by
      have := hS.fresh i hlt' hn
      rw [this] at hio; cases hio
    have : i ∈ newObjects share args js := by
      rw [B.copy, List.mem_range'_1]
      exact ⟨hge, by rw [← B.next, ← ng]; exact hlt⟩
    refine .inr (.inr (.inl ⟨t, pushed_local hi.toPre hP he ?_⟩))
    have := newObjects_sub this
    simp [this]
  rw [collect_of_allHeld hA]
  refine ⟨e, h1, js, k, he, B.handed, hk, hS, hK, hA, cg.trans B.classes, ?_, rfl, hP⟩
  show (invokeOwned target args).foldl _ h4.pinned = _
  rw [pg, B.pinned, foldl_erase]

end Heap

theorem _root_.Spec.CppReachable.inv {w : CppTypes} {h : Heap} (hr : CppReachable w h) : h.Inv := by
  induction hr with
  | initial => exact Heap.initial_inv
  | op _ hx ih => exact ih.run hx
  | hook _ hx ih => exact ih.hookCall hx
  | invoke _ ht hok hx ih =>
    obtain ⟨_, _, _, _, _, _, _, _, _, _, _, _, _, _, _, _, _, _, _, hi'⟩ := Heap.invoke_ok ih ht hok hx
    exact hi'

theorem _root_.Spec.CppReachable.of_hook {w : CppTypes} {h : Heap} (hr : HookReachable w h) :
    CppReachable w h := by
  induction hr with
  | initial => exact .initial
  | op _ hx ih => exact .op ih hx
  | hook _ hx ih => exact .hook ih hx

end Jnivm
