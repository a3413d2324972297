import Verif.Lemmas.ObjArgs
/-!
Objects as arguments and results of hooked C++ functions.  `HookReachable` are the states that any calls
of the interface and of hooked functions lead to, so nothing below is about single calls only.
-/
namespace Jnivm
open Spec
open Heap hiding Live

variable {w : CppTypes}

/-! ### Arguments -/

/-- A hooked function receives exactly the objects that the references denote when it is called, in the
form its parameters ask for. -/
theorem args_received {h : Heap} (hr : HookReachable w h) {t : Nat} {e : Env} (he : h.envs t = some e)
    {as : List (ObjParam × Option Nat)} (hv : ∀ a ∈ as, Valid h a.2) {xs : List ObjArg} :
    (∃ h', Heap.convertAll w t h as = .ok (h', xs)) ↔ PassedAll w h as xs := by
  rcases Heap.convertAll_cases (w := w) hr.inv.toPre he hv with
    ⟨h', ys, hx, hp, _⟩ | ⟨pre, p, r, post, ex, has, hx, hrf, _⟩
  · constructor
    · rintro ⟨h1, h2⟩
      rw [hx] at h2; cases h2
      exact hp
    · intro hq
      rw [hq.unique hp]; exact ⟨h', hx⟩
  · constructor
    · rintro ⟨h1, h2⟩
      rw [hx] at h2; cases h2
    · intro hq
      exfalso
      subst has
      clear hx hv
      induction pre generalizing xs with
      | nil => cases hq with | cons h1 _ => exact hrf.not_passed h1
      | cons a pre ih =>
        rename_i hpre
        cases hq with
        | cons _ hq => exact ih (fun a ha => hpre a (List.mem_cons_of_mem _ ha)) hq

/-- The call throws exactly if some reference is refused, with the exception of the first one in the
order in which the compiler converts them; there is no other outcome. -/
theorem args_refused {h : Heap} (hr : HookReachable w h) {t : Nat} {e : Env} (he : h.envs t = some e)
    {as : List (ObjParam × Option Nat)} (hv : ∀ a ∈ as, Valid h a.2) :
    (∀ ex, Heap.convertAll w t h as = .throws ex ↔
      ∃ pre p r post, as = pre ++ (p, r) :: post ∧ Refused w h p r ex ∧
        ∀ a ∈ pre, ∃ x, Passed w h a.1 a.2 x) ∧
    ((∃ h' xs, Heap.convertAll w t h as = .ok (h', xs)) ∨
      ∃ ex, Heap.convertAll w t h as = .throws ex) := by
  -- the first refused argument is unique
  have uniq : ∀ {pre pre' p p' r r' post post' ex ex'},
      (pre ++ (p, r) :: post : List (ObjParam × Option Nat)) = pre' ++ (p', r') :: post' →
      Refused w h p r ex → Refused w h p' r' ex' → (∀ a ∈ pre, ∃ x, Passed w h a.1 a.2 x) →
      (∀ a ∈ pre', ∃ x, Passed w h a.1 a.2 x) → p = p' ∧ r = r' := by
    intro pre
    induction pre with
    | nil =>
      intro pre' p p' r r' post post' ex ex' heq h1 h2 _ h4
      cases pre' with
      | nil => cases heq; exact ⟨rfl, rfl⟩
      | cons a pre' =>
        cases heq
        obtain ⟨x, hx⟩ := h4 (p, r) List.mem_cons_self
        exact (h1.not_passed hx).elim
    | cons a pre ih =>
      intro pre' p p' r r' post post' ex ex' heq h1 h2 h3 h4
      cases pre' with
      | nil =>
        cases heq
        obtain ⟨x, hx⟩ := h3 (p', r') List.mem_cons_self
        exact (h2.not_passed hx).elim
      | cons b pre' =>
        injection heq with hab heq
        exact ih heq h1 h2 (fun a ha => h3 a (List.mem_cons_of_mem _ ha))
          (fun a ha => h4 a (List.mem_cons_of_mem _ ha))
  -- and so is the reason
  have reason : ∀ {p r ex ex'}, Refused w h p r ex → Refused w h p r ex' → ex = ex' := by
    intro p r ex ex' h1 h2
    cases h1 with
    | type _ hd _ =>
      cases h2 with
      | type _ _ _ => rfl
      | null _ hd' => cases denotes_fun hd hd'
    | null _ hd =>
      cases h2 with
      | type _ hd' _ => cases denotes_fun hd hd'
      | null _ _ => rfl
  rcases Heap.convertAll_cases (w := w) hr.inv.toPre he hv with
    ⟨h', ys, hx, hp, _⟩ | ⟨pre, p, r, post, ex, has, hx, hrf, hpre⟩
  · refine ⟨fun ex => ⟨fun h2 => ?_, ?_⟩, .inl ⟨h', ys, hx⟩⟩
    · rw [hx] at h2; cases h2
    · rintro ⟨pre, p, r, post, rfl, hrf, hpre⟩
      exfalso
      rename_i hrest
      clear hx hv hpre hrest
      induction pre generalizing ys with
      | nil => cases hp with | cons h1 _ => exact hrf.not_passed h1
      | cons a pre ih => cases hp with | cons _ hq => exact ih _ hq
  · refine ⟨fun ex' => ⟨fun h2 => ?_, ?_⟩, .inr ⟨ex, hx⟩⟩
    · rw [hx] at h2; cases h2
      exact ⟨pre, p, r, post, has, hrf, hpre⟩
    · rintro ⟨pre', p', r', post', has', hrf', hpre'⟩
      obtain ⟨rfl, rfl⟩ := uniq (has.symm.trans has') hrf hrf' hpre hpre'
      rw [hx, reason hrf hrf']

/-- C++ does not say in which order arguments are converted; whether the call succeeds does not depend on
it (and what each parameter gets does not either, by `args_received`). -/
theorem args_any_order {h : Heap} (hr : HookReachable w h) {t : Nat} {e : Env} (he : h.envs t = some e)
    {as bs : List (ObjParam × Option Nat)} (hv : ∀ a ∈ as, Valid h a.2) (hab : as.Perm bs) :
    (∃ r, Heap.convertAll w t h as = .ok r) ↔ ∃ r, Heap.convertAll w t h bs = .ok r := by
  have key : ∀ cs : List (ObjParam × Option Nat), (∀ a ∈ cs, Valid h a.2) →
      ((∃ r, Heap.convertAll w t h cs = .ok r) ↔ ∀ a ∈ cs, ∃ x, Passed w h a.1 a.2 x) := by
    intro cs hv
    constructor
    · rintro ⟨⟨h', xs⟩, hx⟩
      have := (args_received hr he hv).1 ⟨h', hx⟩
      clear hx hv
      induction this with
      | nil => exact fun _ h => nomatch h
      | cons h1 _ ih =>
        intro a ha
        rcases List.mem_cons.1 ha with rfl | ha
        · exact ⟨_, h1⟩
        · exact ih a ha
    · intro hp
      have : ∃ xs, PassedAll w h cs xs := by
        clear hv
        induction cs with
        | nil => exact ⟨[], .nil⟩
        | cons a cs ih =>
          obtain ⟨x, hx⟩ := hp a List.mem_cons_self
          obtain ⟨xs, hxs⟩ := ih fun b hb => hp b (List.mem_cons_of_mem _ hb)
          exact ⟨x :: xs, .cons hx hxs⟩
      obtain ⟨xs, hxs⟩ := this
      obtain ⟨h', hx⟩ := (args_received hr he hv).2 hxs
      exact ⟨_, hx⟩
  rw [key as hv, key bs fun a ha => hv a (hab.mem_iff.2 ha)]
  exact ⟨fun hh a ha => hh a (hab.mem_iff.2 ha), fun hh a ha => hh a (hab.mem_iff.1 ha)⟩

/-- The object behind a value that a function received. -/
def ObjArg.object : ObjArg → Option Nat
  | .shared o => o
  | .pointer o => o
  | .ref i => some i
  | .copy i => some i
  | .handle r => r

/-- All ways to declare a parameter of class `c` give the same object: by pointer, by reference or
by value the function sees what a `std::shared_ptr` would see. -/
theorem forms_same_object {h : Heap} {ci : CppInfo} {string : Nat} {b b' : PassBy} {c : CppClass}
    {p p' : ObjParam} (hp : CppTy.objParam ci string (.data b c) = some p)
    (hp' : CppTy.objParam ci string (.data b' c) = some p') {r : Option Nat} {x x' : ObjArg}
    (h1 : Passed w h p r x) (h2 : Passed w h p' r x') : x.object = x'.object := by
  have key : ∀ {b : PassBy} {p : ObjParam} {x : ObjArg},
      CppTy.objParam ci string (.data b c) = some p → Passed w h p r x → DenotesA w h c r x.object := by
    intro b p x hp hx
    cases b with
    | value => cases c <;> simp [CppTy.objParam] at hp; subst hp; cases hx with | value a => exact a
    | constShared => cases c <;> simp [CppTy.objParam] at hp
    | shared =>
      simp only [CppTy.objParam, Option.ite_none_right_eq_some, Option.some.injEq] at hp
      obtain ⟨_, rfl⟩ := hp; cases hx with | shared a => exact a
    | pointer =>
      simp only [CppTy.objParam, Option.ite_none_right_eq_some, Option.some.injEq] at hp
      obtain ⟨_, rfl⟩ := hp; cases hx with | pointer a => exact a
    | ref =>
      simp only [CppTy.objParam, Option.ite_none_right_eq_some, Option.some.injEq] at hp
      obtain ⟨_, rfl⟩ := hp; cases hx with | ref a => exact a
    | constRef =>
      simp only [CppTy.objParam, Option.ite_none_right_eq_some, Option.some.injEq] at hp
      obtain ⟨_, rfl⟩ := hp; cases hx with | ref a => exact a
  exact denotes_fun (key hp h1).1 (key hp' h2).1

/-- Converting the arguments changes nothing but the innermost frame of the calling thread, which gets a
local reference for each pointer (or `jclass`, `jthrowable`) that is not null. -/
theorem args_locals {h h' : Heap} (hr : HookReachable w h) {t : Nat} {e : Env} (he : h.envs t = some e)
    {f : List Nat} {fs : List (List Nat)} (hf : e.frames = f :: fs)
    {as : List (ObjParam × Option Nat)} {xs : List ObjArg}
    (hx : Heap.convertAll w t h as = .ok (h', xs)) :
    h'.envs t = some { e with frames := (f ++ allLocals as xs) :: fs } ∧
      (∀ u, u ≠ t → h'.envs u = h.envs u) ∧ h'.globals = h.globals ∧ ∀ i, Live h i → Live h' i := by
  obtain ⟨s, hpu, _⟩ := Heap.convertAll_step hr.inv.toPre hx
  refine ⟨?_, s.others, hpu.globals, fun i hi => s.live' hi⟩
  rw [hpu.env e he, hf]; rfl

/-! ### While the function runs -/

/-- The receiver of a member function and every `std::shared_ptr` argument stay alive while the function
runs, whatever it and other threads do with references. -/
theorem shared_args_alive {h0 h : Heap} (hr : HookReachable w h0) {t : Nat}
    {this : Option (CppClass × Option Nat)} {args : List (ObjParam × Option Nat)} {temps : List Nat}
    {xs : List ObjArg} {ops : List (Nat × HeapOp)} (hx : Running w h0 t this args temps xs ops h) :
    (∀ i, .shared (some i) ∈ xs → Live h i) ∧
      ∀ c r i, this = some (c, r) → Denotes h0 r (some i) → Live h i := by
  obtain ⟨h1, hen, hrun⟩ := hx
  obtain ⟨self, h2, hs, _, rfl, _, _, _, hi1, hh⟩ := Heap.hookEnter_ok hr.inv.toPre hen
  have hi := hi1.runHeap hrun
  have hh' := hh.mono (Heap.pins_runHeap hi1 hrun)
  constructor
  · intro i hm
    exact hh'.live hi.toPre (List.mem_append_right _ (List.mem_filterMap.2 ⟨_, hm, rfl⟩))
  · rintro c r i rfl hd
    refine hh'.live hi.toPre (List.mem_append_left _ ?_)
    obtain ⟨o, h3, h4⟩ := Res.bind_eq_ok.1 hs
    have := denotes_fun (Heap.unpack_denotes hr.inv.toPre h3).1 hd
    subst this
    cases h4
    exact List.mem_singleton.2 rfl

/-- A pointer argument (also `jclass` and `jthrowable`) is kept by its local reference: it is alive
unless this thread deletes a local reference to the object, pops the frame or detaches. -/
theorem pointer_args_alive {h0 h h1 : Heap} (hr : HookReachable w h0) {t : Nat} {e : Env}
    (he : h0.envs t = some e) {this : Option (CppClass × Option Nat)}
    {args : List (ObjParam × Option Nat)} {temps : List Nat} {xs : List ObjArg}
    {ops : List (Nat × HeapOp)} (hen : h0.hookEnter w t this args = .ok (h1, temps, xs))
    {i : Nat} (hi : i ∈ allLocals args xs)
    (hs : Along (fun h u op => u = t → Spares t i e.frames.length h op) h1 ops)
    (hrun : runHeap h1 ops = .ok h) : HasLocal h t i ∧ Live h i := by
  obtain ⟨self, h2, _, _, _, rfl, _, hpu, hi1, _⟩ := Heap.hookEnter_ok hr.inv.toPre hen
  have hne := hr.inv.frames t e he
  cases hf : e.frames with
  | nil => exact absurd hf hne
  | cons f fs =>
    have he1 : (h2.hold temps).collect.envs t =
        some { e with frames := (f ++ allLocals args xs) :: fs } := by
      rw [(Heap.collect_rest _).envs]
      show h2.envs t = _
      rw [hpu.env e he, hf]; rfl
    obtain ⟨e', a, b, he', hf', _, g, hgb, hig⟩ :=
      Along.induct (Q := fun h => ∃ e' inner out, h.envs t = some e' ∧ e'.frames = inner ++ out ∧
          out.length = e.frames.length ∧ ∃ f ∈ out, i ∈ f)
        (fun h u op h' out hi hq hp hx => Heap.spares_run hi.toPre (by rw [hf]; simp) hx hp hq) hi1
        ⟨_, [], _, he1, rfl, by rw [hf]; rfl, f ++ allLocals args xs, List.mem_cons_self,
          List.mem_append_right _ hi⟩ hs hrun
    have hl : HasLocal h t i := ⟨e', he', g, by rw [hf']; simp [hgb], hig⟩
    have hinv := hi1.runHeap hrun
    exact ⟨hl, hasLocal_live hinv hl⟩

/-! ### The receiver -/

/-- A member function is called on null if the receiver is null or a cleared weak reference; an object
of another class is refused. -/
theorem receiver_checked {h : Heap} (hr : HookReachable w h) {c : CppClass} {r : Option Nat}
    {t : Nat} {args : List (ObjParam × Option Nat)} {body : List (Nat × HeapOp)} {ret : ObjRet} :
    (Denotes h r none → h.hookCall w t ⟨some (c, r), args, body, ret⟩ = .ub .nullDeref) ∧
    (∀ i, Denotes h r (some i) → w.isa i c = false →
      h.hookCall w t ⟨some (c, r), args, body, ret⟩ = .throws .badCast) := by
  constructor
  · intro hd
    have : h.unpack w c r = .ok none := by
      rw [Heap.unpack, (Heap.denote_iff hr.inv.toPre).2 hd, Res.bind_ok]
    simp only [Heap.hookCall, Heap.hookEnter, Heap.receiver, this, Res.bind_ok]; rfl
  · intro i hd hw
    have : h.unpack w c r = .throws .badCast := by
      rw [Heap.unpack, (Heap.denote_iff hr.inv.toPre).2 hd, Res.bind_ok]
      simp [hw]
    simp only [Heap.hookCall, Heap.hookEnter, Heap.receiver, this]; rfl

/-- With a receiver that is an object, and references that are not released, the function is entered or
the call throws. -/
theorem hook_enters {h : Heap} (hr : HookReachable w h) {t : Nat} {e : Env} (he : h.envs t = some e)
    {this : Option (CppClass × Option Nat)}
    (ht : ∀ c r, this = some (c, r) → ∃ i, Denotes h r (some i))
    {as : List (ObjParam × Option Nat)} (hv : ∀ a ∈ as, Valid h a.2) :
    (∃ r, h.hookEnter w t this as = .ok r) ∨ ∃ ex, h.hookEnter w t this as = .throws ex := by
  have hrec : (∃ self, h.receiver w this = .ok self) ∨ ∃ ex, h.receiver w this = .throws ex := by
    cases this with
    | none => exact .inl ⟨[], rfl⟩
    | some cr =>
      obtain ⟨c, r⟩ := cr
      obtain ⟨i, hd⟩ := ht c r rfl
      rw [Heap.receiver, Heap.unpack, (Heap.denote_iff hr.inv.toPre).2 hd]
      cases hw : w.isa i c with
      | true => exact .inl ⟨[i], by simp [hw, Res.bind_ok]⟩
      | false => exact .inr ⟨.badCast, by simp [hw, Res.bind_ok]; rfl⟩
  rcases hrec with ⟨self, hs⟩ | ⟨ex, hs⟩
  · rcases (args_refused hr he hv).2 with ⟨h', xs, hx⟩ | ⟨ex, hx⟩
    · exact .inl ⟨_, by rw [Heap.hookEnter, hs, Res.bind_ok, hx, Res.bind_ok]⟩
    · exact .inr ⟨ex, by rw [Heap.hookEnter, hs, Res.bind_ok, hx]; rfl⟩
  · exact .inr ⟨ex, by rw [Heap.hookEnter, hs]; rfl⟩

/-! ### The result -/

/-- A returned `std::shared_ptr` becomes a local reference to the same object, which is alive even if
nothing else owned it; null stays null, and a `jobject` is returned as it is. -/
theorem result_same {h h' : Heap} (hr : HookReachable w h) {t : Nat} {c : ObjCall} {r : Option Nat}
    (hx : h.hookCall w t c = .ok (h', r)) :
    (∀ k o, c.returns = .shared k o → r = o ∧ ∀ i, o = some i → HasLocal h' t i ∧ Live h' i) ∧
    (∀ o, c.returns = .jobject o → r = o) ∧ (c.returns = .void → r = none) := by
  obtain ⟨⟨h1, temps, xs⟩, hx1, hx2⟩ := Res.bind_eq_ok.1 hx
  obtain ⟨h2, hx2, hx3⟩ := Res.bind_eq_ok.1 hx2
  obtain ⟨_, _, _, _, _, _, _, _, hi1, hh1⟩ := Heap.hookEnter_ok hr.inv.toPre hx1
  obtain ⟨h3, h4, _, hi3, _, _, hc, _, rfl, _, hi'⟩ :=
    Heap.hookLeave_ok (hi1.runHeap hx2) (hh1.mono (Heap.pins_runHeap hi1 hx2)) hx3
  refine ⟨fun k o hret => ?_, fun o hret => ?_, fun hret => ?_⟩
  · rw [hret] at hc
    have hc : h3.toJNI? t (h3.staticClass w k) o = .ok (h4, r) := hc
    obtain ⟨rfl, hpu⟩ := Heap.pushed_toJNI? hc
    refine ⟨rfl, ?_⟩
    rintro i rfl
    obtain ⟨h5, h6, h7⟩ := Res.bind_eq_ok.1 hc
    cases h7
    have hl := hasLocal_end (os := ObjRet.owned c.returns) (toJNI_local hi3.toPre h6)
    exact ⟨hl, hasLocal_live hi' hl⟩
  · rw [hret] at hc; cases hc; rfl
  · rw [hret] at hc; cases hc; rfl

/-- A class returned by value becomes a new object, a local reference to which is returned.  It has the
class of the value, or the one bound to its type. -/
theorem result_copy {h0 h h' : Heap} (hr : HookReachable w h0) {t : Nat}
    {this : Option (CppClass × Option Nat)} {args : List (ObjParam × Option Nat)} {temps : List Nat}
    {xs : List ObjArg} {ops : List (Nat × HeapOp)} (hrun : Running w h0 t this args temps xs ops h)
    {c : CppClass} {source r : Option Nat} (hx : h.hookLeave w t temps (.value c source) = .ok (h', r)) :
    ∃ k o, r = some k ∧ h.next ≤ k ∧ HasLocal h' t k ∧ h'.objs k = some o ∧ o.kind = .plain ∧
      o.cls = ((source.bind fun i => (h.objs i).bind Obj.cls).or ((w.name c).bind h.typeClass)) := by
  obtain ⟨h1, hen, hrun⟩ := hrun
  obtain ⟨_, _, _, _, _, _, _, _, hi1, hh1⟩ := Heap.hookEnter_ok hr.inv.toPre hen
  obtain ⟨h3, h4, hh3, hi3, hho, hlv, hc, _, rfl, hp', hi'⟩ :=
    Heap.hookLeave_ok (hi1.runHeap hrun) (hh1.mono (Heap.pins_runHeap hi1 hrun)) hx
  obtain ⟨⟨h5, k⟩, hx1, hx2⟩ := Res.bind_eq_ok.1 hc
  obtain ⟨s, rfl, _, cls, rfl, hcls⟩ := copyOf_ok hi3.toPre t hx1
  dsimp only at hx2
  obtain ⟨h6, hx3, hx4⟩ := Res.bind_eq_ok.1 hx2
  cases hx4
  have hl := hasLocal_end (os := ObjRet.owned (.value c source)) (toJNI_local s.pre hx3)
  obtain ⟨o, ho, _, _, ho'⟩ := toJNI_ok hx3
  have hnew : ((h3.alloc ⟨.plain, cls⟩).1.objs h3.next) = some ⟨.plain, cls⟩ := by simp
  rw [hnew] at ho
  cases ho
  obtain ⟨o2, ho2⟩ := hasLocal_live hi' hl
  have hsub := collect_sub ho2
  have : o2 = if cls.isNone then (⟨.plain, (h3.alloc ⟨.plain, cls⟩).1.staticClass w c⟩ : Obj) else ⟨.plain, cls⟩ := by
    have : some o2 = h4.objs h3.next := hsub.symm
    rw [ho'] at this
    injection this
  -- the class of the source, read when the temporaries are gone already
  have hsrc : cls = source.bind fun i => (h.objs i).bind Obj.cls := by
    rw [hcls]
    cases source with
    | none => rfl
    | some i =>
      obtain ⟨oi, hoi⟩ := hho.live hi3.toPre (i := i) (by simp [ObjRet.owned])
      have h7 : h.objs i = some oi := by
        have h8 := hoi
        rw [hh3] at h8
        exact collect_sub (h := (h.letGo temps).hold _) h8
      simp [hoi, h7]
  have hst : (h3.alloc ⟨.plain, cls⟩).1.staticClass w c = (w.name c).bind h.typeClass := by
    have h8 : h3.classes = h.classes := by rw [hh3, (collect_rest _).classes]; rfl
    unfold staticClass
    cases w.name c with
    | none => rfl
    | some n => exact congrArg (fun l => l.lookup n) h8
  have hnx : h3.next = h.next := by rw [hh3, (collect_rest _).next]; rfl
  refine ⟨h3.next, o2, rfl, Nat.le_of_eq hnx.symm, hl, ho2, ?_, ?_⟩
  · rw [this]; split <;> rfl
  · rw [this, ← hsrc, ← hst]
    cases cls <;> rfl

/-- A function that returns normally gets its result to the caller, if it does not return an object that
was released, and its thread is still attached. -/
theorem hook_returns {h0 h : Heap} (hr : HookReachable w h0) {t : Nat}
    {this : Option (CppClass × Option Nat)} {args : List (ObjParam × Option Nat)} {temps : List Nat}
    {xs : List ObjArg} {ops : List (Nat × HeapOp)} (hrun : Running w h0 t this args temps xs ops h)
    {e : Env} (he : h.envs t = some e) {ret : ObjRet} (hl : ∀ i ∈ ret.owned, Live h i) :
    ∃ h' r, h.hookLeave w t temps ret = .ok (h', r) := by
  obtain ⟨h1, hen, hrun⟩ := hrun
  obtain ⟨_, _, _, _, _, _, _, _, hi1, hh1⟩ := Heap.hookEnter_ok hr.inv.toPre hen
  have hi := hi1.runHeap hrun
  have hp1 := hi.toPre.letGo (hh1.mono (Heap.pins_runHeap hi1 hrun))
  have hp2 : (h.letGo temps |>.hold ret.owned).Pre := hp1.hold hl
  have hi3 := hp2.collect
  have hh3 := (hp1.holding ret.owned).collect
  have he3 : (h.letGo temps |>.hold ret.owned).collect.envs t = some e := by
    rw [(collect_rest _).envs]; exact he
  have key : ∃ p, (h.letGo temps |>.hold ret.owned).collect.convertResult w t ret = .ok p := by
    cases ret with
    | void => exact ⟨_, rfl⟩
    | jobject r => exact ⟨_, rfl⟩
    | shared c o =>
      obtain ⟨h4, hx⟩ := toJNI?_exists (i := o) hi3.toPre he3
        (fun i hi => hh3.live hi3.toPre (by simp [ObjRet.owned, hi])) (staticClass_ok (w := w) (c := c) hi3.toPre)
      exact ⟨_, hx⟩
    | value c o =>
      have : ∃ p, (h.letGo temps |>.hold (ObjRet.value c o).owned).collect.copyOf o = .ok p := by
        cases o with
        | none => exact ⟨_, rfl⟩
        | some i =>
          obtain ⟨oi, hoi⟩ := hh3.live hi3.toPre (i := i) (by simp [ObjRet.owned])
          exact ⟨_, by rw [copyOf, hoi]⟩
      obtain ⟨⟨h4, k⟩, hx⟩ := this
      obtain ⟨s, rfl, _, cls, rfl, _⟩ := copyOf_ok hi3.toPre t hx
      obtain ⟨h5, hx5⟩ := toJNI?_exists (t := t) (e := e) (i := some _) s.pre he3
        (fun i hi => by cases hi; exact alloc_live _ _) (staticClass_ok (w := w) (c := c) s.pre)
      exact ⟨_, by rw [convertResult, hx, Res.bind_ok]; exact hx5⟩
  obtain ⟨⟨h4, r⟩, hx⟩ := key
  refine ⟨(h4.letGo ret.owned).collect, r, ?_⟩
  · rw [hookLeave, if_pos, hx, Res.bind_ok]
    rw [List.all_eq_true]
    intro i hm
    obtain ⟨o, ho⟩ := hl i hm
    rw [ho]; rfl

/-! ### What a call leaves behind -/

/-- A call of a function without pointer parameters, which itself does nothing with references and
returns nothing, leaves no trace: no local reference, no other class, nothing kept, nothing released. -/
theorem hook_call_neutral {h h' : Heap} (hr : HookReachable w h) {t : Nat} {c : ObjCall} {r : Option Nat}
    (hargs : ∀ a ∈ c.args, ∀ k, a.1 ≠ .pointer k ∧ a.1 ≠ .jhandle k) (hb : c.body = [])
    (hret : c.returns = .void) (hx : h.hookCall w t c = .ok (h', r)) : h' = h := by
  have same : ∀ {as : List (ObjParam × Option Nat)} {h1 xs},
      (∀ a ∈ as, ∀ k, a.1 ≠ .pointer k ∧ a.1 ≠ .jhandle k) → convertAll w t h as = .ok (h1, xs) →
      h1 = h := by
    intro as
    induction as with
    | nil => intro h1 xs _ hx; cases hx; rfl
    | cons a as ih =>
      intro h1 xs ha hx
      obtain ⟨p, q⟩ := a
      obtain ⟨⟨h2, x⟩, hx1, hx2⟩ := Res.bind_eq_ok.1 hx
      dsimp only at hx2
      have h2h : h2 = h := by
        have hp := ha (p, q) List.mem_cons_self
        cases p with
        | jobject => cases hx1; rfl
        | shared k => obtain ⟨o, _, h4⟩ := Res.bind_eq_ok.1 hx1; cases h4; rfl
        | pointer k => exact absurd rfl (hp k).1
        | jhandle k => exact absurd rfl (hp k).2
        | ref k => obtain ⟨o, _, h4⟩ := Res.bind_eq_ok.1 hx1; cases o <;> cases h4; rfl
        | value k => obtain ⟨o, _, h4⟩ := Res.bind_eq_ok.1 hx1; cases o <;> cases h4; rfl
      subst h2h
      obtain ⟨⟨h3, ys⟩, hx3, hx4⟩ := Res.bind_eq_ok.1 hx2
      cases hx4
      exact ih (fun a hm => ha a (List.mem_cons_of_mem _ hm)) hx3
  obtain ⟨⟨h1, temps, xs⟩, hx1, hx2⟩ := Res.bind_eq_ok.1 hx
  obtain ⟨h2, hx2, hx3⟩ := Res.bind_eq_ok.1 hx2
  obtain ⟨_, h3, _, hc, _, rfl, _⟩ := Heap.hookEnter_ok hr.inv.toPre hx1
  cases same hargs hc
  rw [hb] at hx2
  cases hx2
  rw [hret] at hx3
  have e1 : (h.hold temps).collect = h.hold temps :=
    collect_of_allHeld (allHeld_hold hr.inv.held temps)
  rw [e1] at hx3
  simp only [hookLeave, ObjRet.owned, List.all_nil, if_true, letGo_hold] at hx3
  have e2 : h.hold [] = h := rfl
  have e3 : h.letGo [] = h := rfl
  rw [e2, collect_of_allHeld hr.inv.held] at hx3
  simp only [convertResult, Res.bind_ok, e3, collect_of_allHeld hr.inv.held] at hx3
  cases hx3; rfl

/-- Every pointer argument leaves a local reference behind when the call is over. -/
theorem hook_call_locals {h h' : Heap} (hr : HookReachable w h) {t : Nat} {e : Env}
    (he : h.envs t = some e) {f : List Nat} {fs : List (List Nat)} (hf : e.frames = f :: fs) {c : ObjCall}
    {r : Option Nat} (hv : ∀ a ∈ c.args, Valid h a.2) (hb : c.body = []) (hret : c.returns = .void) (hx : h.hookCall w t c = .ok (h', r)) :
    ∃ xs, PassedAll w h c.args xs ∧
      h'.envs t = some { e with frames := (f ++ allLocals c.args xs) :: fs } := by
  obtain ⟨⟨h1, temps, xs⟩, hx1, hx2⟩ := Res.bind_eq_ok.1 hx
  obtain ⟨h2, hx2, hx3⟩ := Res.bind_eq_ok.1 hx2
  obtain ⟨_, h3, _, hc, _, rfl, _, hpu, hi1, hh1⟩ := Heap.hookEnter_ok hr.inv.toPre hx1
  rw [hb] at hx2
  cases hx2
  obtain ⟨h4, h5, rfl, _, _, _, hcr, _, rfl, _, _⟩ := Heap.hookLeave_ok hi1 hh1 hx3
  rw [hret] at hcr
  cases hcr
  refine ⟨xs, ?_, ?_⟩
  · exact (args_received hr he hv).1 ⟨_, hc⟩
  · rw [(collect_rest _).envs]
    show (Heap.collect _).envs t = _
    rw [(collect_rest _).envs]
    show (Heap.collect _).envs t = _
    rw [(collect_rest _).envs]
    show h3.envs t = _
    rw [hpu.env e he, hf]; rfl

/-! ### Concrete calls -/

/-- Every object is an instance of class 7 only. -/
def sampleTypes : CppTypes := ⟨fun _ c => c == .cls 7, fun _ => some "java/lang/Object".toList⟩

/-- Object 9 with a local reference and the global reference 10. -/
def sampleObject : List (Nat × HeapOp) := [(0, .newObject none), (0, .newGlobalRef (some 9))]

/-- Object 9, to which only the global reference 10 is left. -/
def sampleGlobal : List (Nat × HeapOp) := sampleObject ++ [(0, .deleteLocalRef (some 9))]

/-- The object behind a global reference in all forms. -/
example : ∃ h h' e, HookReachable sampleTypes h ∧ h.envs 0 = some e ∧
    (∀ a ∈ [(ObjParam.shared (.cls 7), some 10), (.pointer (.cls 7), some 10), (.ref (.cls 7), some 10),
      (.value (.cls 7), some 9), (.jobject, some 10), (.pointer (.cls 8), none)], Valid h a.2) ∧
    Heap.convertAll sampleTypes 0 h [(.shared (.cls 7), some 10), (.pointer (.cls 7), some 10),
      (.ref (.cls 7), some 10), (.value (.cls 7), some 9), (.jobject, some 10), (.pointer (.cls 8), none)] =
      .ok (h', [.shared (some 9), .pointer (some 9), .ref 9, .copy 9, .handle (some 10), .pointer none]) := by
  obtain ⟨h, hx, hr, hp⟩ := reachable_of (ops := sampleObject)
    (p := fun h => (h.envs 0).isSome && (h.objs 9).isSome && (h.objs 10).isSome &&
      (Heap.convertAll sampleTypes 0 h [(.shared (.cls 7), some 10), (.pointer (.cls 7), some 10),
        (.ref (.cls 7), some 10), (.value (.cls 7), some 9), (.jobject, some 10),
        (.pointer (.cls 8), none)]).holds fun x =>
      x.2 == [.shared (some 9), .pointer (some 9), .ref 9, .copy 9, .handle (some 10), .pointer none])
    (by decide +kernel)
  simp only [Bool.and_eq_true, Res.holds_iff, beq_iff_eq] at hp
  obtain ⟨⟨⟨h1, h2⟩, h3⟩, ⟨h', xs⟩, h4, rfl⟩ := hp
  obtain ⟨e, he⟩ := Option.isSome_iff_exists.1 h1
  refine ⟨h, h', e, .of_heap hr, he, ?_, h4⟩
  intro a ha
  simp only [List.mem_cons, List.not_mem_nil, or_false] at ha
  rcases ha with rfl | rfl | rfl | rfl | rfl | rfl
  all_goals first
    | exact Option.isSome_iff_exists.1 h2
    | exact Option.isSome_iff_exists.1 h3
    | exact True.intro

/-- Another class is refused, and so is null for a reference. -/
example : ∃ h, HookReachable sampleTypes h ∧
    Heap.convertAll sampleTypes 0 h [(.shared (.cls 7), some 9), (.shared (.cls 8), some 9)] =
      .throws .badCast ∧
    Heap.convertAll sampleTypes 0 h [(.shared (.cls 8), none), (.ref (.cls 7), none)] =
      .throws .runtimeError ∧
    h.hookCall sampleTypes 0 ⟨some (.cls 7, none), [], [], .void⟩ = .ub .nullDeref := by
  obtain ⟨h, hx, hr, hp⟩ := reachable_of (ops := sampleObject)
    (p := fun h => (match Heap.convertAll sampleTypes 0 h [(.shared (.cls 7), some 9),
        (.shared (.cls 8), some 9)] with | .throws .badCast => true | _ => false) &&
      (match Heap.convertAll sampleTypes 0 h [(.shared (.cls 8), none), (.ref (.cls 7), none)] with
        | .throws .runtimeError => true | _ => false)) (by decide +kernel)
  simp only [Bool.and_eq_true] at hp
  refine ⟨h, .of_heap hr, ?_, ?_, (receiver_checked (.of_heap hr)).1 .null⟩
  · have := hp.1
    split at this
    · assumption
    · cases this
  · have := hp.2
    split at this
    · assumption
    · cases this

/-- A function with a `std::shared_ptr` parameter deletes the last other reference to its argument: the
object is still there. -/
example : ∃ h0 h temps, HookReachable sampleTypes h0 ∧
    Running sampleTypes h0 0 none [(.shared (.cls 7), some 10)] temps [.shared (some 9)]
      [(0, .deleteGlobalRef (some 10))] h ∧ Live h 9 := by
  obtain ⟨h0, hx, hr, hp⟩ := reachable_of (ops := sampleGlobal)
    (p := fun h0 => (h0.hookEnter sampleTypes 0 none [(.shared (.cls 7), some 10)]).holds fun y =>
      y.2.2 == [.shared (some 9)] &&
      (runHeap y.1 [(0, .deleteGlobalRef (some 10))]).holds fun _ => true) (by decide +kernel)
  simp only [Bool.and_eq_true, Res.holds_iff, beq_iff_eq] at hp
  obtain ⟨⟨h1, temps, xs⟩, h2, h3, h, h4, _⟩ := hp
  dsimp only at h3
  subst h3
  have hrun : Running sampleTypes h0 0 none [(.shared (.cls 7), some 10)] temps [.shared (some 9)]
      [(0, .deleteGlobalRef (some 10))] h := ⟨h1, h2, h4⟩
  exact ⟨h0, h, temps, .of_heap hr, hrun, (shared_args_alive (.of_heap hr) hrun).1 9 List.mem_cons_self⟩

/-- With a `T&` parameter it is gone: nothing owns the argument while the function runs. -/
theorem ref_arg_dangles : ∃ h0 h temps, HookReachable sampleTypes h0 ∧
    Running sampleTypes h0 0 none [(.ref (.cls 7), some 10)] temps [.ref 9]
      [(0, .deleteGlobalRef (some 10))] h ∧ ¬ Live h 9 := by
  obtain ⟨h0, hx, hr, hp⟩ := reachable_of (ops := sampleGlobal)
    (p := fun h0 => (h0.hookEnter sampleTypes 0 none [(.ref (.cls 7), some 10)]).holds fun y =>
      y.2.2 == [.ref 9] &&
      (runHeap y.1 [(0, .deleteGlobalRef (some 10))]).holds fun h => (h.objs 9).isNone) (by decide +kernel)
  simp only [Bool.and_eq_true, Res.holds_iff, beq_iff_eq] at hp
  obtain ⟨⟨h1, temps, xs⟩, h2, h3, h, h4, h5⟩ := hp
  dsimp only at h3
  subst h3
  refine ⟨h0, h, temps, .of_heap hr, ⟨h1, h2, h4⟩, ?_⟩
  rintro ⟨o, ho⟩
  simp [ho] at h5

/-- The same for a pointer when the function deletes the local reference that keeps it: the condition of
`pointer_args_alive` is needed.  (`T*` and a global reference to the same object.) -/
theorem pointer_arg_dangles : ∃ h0 h temps, HookReachable sampleTypes h0 ∧
    Running sampleTypes h0 0 none [(.pointer (.cls 7), some 10)] temps [.pointer (some 9)]
      [(0, .deleteLocalRef (some 10)), (0, .deleteGlobalRef (some 10))] h ∧ ¬ Live h 9 := by
  obtain ⟨h0, hx, hr, hp⟩ := reachable_of (ops := sampleGlobal)
    (p := fun h0 => (h0.hookEnter sampleTypes 0 none [(.pointer (.cls 7), some 10)]).holds fun y =>
      y.2.2 == [.pointer (some 9)] &&
      (runHeap y.1 [(0, .deleteLocalRef (some 10)), (0, .deleteGlobalRef (some 10))]).holds fun h =>
        (h.objs 9).isNone) (by decide +kernel)
  simp only [Bool.and_eq_true, Res.holds_iff, beq_iff_eq] at hp
  obtain ⟨⟨h1, temps, xs⟩, h2, h3, h, h4, h5⟩ := hp
  dsimp only at h3
  subst h3
  refine ⟨h0, h, temps, .of_heap hr, ⟨h1, h2, h4⟩, ?_⟩
  rintro ⟨o, ho⟩
  simp [ho] at h5

/-- A member function returns its receiver, to which no other reference is left. -/
example : ∃ h h', HookReachable sampleTypes h ∧
    h.hookCall sampleTypes 0 ⟨some (.cls 7, some 10), [], [(0, .deleteGlobalRef (some 10))],
      .shared (.cls 7) (some 9)⟩ = .ok (h', some 9) ∧ Live h' 9 := by
  obtain ⟨h, hx, hr, hp⟩ := reachable_of (ops := sampleGlobal)
    (p := fun h => (h.hookCall sampleTypes 0 ⟨some (.cls 7, some 10), [], [(0, .deleteGlobalRef (some 10))],
      .shared (.cls 7) (some 9)⟩).holds fun y => y.2 == some 9) (by decide +kernel)
  simp only [Res.holds_iff, beq_iff_eq] at hp
  obtain ⟨⟨h', r⟩, h1, rfl⟩ := hp
  exact ⟨h, h', .of_heap hr, h1, (((result_same (.of_heap hr) h1).1 _ _ rfl).2 9 rfl).2⟩

/-- Two calls with a pointer argument leave two local references. -/
example : ∃ h h' h'' e, HookReachable sampleTypes h ∧
    h.hookCall sampleTypes 0 ⟨none, [(.pointer (.cls 7), some 10)], [], .void⟩ = .ok (h', none) ∧
    h'.hookCall sampleTypes 0 ⟨none, [(.pointer (.cls 7), some 10)], [], .void⟩ = .ok (h'', none) ∧
    h''.envs 0 = some e ∧ e.frames = [[9, 9]] := by
  obtain ⟨h, hx, hr, hp⟩ := reachable_of (ops := sampleGlobal)
    (p := fun h => (h.hookCall sampleTypes 0 ⟨none, [(.pointer (.cls 7), some 10)], [], .void⟩).holds fun y =>
      y.2 == none &&
      (y.1.hookCall sampleTypes 0 ⟨none, [(.pointer (.cls 7), some 10)], [], .void⟩).holds fun z =>
        z.2 == none && (z.1.envs 0).any fun e => e.frames == [[9, 9]]) (by decide +kernel)
  simp only [Bool.and_eq_true, Res.holds_iff, beq_iff_eq, Option.any_eq_true] at hp
  obtain ⟨⟨h', r⟩, h1, rfl, ⟨h'', r'⟩, h2, rfl, e, he, hf⟩ := hp
  exact ⟨h, h', h'', e, .of_heap hr, h1, h2, he, hf⟩

/-- A function returns its argument by value: a new object. -/
example : ∃ h h', HookReachable sampleTypes h ∧
    h.hookCall sampleTypes 0 ⟨none, [(.ref (.cls 7), some 10)], [], .value (.cls 7) (some 9)⟩ =
      .ok (h', some 11) := by
  obtain ⟨h, hx, hr, hp⟩ := reachable_of (ops := sampleObject)
    (p := fun h => (h.hookCall sampleTypes 0 ⟨none, [(.ref (.cls 7), some 10)], [],
      .value (.cls 7) (some 9)⟩).holds fun y => y.2 == some 11) (by decide +kernel)
  simp only [Res.holds_iff, beq_iff_eq] at hp
  obtain ⟨⟨h', r⟩, h1, rfl⟩ := hp
  exact ⟨h, h', .of_heap hr, h1⟩

end Jnivm
