import Verif.Lemmas.InvokeCall
import Verif.Props.ObjArgs
/-!
C++ values that are passed to a hooked C++ function through `Method::invoke` (C59).  `CppReachable` are the
states that any calls of the interface, of hooked functions and of `invoke` lead to.
-/
namespace Jnivm
open Spec
open Heap hiding Live

variable {w : CppTypes} {share : Bool}

/-! ### The caller's side -/

/-- Objects that exist are always handed over: numbers keep their bits, `std::shared_ptr`s and (where they
can be shared) pointers become references to their objects, all other objects are copied. -/
theorem invoke_hands_over {h : Heap} (hr : CppReachable w h) {t : Nat} {e : Env} (he : h.envs t = some e)
    {target : Recipient} (ht : Ordinary h target.ref) {args : List InvokeArg} (hok : ∀ a ∈ args, ArgOk h a) :
    ∃ h1 js, h.invokeBegin w share t target args = .ok (h1, js) ∧ HandedAll w share h h1 args js := by
  obtain ⟨h1, js, hx⟩ := invokeBegin_exists (w := w) (share := share) hr.inv he ht hok
  exact ⟨h1, js, hx, (invokeBegin_ok hr.inv he ht hok hx).handed⟩

/-- Each copy is a new object, and there is one for each copied argument. -/
theorem invoke_copies {h h1 : Heap} (hr : CppReachable w h) {t : Nat} {e : Env} (he : h.envs t = some e)
    {target : Recipient} (ht : Ordinary h target.ref) {args : List InvokeArg} (hok : ∀ a ∈ args, ArgOk h a)
    {js : List JArg} (hx : h.invokeBegin w share t target args = .ok (h1, js)) :
    (newObjects share args js).length = (args.filter (copies share)).length ∧
      (newObjects share args js).Nodup ∧
      ∀ k ∈ newObjects share args js, ¬ Live h k ∧ Live h1 k := by
  have B := invokeBegin_ok hr.inv he ht hok hx
  refine ⟨by rw [B.copy]; simp, by rw [B.copy]; exact List.nodup_range', fun k hk => ⟨?_, ?_⟩⟩
  · rw [B.copy, List.mem_range'_1] at hk
    rintro ⟨o, ho⟩
    exact absurd (hr.inv.toPre.bound k o ho) (Nat.not_lt.2 hk.1)
  · obtain ⟨x, hpu, _⟩ := B.locals
    refine hasLocal_live B.inv (pushed_local (h := h.hold (invokeOwned target args))
      (hr.inv.toPre.hold (owned_live ht hok)) hpu he (i := k) ?_)
    have := newObjects_sub hk
    simp [this]

/-- The innermost frame gets a local reference for the receiver, for each argument that is an object (but
not for a `jobject`), and for the class of the receiver unless the call is static.  Nothing else
changes hands. -/
theorem invoke_begin_frame {h h1 : Heap} (hr : CppReachable w h) {t : Nat} {e : Env} (he : h.envs t = some e)
    {f : List Nat} {fs : List (List Nat)} (hf : e.frames = f :: fs)
    {target : Recipient} (ht : Ordinary h target.ref) {args : List InvokeArg} (hok : ∀ a ∈ args, ArgOk h a)
    {js : List JArg} (hx : h.invokeBegin w share t target args = .ok (h1, js)) :
    (∃ k, ClassLocal w share h target args k ∧ h1.envs t =
      some { e with frames := (f ++ (target.ref :: handedLocals args js ++ k.toList)) :: fs }) ∧
    (∀ u, u ≠ t → h1.envs u = h.envs u) ∧ h1.globals = h.globals ∧
    ∀ i o, h.objs i = some o → ∃ o', h1.objs i = some o' ∧ o.kind.Same o'.kind ∧
      ∀ c, o.cls = some c → o'.cls = some c := by
  have B := invokeBegin_ok hr.inv he ht hok hx
  obtain ⟨k, hpu, hk⟩ := B.locals
  refine ⟨⟨k, hk, ?_⟩, B.step.others, hpu.globals, B.step.live⟩
  rw [hpu.env e he, hf]; rfl

/-- Passing an object that has no class gives it the one bound to the C++ type of the first argument that
passes it; objects that have one keep it. -/
theorem pass_gives_class {h h1 : Heap} (hr : CppReachable w h) {t : Nat} {args : List InvokeArg}
    (hok : ∀ a ∈ args, ArgOk h a) {js : List JArg} (hx : Heap.passAll w share t h args = .ok (h1, js))
    {i : Nat} {o : Obj} (ho : h.objs i = some o) :
    h1.objs i = some { o with cls := o.cls.or (args.findSome? (givesClass w share h i)) } :=
  (passAll_ok hr.inv.toPre hok hx).objs i o ho

/-! ### What arrives -/

/-- What was handed over is still there when the function asks for it, whatever other threads do
meanwhile. -/
theorem handed_ready {h h1 h2 : Heap} (hr : CppReachable w h) {t : Nat} {e : Env} (he : h.envs t = some e)
    {target : Recipient} (ht : Ordinary h target.ref) {args : List InvokeArg} (hok : ∀ a ∈ args, ArgOk h a)
    {js : List JArg} (hx : h.invokeBegin w share t target args = .ok (h1, js))
    {ops : List (Nat × HeapOp)} (hot : ∀ x ∈ ops, x.1 ≠ t) (hrun : runHeap h1 ops = .ok h2)
    (hj : ∀ r, .jobject r ∈ args → Valid h2 r) {ps : List Param} (hm : MatchesAll args ps) :
    ReadyAll h2 args js ps ∧ h2.Inv ∧ ∃ e2, h2.envs t = some e2 := by
  have B := invokeBegin_ok hr.inv he ht hok hx
  obtain ⟨k, hpu, _⟩ := B.locals
  obtain ⟨h3, h4⟩ := ordinary_others B.inv hot hrun
  refine ⟨readyAll_of_handed (h := h)
    (fun ho => ordinary_step (h := h.hold (invokeOwned target args)) B.step ho) B.handed hm hok hj fun i hi ho => h4 i ?_ ho,
    B.inv.runHeap hrun, _, h3.trans (hpu.env e he)⟩
  exact pushed_local (h := h.hold (invokeOwned target args))
      (hr.inv.toPre.hold (owned_live ht hok)) hpu he (i := i) (by simp [hi])

/-- The function receives, in the form its parameters ask for, exactly the objects and numbers that were
handed over; it is entered with nothing else, whatever other threads do before. -/
theorem invoke_args_arrive {h h1 h2 : Heap} (hr : CppReachable w h) {t : Nat} {e : Env}
    (he : h.envs t = some e) {target : Recipient} (ht : Ordinary h target.ref) {args : List InvokeArg}
    (hok : ∀ a ∈ args, ArgOk h a) {js : List JArg}
    (hx : h.invokeBegin w share t target args = .ok (h1, js))
    {ops : List (Nat × HeapOp)} (hot : ∀ x ∈ ops, x.1 ≠ t) (hrun : runHeap h1 ops = .ok h2)
    (hj : ∀ r, .jobject r ∈ args → Valid h2 r) {ps : List Param} (hm : MatchesAll args ps) {xs : List Arg} :
    (∃ h3, Heap.receiveAll w t h2 ps js = .ok (h3, xs)) ↔ ArrivedAll w h2 args js ps xs := by
  obtain ⟨hrd, hi2, e2, he2⟩ := handed_ready hr he ht hok hx hot hrun hj hm
  exact hrd.iff hi2.toPre he2

/-- The only other outcome is an exception: some object is of another C++ class than the parameter, or
null is passed for a reference or value. -/
theorem invoke_args_or_throws {h h1 h2 : Heap} (hr : CppReachable w h) {t : Nat} {e : Env}
    (he : h.envs t = some e) {target : Recipient} (ht : Ordinary h target.ref) {args : List InvokeArg}
    (hok : ∀ a ∈ args, ArgOk h a) {js : List JArg}
    (hx : h.invokeBegin w share t target args = .ok (h1, js))
    {ops : List (Nat × HeapOp)} (hot : ∀ x ∈ ops, x.1 ≠ t) (hrun : runHeap h1 ops = .ok h2)
    (hj : ∀ r, .jobject r ∈ args → Valid h2 r) {ps : List Param} (hm : MatchesAll args ps)
    (hno : ∀ xs, ¬ ArrivedAll w h2 args js ps xs) :
    ∃ ex, Heap.receiveAll w t h2 ps js = .throws ex := by
  obtain ⟨hrd, hi2, e2, he2⟩ := handed_ready hr he ht hok hx hot hrun hj hm
  rcases hrd.cases (w := w) hi2.toPre he2 with ⟨_, xs, _, ha⟩ | ⟨hex, _⟩
  · exact absurd ha (hno xs)
  · exact hex

/-- The whole call: what the function received when `invoke` returns. -/
theorem invoke_received {h h' : Heap} (hr : CppReachable w h) {t : Nat} {target : Recipient}
    (ht : Ordinary h target.ref) {args : List InvokeArg} (hok : ∀ a ∈ args, ArgOk h a) {f : HookedFn}
    (hm : MatchesAll args f.params) {r : Option Nat} {xs : List Arg}
    (hx : h.invoke w share t target args f = .ok (h', r, xs)) :
    ∃ h1 js, HandedAll w share h h1 args js ∧ ArrivedAll w h1 args js f.params xs := by
  obtain ⟨e, h1, js, h2, temps, h3, h4, he, hb, B, _, E, _⟩ := Heap.invoke_ok hr.inv ht hok hx
  obtain ⟨g, hg, _⟩ := E.received
  refine ⟨h1, js, B.handed, ?_⟩
  refine (invoke_args_arrive hr he ht hok hb (ops := []) (fun _ h => nomatch h) rfl (fun r hrm => ?_) hm).1
    ⟨g, hg⟩
  exact B.step.valid (h := h.hold (invokeOwned target args)) (hok _ hrm)

/-- The function is entered or the call throws, nothing else; `this` of a member function is the receiver,
and a receiver of another C++ class is refused. -/
theorem invoke_enters {h h1 h2 : Heap} (hr : CppReachable w h) {t : Nat} {e : Env}
    (he : h.envs t = some e) {target : Recipient} (ht : Ordinary h target.ref) {args : List InvokeArg}
    (hok : ∀ a ∈ args, ArgOk h a) {js : List JArg}
    (hx : h.invokeBegin w share t target args = .ok (h1, js))
    {ops : List (Nat × HeapOp)} (hot : ∀ x ∈ ops, x.1 ≠ t) (hrun : runHeap h1 ops = .ok h2)
    (hj : ∀ r, .jobject r ∈ args → Valid h2 r) {f : HookedFn} (hm : MatchesAll args f.params) :
    ((∃ h3 temps xs, h2.invokeEnter w t target f js = .ok (h3, temps, xs) ∧
        ArrivedAll w h2 args js f.params xs ∧ (f.this ≠ none → target.ref ∈ temps)) ↔
      (∀ c, f.this = some c → w.isa target.ref c = true) ∧ ∃ xs, ArrivedAll w h2 args js f.params xs) ∧
    ((∃ r, h2.invokeEnter w t target f js = .ok r) ∨ ∃ ex, h2.invokeEnter w t target f js = .throws ex) := by
  obtain ⟨hrd, hi2, e2, he2⟩ := handed_ready hr he ht hok hx hot hrun hj hm
  have B := invokeBegin_ok hr.inv he ht hok hx
  obtain ⟨k, hpu, _⟩ := B.locals
  have ht2 : Ordinary h2 target.ref := (ordinary_others B.inv hot hrun).2 _
    (pushed_local (h := h.hold (invokeOwned target args))
      (hr.inv.toPre.hold (owned_live ht hok)) hpu he (i := target.ref) (by simp))
    (ordinary_step (h := h.hold (invokeOwned target args)) B.step ht)
  have hd : h2.denote (some target.ref) = .ok (some target.ref) :=
    (denote_iff hi2.toPre).2 (ordinary_denotes ht2)
  -- the receiver
  have hself : (∃ self, h2.receiver w (f.this.map fun c => (c, some target.ref)) = .ok self ∧
        (f.this ≠ none → target.ref ∈ self) ∧ ∀ c, f.this = some c → w.isa target.ref c = true) ∨
      (∃ ex, h2.receiver w (f.this.map fun c => (c, some target.ref)) = .throws ex) ∧
        ¬ ∀ c, f.this = some c → w.isa target.ref c = true := by
    cases hft : f.this with
    | none => exact .inl ⟨[], rfl, fun h => absurd rfl h, fun _ h => nomatch h⟩
    | some c =>
      cases hw : w.isa target.ref c with
      | true =>
        refine .inl ⟨[target.ref], ?_, fun _ => List.mem_singleton.2 rfl, fun d hd => by cases hd; exact hw⟩
        simp [receiver, unpack, hd, hw, Res.bind_ok]
      | false =>
        refine .inr ⟨⟨.badCast, ?_⟩, fun hh => by rw [hh c rfl] at hw; cases hw⟩
        simp only [Option.map_some, receiver, unpack, hd, Res.bind_ok, hw, Bool.false_eq_true, if_false]
        rfl
  rcases hself with ⟨self, hs, hmem, hisa⟩ | ⟨⟨ex, hs⟩, hno⟩
  · rcases hrd.cases (w := w) hi2.toPre he2 with ⟨h3, xs, hxs, ha⟩ | ⟨⟨ex, hxs⟩, hnone⟩
    · have hen : h2.invokeEnter w t target f js =
          .ok ((h3.hold (self ++ xs.filterMap Arg.owned)).collect, self ++ xs.filterMap Arg.owned, xs) := by
        rw [invokeEnter, hs, Res.bind_ok, hxs, Res.bind_ok]
      refine ⟨⟨fun _ => ⟨hisa, xs, ha⟩, fun _ => ⟨_, _, xs, hen, ha, fun h => ?_⟩⟩, .inl ⟨_, hen⟩⟩
      exact List.mem_append_left _ (hmem h)
    · have hen : h2.invokeEnter w t target f js = .throws ex := by
        rw [invokeEnter, hs, Res.bind_ok, hxs]; rfl
      refine ⟨⟨?_, fun ⟨_, xs, ha⟩ => absurd ha (hnone xs)⟩, .inr ⟨ex, hen⟩⟩
      rintro ⟨_, _, _, h4, _⟩
      rw [hen] at h4; cases h4
  · have hen : h2.invokeEnter w t target f js = .throws ex := by rw [invokeEnter, hs]; rfl
    refine ⟨⟨?_, fun ⟨hh, _⟩ => absurd hh hno⟩, .inr ⟨ex, hen⟩⟩
    rintro ⟨_, _, _, h4, _⟩
    rw [hen] at h4; cases h4

/-- What is passed as a `std::shared_ptr`, or as a pointer where pointers can be shared, is the object that
the function gets; what is passed by value, by a pointer that nothing owns, or (without
`weak_from_this`) by any pointer is another object, which did not exist before. -/
theorem invoke_same_or_new {h h1 : Heap} (hr : CppReachable w h) {args : List InvokeArg} {js : List JArg}
    {ps : List Param} {xs : List Arg} (hh : HandedAll w share h h1 args js)
    (ha : ArrivedAll w h1 args js ps xs) {n : Nat} {x : ObjArg} (hx : xs[n]? = some (.obj x)) :
    (∀ c o, args[n]? = some (.shared c o) → x.object = o) ∧
    (∀ c o, args[n]? = some (.pointer c o) → share = true → x.object = o) ∧
    (∀ c i, args[n]? = some (.pointer c (some i)) → share = false → ∃ k, x.object = some k ∧ ¬ Live h k) ∧
    (∀ c cls, args[n]? = some (.unowned c cls) ∨ args[n]? = some (.value c cls) →
      ∃ k, x.object = some k ∧ ¬ Live h k) := by
  have form : ∀ {p : ObjParam} {o : Option Nat} {x : ObjArg}, formed p o = some x → x.object = o := by
    intro p o x hf
    cases p <;> cases o <;> cases hf <;> rfl
  have new : ∀ {c cls k}, IsCopy w h h1 c cls k → ¬ Live h k := fun hk ⟨o, ho⟩ =>
    absurd (hr.inv.toPre.bound _ o ho) (Nat.not_lt.2 hk.1)
  induction ha generalizing n with
  | nil => cases hx
  | @cons a j p y as js ps xs h2 _ ih =>
    cases hh with
    | cons h3 hh =>
      cases n with
      | succ n => exact ih hh hx
      | zero =>
        simp only [List.getElem?_cons_zero, Option.some.injEq] at hx ⊢
        subst hx
        refine ⟨?_, ?_, ?_, ?_⟩
        · rintro c o rfl
          cases h3
          cases h2 with | object _ _ _ hf => exact form hf
        · rintro c o rfl hs
          cases h3 with
          | null => cases h2 with | object _ _ _ hf => exact form hf
          | pointer _ => cases h2 with | object _ _ _ hf => exact form hf
          | pointerCopy hs' _ _ _ => rw [hs] at hs'; cases hs'
        · rintro c i rfl hs
          cases h3 with
          | pointer hs' => rw [hs] at hs'; cases hs'
          | pointerCopy _ _ _ hc => cases h2 with | object _ _ _ hf => exact ⟨_, form hf, new hc⟩
        · rintro c cls (rfl | rfl)
          · cases h3 with
            | unowned hc => cases h2 with | object _ _ _ hf => exact ⟨_, form hf, new hc⟩
          · cases h3 with
            | value hc => cases h2 with | object _ _ _ hf => exact ⟨_, form hf, new hc⟩

/-! ### While the function runs -/

/-- The receiver and the objects that `std::shared_ptr` arguments own stay alive until `invoke` returns,
whatever the function and other threads do with references. -/
theorem invoke_keeps_owned {h h1 h2 h3 : Heap} (hr : CppReachable w h) {t : Nat} {e : Env}
    (he : h.envs t = some e) {target : Recipient} (ht : Ordinary h target.ref) {args : List InvokeArg}
    (hok : ∀ a ∈ args, ArgOk h a) {js : List JArg}
    (hx : h.invokeBegin w share t target args = .ok (h1, js)) {f : HookedFn} {temps : List Nat}
    {xs : List Arg} (hen : h1.invokeEnter w t target f js = .ok (h2, temps, xs))
    {ops : List (Nat × HeapOp)} (hrun : runHeap h2 ops = .ok h3) :
    Live h3 target.ref ∧ (∀ c i, .shared c (some i) ∈ args → Live h3 i) ∧
      ∀ i, .obj (.shared (some i)) ∈ xs → Live h3 i := by
  have B := invokeBegin_ok hr.inv he ht hok hx
  have ht1 : Ordinary h1 target.ref := ordinary_step (h := h.hold (invokeOwned target args)) B.step ht
  have E := invokeEnter_ok B.inv.toPre ht1 B.holding hen
  have hi3 := E.inv.runHeap hrun
  have hh3 := E.holding.mono (pins_runHeap E.inv hrun)
  refine ⟨hh3.live hi3.toPre (List.mem_append_right _ List.mem_cons_self), fun c i hm => ?_, fun i hm => ?_⟩
  · exact hh3.live hi3.toPre (List.mem_append_right _ (List.mem_cons_of_mem _
      (List.mem_filterMap.2 ⟨_, hm, rfl⟩)))
  · obtain ⟨self, rfl, _⟩ := E.temps
    exact hh3.live hi3.toPre (List.mem_append_left _ (List.mem_append_right _
      (List.mem_filterMap.2 ⟨_, hm, rfl⟩)))

/-- All other arguments that are objects, in particular the copies, are kept by their local references
only: they are alive unless this thread deletes a local reference to them, pops the frame or detaches. -/
theorem invoke_keeps_local {h h1 h2 h3 : Heap} (hr : CppReachable w h) {t : Nat} {e : Env}
    (he : h.envs t = some e) {target : Recipient} (ht : Ordinary h target.ref) {args : List InvokeArg}
    (hok : ∀ a ∈ args, ArgOk h a) {js : List JArg}
    (hx : h.invokeBegin w share t target args = .ok (h1, js)) {f : HookedFn} {temps : List Nat}
    {xs : List Arg} (hen : h1.invokeEnter w t target f js = .ok (h2, temps, xs))
    {ops : List (Nat × HeapOp)} (hrun : runHeap h2 ops = .ok h3) {i : Nat} (hi : i ∈ handedLocals args js)
    (hs : Along (fun h u op => u = t → Spares t i e.frames.length h op) h2 ops) :
    HasLocal h3 t i ∧ Live h3 i := by
  have B := invokeBegin_ok hr.inv he ht hok hx
  have ht1 : Ordinary h1 target.ref := ordinary_step (h := h.hold (invokeOwned target args)) B.step ht
  have E := invokeEnter_ok B.inv.toPre ht1 B.holding hen
  obtain ⟨k, hpu, _⟩ := B.locals
  obtain ⟨g, _, _, hpu2, rfl⟩ := E.received
  have hne := hr.inv.frames t e he
  cases hf : e.frames with
  | nil => exact absurd hf hne
  | cons a fs =>
    have he2 := hpu2.env _ (hpu.env e he)
    have he3 := (congrFun (collect_rest (g.hold temps)).envs t).trans he2
    obtain ⟨e', x, y, he', hf', _, z, hzy, hiz⟩ :=
      Along.induct (Q := fun h => ∃ e' inner out, h.envs t = some e' ∧ e'.frames = inner ++ out ∧
          out.length = e.frames.length ∧ ∃ f ∈ out, i ∈ f)
        (fun h u op h' out hi hq hp hx => Heap.spares_run hi.toPre (by rw [hf]; simp) hx hp hq) E.inv
        ⟨_, [], _, he3, rfl, by rw [hf]; rfl, by
          rw [hf]
          exact ⟨_, List.mem_cons_self, by simp [hi]⟩⟩ hs hrun
    have hl : HasLocal h3 t i := ⟨e', he', z, by rw [hf']; simp [hzy], hiz⟩
    exact ⟨hl, hasLocal_live (E.inv.runHeap hrun) hl⟩

/-! ### The result -/

/-- A returned `std::shared_ptr` becomes a local reference to the same object, which is alive after the call
even if only the arguments owned it; a `jobject` is returned as it is. -/
theorem invoke_result {h h' : Heap} (hr : CppReachable w h) {t : Nat} {target : Recipient}
    (ht : Ordinary h target.ref) {args : List InvokeArg} (hok : ∀ a ∈ args, ArgOk h a) {f : HookedFn}
    {r : Option Nat} {xs : List Arg} (hx : h.invoke w share t target args f = .ok (h', r, xs)) :
    (∀ k o, f.returns = .shared k o → r = o ∧ ∀ i, o = some i → HasLocal h' t i ∧ Live h' i) ∧
    (∀ o, f.returns = .jobject o → r = o) ∧ (f.returns = .void → r = none) := by
  obtain ⟨e, h1, js, h2, temps, h3, h4, _, _, _, _, _, _, hi3, hh3, hlv, hi4, hh4, rfl, hi'⟩ :=
    Heap.invoke_ok hr.inv ht hok hx
  obtain ⟨h5, h6, _, hi5, _, _, hc, _, rfl, _, _⟩ := Heap.hookLeave_ok hi3 hh3.drop hlv
  refine ⟨fun k o hret => ?_, fun o hret => ?_, fun hret => ?_⟩
  · rw [hret] at hc
    have hc : h5.toJNI? t (h5.staticClass w k) o = .ok (h6, r) := hc
    obtain ⟨rfl, _⟩ := Heap.pushed_toJNI? hc
    refine ⟨rfl, ?_⟩
    rintro i rfl
    obtain ⟨h7, h8, h9⟩ := Res.bind_eq_ok.1 hc
    cases h9
    have hl := hasLocal_end (os := invokeOwned target args)
      (hasLocal_end (os := ObjRet.owned f.returns) (toJNI_local hi5.toPre h8))
    exact ⟨hl, hasLocal_live hi' hl⟩
  · rw [hret] at hc; cases hc; rfl
  · rw [hret] at hc; cases hc; rfl

/-! ### What a call leaves behind -/

/-- A function that itself does nothing with references and returns nothing: the call leaves a local
reference for the receiver, for its class, for each object among the arguments and for each pointer
parameter.  It releases nothing. -/
theorem invoke_leaves {h h' : Heap} (hr : CppReachable w h) {t : Nat} {e : Env} (he : h.envs t = some e)
    {a : List Nat} {fs : List (List Nat)} (hf : e.frames = a :: fs) {target : Recipient}
    (ht : Ordinary h target.ref) {args : List InvokeArg} (hok : ∀ a ∈ args, ArgOk h a) {f : HookedFn}
    (hb : f.body = []) (hret : f.returns = .void) {r : Option Nat} {xs : List Arg}
    (hx : h.invoke w share t target args f = .ok (h', r, xs)) :
    ∃ h1 js k, HandedAll w share h h1 args js ∧ ClassLocal w share h target args k ∧
      h'.envs t = some { e with frames := (a ++ (target.ref :: handedLocals args js ++ k.toList ++
        receivedLocals f.params xs)) :: fs } ∧
      (∀ u, u ≠ t → h'.envs u = h.envs u) ∧ h'.globals = h.globals ∧ h'.pinned = h.pinned ∧
      ∀ i o, h.objs i = some o → ∃ o', h'.objs i = some o' ∧ o'.kind = o.kind := by
  obtain ⟨e', h1, js, k, _, hh, hk, s, hkind, _, _, hpi, rfl, hpu⟩ := Heap.invoke_idle hr.inv ht hok hb hret hx
  refine ⟨h1, js, k, hh, hk, ?_, s.others, hpu.globals, hpi, hkind⟩
  rw [hpu.env e he, hf]; rfl

/-- `n` such calls in a row. -/
def invokeTimes (w : CppTypes) (share : Bool) (t : Nat) (target : Recipient) (args : List InvokeArg)
    (f : HookedFn) : Nat → Heap → Res Heap
  | 0, h => .ok h
  | n + 1, h => (h.invoke w share t target args f).bind fun (h, _, _) =>
      invokeTimes w share t target args f n h

/-- Local references pile up: after `n` calls in a row the frame has at least `n` references to the
receiver more, which only popping the frame (or detaching) removes together. -/
theorem invoke_leak {h h' : Heap} (hr : CppReachable w h) {t : Nat} {e : Env} (he : h.envs t = some e)
    {a : List Nat} {fs : List (List Nat)} (hf : e.frames = a :: fs) {target : Recipient}
    (ht : Ordinary h target.ref) {args : List InvokeArg} (hok : ∀ a ∈ args, ArgOk h a) {f : HookedFn}
    (hb : f.body = []) (hret : f.returns = .void) {n : Nat}
    (hx : invokeTimes w share t target args f n h = .ok h') :
    ∃ b e', h'.envs t = some e' ∧ e'.frames = (a ++ b) :: fs ∧ n ≤ b.count target.ref := by
  induction n generalizing h e a with
  | zero => cases hx; exact ⟨[], e, he, by rw [hf, List.append_nil], Nat.zero_le _⟩
  | succ n ih =>
    obtain ⟨⟨h1, r, xs⟩, hx1, hx2⟩ := Res.bind_eq_ok.1 hx
    obtain ⟨_, _, js, k, _, _, _, s, _, _, hc, _, _, hpu⟩ := Heap.invoke_idle hr.inv ht hok hb hret hx1
    have he1 := hpu.env e he
    obtain ⟨b, e', h2, h3, h4⟩ := ih (.invoke hr ht hok hx1) he1 (by rw [hf]; rfl) (ordinary_step s ht)
      (fun x hx => argOk_step s hc (hok x hx)) hx2
    refine ⟨target.ref :: handedLocals args js ++ k.toList ++ receivedLocals f.params xs ++ b, e', h2, ?_, ?_⟩
    · rw [h3]; simp
    · simp only [List.cons_append, List.append_assoc, List.count_cons_self, List.count_append]
      omega

/-! ### Concrete calls -/

/-- A number, the global reference 10 to object 9, object 9 itself in two ways, and two objects that are not
on the heap. -/
def sampleArgs : List InvokeArg :=
  [.prim .int 5#64, .jobject (some 10), .shared (.cls 7) (some 9), .pointer (.cls 7) (some 9),
    .unowned (.cls 7) none, .value (.cls 7) (some 0)]

/-- A member function of class 7 that takes them. -/
def sampleCallee : HookedFn :=
  ⟨some (.cls 7), [.prim .int, .obj (.shared (.cls 7)), .obj (.ref (.cls 7)), .obj (.pointer (.cls 7)),
    .obj (.value (.cls 7)), .obj .jobject], [], .void⟩

theorem sampleArgs_match : MatchesAll sampleArgs sampleCallee.params :=
  .cons (.number (by decide) (by decide)) (.cons (.object (by simp)) (.cons (.object (by simp))
    (.cons (.object (by simp)) (.cons (.object (by simp)) (.cons (.object (by simp)) .nil)))))

/-- What the calls below need, decided. -/
def sampleCheck (h : Heap) : Bool :=
  ((h.envs 0).any fun e => e.frames == [[9]]) && ((h.objs 9).any fun o => o.kind == .plain) &&
  (h.objs 10).isSome && h.classes.map (·.2) == [8, 7, 6, 5, 4, 3, 2, 1, 0]

theorem sampleCheck_sound {h : Heap} (hc : sampleCheck h = true) :
    (∃ e, h.envs 0 = some e ∧ e.frames = [[9]]) ∧ Ordinary h 9 ∧ ∀ a ∈ sampleArgs, ArgOk h a := by
  simp only [sampleCheck, Bool.and_eq_true, Option.any_eq_true, beq_iff_eq] at hc
  obtain ⟨⟨⟨⟨e, he, hf⟩, o, ho, hk⟩, h10⟩, hcl⟩ := hc
  have h9 : Ordinary h 9 := ⟨o, ho, fun t => by rw [hk]; exact ⟨by simp, by simp⟩⟩
  refine ⟨⟨e, he, hf⟩, h9, fun a ha => ?_⟩
  simp only [sampleArgs, List.mem_cons, List.not_mem_nil, or_false] at ha
  rcases ha with rfl | rfl | rfl | rfl | rfl | rfl
  · exact True.intro
  · exact Option.isSome_iff_exists.1 h10
  · intro i hi; cases hi; exact h9
  · intro i hi; cases hi; exact h9
  · exact fun _ h => nomatch h
  · intro k hk; cases hk
    have : 0 ∈ h.classes.map (·.2) := by rw [hcl]; decide
    obtain ⟨⟨n, c⟩, hm, rfl⟩ := List.mem_map.1 this
    exact ⟨n, hm⟩

/-- All of this passed with pointers that can be shared, and what the call leaves (`invoke_hands_over`,
`invoke_copies`, `invoke_begin_frame`, `invoke_received`, `invoke_leaves`).  Object 9 arrives as itself. -/
example : ∃ h h' e, CppReachable sampleTypes h ∧ h.envs 0 = some e ∧ e.frames = [[9]] ∧
    Ordinary h (Recipient.obj 9).ref ∧ (∀ a ∈ sampleArgs, ArgOk h a) ∧
    h.invoke sampleTypes true 0 (.obj 9) sampleArgs sampleCallee = .ok (h', none,
      [.bits 5#64, .obj (.shared (some 9)), .obj (.ref 9), .obj (.pointer (some 9)), .obj (.copy 11),
        .obj (.handle (some 12))]) ∧
    (h'.envs 0).map (·.frames) = some [[9, 9, 9, 9, 11, 12, 0, 9]] := by
  obtain ⟨h, hx, hr, hp⟩ := reachable_of (ops := sampleObject)
    (p := fun h => sampleCheck h &&
      (h.invoke sampleTypes true 0 (.obj 9) sampleArgs sampleCallee).holds fun y =>
        y.2 == (none, [.bits 5#64, .obj (.shared (some 9)), .obj (.ref 9), .obj (.pointer (some 9)),
          .obj (.copy 11), .obj (.handle (some 12))]) &&
        (y.1.envs 0).map (·.frames) == some [[9, 9, 9, 9, 11, 12, 0, 9]])
    (by decide +kernel)
  simp only [Bool.and_eq_true, Res.holds_iff, beq_iff_eq] at hp
  obtain ⟨hc, ⟨h', r, xs⟩, h1, h2, h3⟩ := hp
  obtain ⟨⟨e, he, hf⟩, h9, hok⟩ := sampleCheck_sound hc
  cases h2
  exact ⟨h, h', e, .of_hook (.of_heap hr), he, hf, h9, hok, h1, h3⟩

/-- The same call compiled as C++14, which is what the targets of the library ask for
(CMakeLists.txt:12): the function gets the new object 11 for the pointer to object 9, so its changes
to the argument are lost for the caller. -/
theorem pointer_copied_cpp14 : ∃ h h' e, CppReachable sampleTypes h ∧ h.envs 0 = some e ∧
    Ordinary h (Recipient.obj 9).ref ∧ (∀ a ∈ sampleArgs, ArgOk h a) ∧
    sampleArgs[3]? = some (.pointer (.cls 7) (some 9)) ∧
    h.invoke sampleTypes false 0 (.obj 9) sampleArgs sampleCallee = .ok (h', none,
      [.bits 5#64, .obj (.shared (some 9)), .obj (.ref 9), .obj (.pointer (some 11)), .obj (.copy 12),
        .obj (.handle (some 13))]) ∧ ¬ Live h 11 := by
  obtain ⟨h, hx, hr, hp⟩ := reachable_of (ops := sampleObject)
    (p := fun h => sampleCheck h && (h.objs 11).isNone &&
      (h.invoke sampleTypes false 0 (.obj 9) sampleArgs sampleCallee).holds fun y =>
        y.2 == (none, [.bits 5#64, .obj (.shared (some 9)), .obj (.ref 9), .obj (.pointer (some 11)),
          .obj (.copy 12), .obj (.handle (some 13))]))
    (by decide +kernel)
  simp only [Bool.and_eq_true, Res.holds_iff, beq_iff_eq] at hp
  obtain ⟨⟨hc, hn⟩, ⟨h', r, xs⟩, h1, h2⟩ := hp
  obtain ⟨⟨e, he, hf⟩, h9, hok⟩ := sampleCheck_sound hc
  cases h2
  refine ⟨h, h', e, .of_hook (.of_heap hr), he, h9, hok, rfl, h1, ?_⟩
  rintro ⟨o, ho⟩
  simp [ho] at hn

/-- Another thread works between the two sides and then the function itself deletes every reference it can
reach; the receiver and what `std::shared_ptr`s own are still there (`invoke_args_arrive`,
`invoke_enters`, `invoke_keeps_owned`). -/
example : ∃ h h1 h2 h3 h4 js temps xs, CppReachable sampleTypes h ∧
    h.invokeBegin sampleTypes true 0 (.obj 9) sampleArgs = .ok (h1, js) ∧
    runHeap h1 [(1, .attach), (1, .newObject none), (1, .newLocalRef (some 10))] = .ok h2 ∧
    (∀ r, .jobject r ∈ sampleArgs → Valid h2 r) ∧ MatchesAll sampleArgs sampleCallee.params ∧
    h2.invokeEnter sampleTypes 0 (.obj 9) sampleCallee js = .ok (h3, temps, xs) ∧
    runHeap h3 [(0, .deleteGlobalRef (some 10)), (1, .detach), (0, .detach)] = .ok h4 ∧ Live h4 9 ∧
    ¬ Live h4 11 := by
  obtain ⟨h, hx, hr, hp⟩ := reachable_of (ops := sampleObject)
    (p := fun h => sampleCheck h &&
      (h.invokeBegin sampleTypes true 0 (.obj 9) sampleArgs).holds fun y =>
      (runHeap y.1 [(1, .attach), (1, .newObject none), (1, .newLocalRef (some 10))]).holds fun h2 =>
      (h2.objs 10).isSome && (h2.invokeEnter sampleTypes 0 (.obj 9) sampleCallee y.2).holds fun z =>
      (runHeap z.1 [(0, .deleteGlobalRef (some 10)), (1, .detach), (0, .detach)]).holds fun h4 =>
        (h4.objs 9).isSome && (h4.objs 11).isNone)
    (by decide +kernel)
  simp only [Bool.and_eq_true, Res.holds_iff] at hp
  obtain ⟨hc, ⟨h1, js⟩, hx1, h2, hx2, h10, ⟨h3, temps, xs⟩, hx3, h4, hx4, h9, h11⟩ := hp
  refine ⟨h, h1, h2, h3, h4, js, temps, xs, .of_hook (.of_heap hr), hx1, hx2, fun r hm => ?_,
    sampleArgs_match, hx3, hx4, Option.isSome_iff_exists.1 h9, ?_⟩
  · simp [sampleArgs] at hm
    subst hm
    exact Option.isSome_iff_exists.1 h10
  · rintro ⟨o, ho⟩
    simp [ho] at h11

/-- Copy 11 is kept while the function makes an object and another thread comes (`invoke_keeps_local`). -/
example : ∃ h h1 h2 h3 e js temps xs, CppReachable sampleTypes h ∧ h.envs 0 = some e ∧
    h.invokeBegin sampleTypes true 0 (.obj 9) sampleArgs = .ok (h1, js) ∧ 11 ∈ handedLocals sampleArgs js ∧
    h1.invokeEnter sampleTypes 0 (.obj 9) sampleCallee js = .ok (h2, temps, xs) ∧
    Along (fun h u op => u = 0 → Spares 0 11 e.frames.length h op) h2 [(0, .newObject none), (1, .attach)] ∧
    runHeap h2 [(0, .newObject none), (1, .attach)] = .ok h3 ∧ Live h3 11 := by
  obtain ⟨h, hx, hr, hp⟩ := reachable_of (ops := sampleObject)
    (p := fun h => sampleCheck h &&
      (h.invokeBegin sampleTypes true 0 (.obj 9) sampleArgs).holds fun y =>
      decide (11 ∈ handedLocals sampleArgs y.2) &&
      (y.1.invokeEnter sampleTypes 0 (.obj 9) sampleCallee y.2).holds fun z =>
      (runHeap z.1 [(0, .newObject none), (1, .attach)]).holds fun h3 => (h3.objs 11).isSome)
    (by decide +kernel)
  simp only [Bool.and_eq_true, Res.holds_iff, decide_eq_true_eq] at hp
  obtain ⟨hc, ⟨h1, js⟩, hx1, hm, ⟨h2, temps, xs⟩, hx2, h3, hx3, h11⟩ := hp
  obtain ⟨⟨e, he, hf⟩, h9, hok⟩ := sampleCheck_sound hc
  exact ⟨h, h1, h2, h3, e, js, temps, xs, .of_hook (.of_heap hr), he, hx1, hm, hx2,
    ⟨fun _ _ _ => True.intro, fun _ _ _ => ⟨(fun h => nomatch h), fun _ _ _ => True.intro⟩⟩, hx3,
    Option.isSome_iff_exists.1 h11⟩

/-- A function returns its argument, to which there is no reference any more when it returns
(`invoke_result`). -/
example : ∃ h h', CppReachable sampleTypes h ∧ Ordinary h 9 ∧
    h.invoke sampleTypes true 0 (.cls 0) [.shared (.cls 7) (some 9)] ⟨none, [.obj (.ref (.cls 7))],
      [(0, .deleteGlobalRef (some 10)), (0, .deleteLocalRef (some 9)), (0, .deleteLocalRef (some 9))],
      .shared (.cls 7) (some 9)⟩ = .ok (h', some 9, [.obj (.ref 9)]) ∧ Live h' 9 := by
  obtain ⟨h, hx, hr, hp⟩ := reachable_of (ops := sampleObject)
    (p := fun h => sampleCheck h &&
      (h.invoke sampleTypes true 0 (.cls 0) [.shared (.cls 7) (some 9)] ⟨none, [.obj (.ref (.cls 7))],
      [(0, .deleteGlobalRef (some 10)), (0, .deleteLocalRef (some 9)), (0, .deleteLocalRef (some 9))],
      .shared (.cls 7) (some 9)⟩).holds fun y => y.2 == (some 9, [.obj (.ref 9)]) && (y.1.objs 9).isSome)
    (by decide +kernel)
  simp only [Bool.and_eq_true, Res.holds_iff, beq_iff_eq] at hp
  obtain ⟨hc, ⟨h', r, xs⟩, h1, h2, h3⟩ := hp
  cases h2
  exact ⟨h, h', .of_hook (.of_heap hr), (sampleCheck_sound hc).2.1, h1, Option.isSome_iff_exists.1 h3⟩

/-- An object of another class for a parameter, or null for a reference: the call throws
(`invoke_args_or_throws`). -/
example : ∃ h, CppReachable sampleTypes h ∧
    (h.invoke sampleTypes true 0 (.obj 9) [.shared (.cls 7) (some 9)]
      ⟨none, [.obj (.ref (.cls 8))], [], .void⟩).holds (fun _ => true) = false ∧
    (match h.invoke sampleTypes true 0 (.cls 0) [.pointer (.cls 7) none]
      ⟨none, [.obj (.ref (.cls 7))], [], .void⟩ with | .throws .runtimeError => true | _ => false) = true := by
  obtain ⟨h, hx, hr, hp⟩ := reachable_of (ops := sampleObject)
    (p := fun h => !(h.invoke sampleTypes true 0 (.obj 9) [.shared (.cls 7) (some 9)]
      ⟨none, [.obj (.ref (.cls 8))], [], .void⟩).holds (fun _ => true) &&
    (match h.invoke sampleTypes true 0 (.cls 0) [.pointer (.cls 7) none]
      ⟨none, [.obj (.ref (.cls 7))], [], .void⟩ with | .throws .runtimeError => true | _ => false))
    (by decide +kernel)
  simp only [Bool.and_eq_true, Bool.not_eq_true'] at hp
  exact ⟨h, .of_hook (.of_heap hr), hp.1, hp.2⟩

/-- Three static calls of a function without arguments: three references to the class (`invoke_leak`). -/
example : ∃ h h' e, CppReachable sampleTypes h ∧
    invokeTimes sampleTypes true 0 (.cls 3) [] ⟨none, [], [], .void⟩ 3 h = .ok h' ∧
    h'.envs 0 = some e ∧ e.frames = [[9, 3, 3, 3]] := by
  obtain ⟨h, hx, hr, hp⟩ := reachable_of (ops := sampleObject)
    (p := fun h => (invokeTimes sampleTypes true 0 (.cls 3) [] ⟨none, [], [], .void⟩ 3 h).holds fun h' =>
      (h'.envs 0).any fun e => e.frames == [[9, 3, 3, 3]]) (by decide +kernel)
  simp only [Res.holds_iff, Option.any_eq_true, beq_iff_eq] at hp
  obtain ⟨h', h1, e, he, hf⟩ := hp
  exact ⟨h, h', e, .of_hook (.of_heap hr), h1, he, hf⟩

/-- Object 9 has no class and gets the one of the first argument that passes it (`pass_gives_class`). -/
example : ∃ h h1 js, CppReachable sampleTypes h ∧
    Heap.passAll sampleTypes true 0 h sampleArgs = .ok (h1, js) ∧
    (h.objs 9).map (·.cls) = some none ∧ (h1.objs 9).map (·.cls) = some (some 0) := by
  obtain ⟨h, hx, hr, hp⟩ := reachable_of (ops := sampleObject)
    (p := fun h => (h.objs 9).map (·.cls) == some none &&
      (Heap.passAll sampleTypes true 0 h sampleArgs).holds fun y =>
        (y.1.objs 9).map (·.cls) == some (some 0)) (by decide +kernel)
  simp only [Bool.and_eq_true, Res.holds_iff, beq_iff_eq] at hp
  obtain ⟨h1, ⟨h2, js⟩, h3, h4⟩ := hp
  exact ⟨h, h2, js, .of_hook (.of_heap hr), h3, h1, h4⟩

end Jnivm
