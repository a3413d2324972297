import Verif.Spec.Unwind
import Verif.Lemmas.InvokeCall
import Verif.Lemmas.LocalFrame
import Verif.Lemmas.Except
/-!
Programs that call hooked functions: helper lemmas.
-/
namespace Jnivm
open Spec
open Heap hiding Live

variable {w : CppTypes} {share : Bool}

theorem isOrdinary_iff {h : Heap} {i : Nat} : h.isOrdinary i = true ↔ Ordinary h i := by
  unfold isOrdinary Ordinary
  cases ho : h.objs i with
  | none => simp
  | some o =>
    simp only [Option.any_some, Bool.not_eq_true', isWrapper_iff]
    exact ⟨fun hk => ⟨o, rfl, hk⟩, fun ⟨o', h1, hk⟩ => by cases h1; exact hk⟩

theorem isGiven_iff {h : Heap} {a : InvokeArg} : h.isGiven a = true ↔ ArgOk h a := by
  have hcls : ∀ cls : Option Nat, (cls.all fun k => (h.classes.map (·.2)).contains k) = true ↔
      ∀ k, cls = some k → ∃ n, (n, k) ∈ h.classes := by
    intro cls
    cases cls with
    | none => simp
    | some k =>
      simp only [Option.all_some, List.contains_iff_mem, List.mem_map, Option.some.injEq, forall_eq']
      exact ⟨fun ⟨⟨n, c⟩, hm, hc⟩ => ⟨n, by subst hc; exact hm⟩, fun ⟨n, hm⟩ => ⟨(n, k), hm, rfl⟩⟩
  have hord : ∀ o : Option Nat, (o.all h.isOrdinary) = true ↔ ∀ i, o = some i → Ordinary h i := by
    intro o
    cases o with
    | none => simp
    | some i => simp [isOrdinary_iff]
  cases a with
  | prim ty v => simp [isGiven, ArgOk]
  | jobject r =>
    cases r with
    | none => simp [isGiven, ArgOk, Valid]
    | some i => simp [isGiven, ArgOk, Valid, Spec.Live, Option.isSome_iff_exists]
  | shared c o => exact hord o
  | pointer c o => exact hord o
  | unowned c cls => exact hcls cls
  | value c cls => exact hcls cls

theorem legal_iff {h : Heap} {target : Recipient} {args : List InvokeArg} :
    (h.isOrdinary target.ref && args.all h.isGiven) = true ↔
      Ordinary h target.ref ∧ ∀ a ∈ args, ArgOk h a := by
  rw [Bool.and_eq_true, isOrdinary_iff, List.all_eq_true]
  exact and_congr_right fun _ => forall_congr' fun a => forall_congr' fun _ => isGiven_iff

/-! ### Pending exceptions are throwables -/

def PendOk (h : Heap) : Prop := ∀ t e i, h.envs t = some e → e.pending = some i →
  ∃ o p, h.objs i = some o ∧ o.kind = .throwable p

structure Sound (h : Heap) : Prop where
  inv : h.Inv
  pend : PendOk h

theorem Sound.initial : Sound Heap.initial := ⟨Heap.initial_inv, HeapReachable.initial.pending⟩

theorem Sound.op {h h' : Heap} (hs : Sound h) {t : Nat} {op : HeapOp} {out : Out}
    (hx : op.run h t = .ok (h', out)) : Sound h' := ⟨hs.inv.run hx, Heap.pending_run hs.inv hx hs.pend⟩

theorem PendOk.collect {h : Heap} (hp : h.Pre) (hq : PendOk h) : PendOk h.collect := by
  intro t e i he hpe
  obtain ⟨o', ho'⟩ := hp.collect.toPre.rootsEnv he (.inr hpe)
  rw [collect_envs] at he
  obtain ⟨o, p, ho, hk⟩ := hq t e i he hpe
  rw [collect_sub ho'] at ho
  cases ho
  exact ⟨o', p, ho', hk⟩

theorem throwable_same {a b : Kind} {p : Option Exn} (ha : a = .throwable p) (hs : a.Same b) :
    b = .throwable p := by
  subst ha
  cases b <;> simp only [Kind.Same, reduceCtorEq] at hs
  exact hs.symm

/-- Only local references are added. -/
structure Calm (t : Nat) (h h' : Heap) : Prop where
  step : Step t h h'
  pushed : ∃ l, Pushed t l h h'

theorem Calm.refl {h : Heap} (t : Nat) (hp : h.Pre) : Calm t h h := ⟨Step.refl t hp, [], Pushed.refl t h⟩

theorem Calm.trans {t : Nat} {a b c : Heap} (x : Calm t a b) (y : Calm t b c) : Calm t a c := by
  obtain ⟨l, hl⟩ := x.pushed
  obtain ⟨m, hm⟩ := y.pushed
  exact ⟨x.step.trans y.step, _, hl.trans hm⟩

theorem Calm.pend {t : Nat} {h h' : Heap} (c : Calm t h h') {e : Env} (he : h.envs t = some e)
    (hq : PendOk h) : PendOk h' := by
  intro u e' i he' hpe
  have key : ∃ e0, h.envs u = some e0 ∧ e0.pending = some i := by
    by_cases hu : u = t
    · subst hu
      obtain ⟨l, hl⟩ := c.pushed
      rw [hl.env e he] at he'
      injection he' with he'
      subst he'
      exact ⟨e, he, hpe⟩
    · rw [c.step.others u hu] at he'
      exact ⟨e', he', hpe⟩
  obtain ⟨e0, he0, hp0⟩ := key
  obtain ⟨o, p, ho, hk⟩ := hq u e0 i he0 hp0
  obtain ⟨o', ho', hs, _⟩ := c.step.live i o ho
  exact ⟨o', p, ho', throwable_same hk hs⟩

theorem Calm.all {t : Nat} {h h' : Heap} (c : Calm t h h') : EvolvesAll t h h' := by
  intro e he
  obtain ⟨l, hl⟩ := c.pushed
  exact ⟨_, l, hl.env e he, rfl, rfl⟩

theorem EvolvesAll.evolves {t : Nat} {h h' : Heap} (c : EvolvesAll t h h') : Evolves t h h' := by
  intro e he
  obtain ⟨e', l, h1, h2, h3⟩ := c e he
  exact ⟨e', l, e.frames, h1, h2, .refl _, h3⟩

theorem pins_hold {h h' : Heap} {os : List Nat} (x : Pins (h.hold os) h') : Pins h (h'.letGo os) := by
  obtain ⟨l, h5, h6⟩ := x
  refine ⟨l, ?_, h6⟩
  show os.foldl _ h'.pinned = _
  rw [h5]
  show os.foldl _ ((os ++ h.pinned) ++ l) = _
  rw [List.append_assoc, foldl_erase]

theorem pins_collect (h : Heap) : Pins h h.collect := Pins.of_eq (collect_pinned h) (collect_classes h)

theorem pins_collect' (h : Heap) : Pins h.collect h :=
  Pins.of_eq (collect_pinned h).symm (collect_classes h).symm

/-! ### Pieces of a call -/

theorem receiveStop_calm {ps : List Param} {h : Heap} (hp : h.Pre) {t : Nat} {js : List JArg} :
    Calm t h (receiveStop w t h ps js) := by
  induction ps generalizing h js with
  | nil => cases js <;> exact Calm.refl t hp
  | cons p ps ih =>
    cases js with
    | nil => exact Calm.refl t hp
    | cons j js =>
      rw [receiveStop]
      split
      · rename_i h1 x hx
        obtain ⟨s, hpu, _⟩ := receiveArg_step hp hx
        exact Calm.trans ⟨s, _, hpu⟩ (ih s.pre)
      · exact Calm.refl t hp

theorem enterStop_calm {h : Heap} (hp : h.Pre) {t : Nat} {target : Recipient} {f : HookedFn} {js : List JArg} :
    Calm t h (h.enterStop w t target f js) := by
  unfold enterStop
  split
  · exact receiveStop_calm hp
  · exact Calm.refl t hp

theorem convertResult_calm {h h' : Heap} (hp : h.Pre) {t : Nat} {ret : ObjRet} {r : Option Nat}
    (hx : h.convertResult w t ret = .ok (h', r)) : Calm t h h' := by
  refine ⟨convertResult_step hp hx, ?_⟩
  cases ret with
  | void => cases hx; exact ⟨[], Pushed.refl t _⟩
  | jobject r => cases hx; exact ⟨[], Pushed.refl t _⟩
  | shared c o => exact ⟨_, (pushed_toJNI? hx).2⟩
  | value c o =>
    obtain ⟨⟨h1, k⟩, hx1, hx2⟩ := Res.bind_eq_ok.1 hx
    obtain ⟨_, _, _, cls, rfl, _⟩ := copyOf_ok hp t hx1
    exact ⟨_, (Pushed.of_eq (t := t) rfl rfl : Pushed t [] h (h.alloc ⟨.plain, cls⟩).1).trans (pushed_toJNI? hx2).2⟩

theorem raise_inv {h : Heap} (hi : h.Inv) {t : Nat} {env : Env} (he : h.envs t = some env) (e : Exn) :
    ∃ h' o, (HeapOp.raise e).run h t = .ok (h', .unit) ∧
      h'.envs t = some { env with pending := some h.next } ∧ h'.objs h.next = some o ∧
      o.kind = .throwable (some e) ∧ ∀ u, u ≠ t → h'.envs u = h.envs u := by
  have hx : (HeapOp.raise e).exec h t = .ok (((h.alloc ⟨.throwable (some e), none⟩).1).setEnv t
      { env with pending := some h.next }, .unit) := by
    rw [Heap.exec_of_body he]
    simp only [HeapOp.body, outUnit, Heap.raise]
    simp [Heap.env, Heap.alloc, Heap.setObj, he, Res.bind]
  have s := Heap.step_exec hi.toPre hx
  have hroot : h.next ∈ (((h.alloc ⟨.throwable (some e), none⟩).1).setEnv t
      { env with pending := some h.next }).roots :=
    Heap.mem_roots.2 (.inr (.inr ⟨t, _, s.pre.thread t { env with pending := some h.next } (by simp),
      Heap.setEnv_self _ _ _, by simp⟩))
  refine ⟨_, _, by rw [HeapOp.run, hx]; rfl, by simp, Heap.collect_keep s.pre.bound (.root hroot)
    (o := ⟨.throwable (some e), none⟩) (by simp), rfl, ?_⟩
  intro u hu
  simp [hu]

/-- The exception is stored. -/
theorem catchAll_ok {h h' : Heap} (hs : Sound h) {t : Nat} {temps : List Nat} (hh : Holding temps h) {e : Exn}
    (hx : h.catchAll t temps e = .ok h') : Sound h' ∧ Pins (h.letGo temps) h' ∧ EvolvesAll t h h' ∧
      (∀ u, u ≠ t → h'.envs u = h.envs u) ∧ Pends h' t (some e) := by
  obtain ⟨⟨h1, out⟩, hx1, hx2⟩ := Res.bind_eq_ok.1 hx
  injection hx2 with hx2
  subst hx2
  have hp := hs.inv.toPre.letGo hh
  have hs1 : Sound (h.letGo temps).collect := ⟨hp.collect, PendOk.collect hp hs.pend⟩
  obtain ⟨env, he⟩ : ∃ env, (h.letGo temps).collect.envs t = some env :=
    (exec_ok (run_ok hx1).choose_spec.1).2 rfl
  obtain ⟨h2, o, hr, he2, ho, hk, hot⟩ := raise_inv hs1.inv he e
  rw [hx1] at hr
  injection hr with hr; injection hr with hr _; subst hr
  refine ⟨hs1.op hx1, (pins_collect _).trans (pins_run hs1.inv.toPre hx1), ?_, ?_,
    ⟨_, _, o, he2, rfl, ho, hk⟩⟩
  · intro e' he'
    have : (h.letGo temps).collect.envs t = some e' := by rw [collect_envs]; exact he'
    rw [he] at this
    injection this with this
    subst this
    exact ⟨_, [], he2, rfl, (addFront_nil _).symm⟩
  · intro u hu
    rw [hot u hu, collect_envs]; rfl

theorem catchAll_exists {h : Heap} (hs : Sound h) {t : Nat} {temps : List Nat} (hh : Holding temps h) {env : Env}
    (he : h.envs t = some env) (e : Exn) : ∃ h', h.catchAll t temps e = .ok h' := by
  have hp := hs.inv.toPre.letGo hh
  have he1 : (h.letGo temps).collect.envs t = some env := by rw [collect_envs]; exact he
  obtain ⟨h2, o, hr, _⟩ := raise_inv hp.collect he1 e
  exact ⟨h2, by rw [catchAll, hr]; rfl⟩

/-- The function returns normally. -/
theorem hookLeave_stage {h h' : Heap} (hs : Sound h) {t : Nat} {temps : List Nat} (hh : Holding temps h)
    {env : Env} (he : h.envs t = some env) {ret : ObjRet} {r : Option Nat}
    (hx : h.hookLeave w t temps ret = .ok (h', r)) : Sound h' ∧ Pins (h.letGo temps) h' ∧
      EvolvesAll t h h' ∧ (∀ u, u ≠ t → h'.envs u = h.envs u) ∧
      (∃ env', h'.envs t = some env' ∧ env'.pending = env.pending) ∧
      ∀ e, Pends h t e → Pends h' t e := by
  obtain ⟨h1, h2, rfl, hi1, hh1, hl, hc, s, rfl, hp2, hi'⟩ := hookLeave_ok hs.inv hh hx
  have c := convertResult_calm hi1.toPre hc
  have hp0 : ((h.letGo temps).hold ret.owned).Pre := (hs.inv.toPre.letGo hh).hold hl
  have he1 : ((h.letGo temps).hold ret.owned).collect.envs t = some env := by rw [collect_envs]; exact he
  have hq1 : PendOk ((h.letGo temps).hold ret.owned).collect := PendOk.collect hp0 hs.pend
  have hq2 := c.pend he1 hq1
  have hq' : PendOk (h2.letGo ret.owned).collect := PendOk.collect hp2 hq2
  obtain ⟨l, hl⟩ := c.pushed
  have he' : (h2.letGo ret.owned).collect.envs t =
      some { env with frames := addFront l env.frames } := by
    rw [collect_envs]; exact hl.env _ he1
  refine ⟨⟨hi', hq'⟩, ?_, ?_, ?_, ⟨_, he', rfl⟩, ?_⟩
  · exact (pins_hold (((pins_collect _).trans s.pinned))).trans (pins_collect _)
  · intro e2 he2
    rw [he] at he2; injection he2 with he2; subst he2
    exact ⟨_, l, he', rfl, rfl⟩
  · intro u hu
    rw [collect_envs]
    refine (c.step.others u hu).trans ?_
    rw [collect_envs]; rfl
  · rintro e ⟨env0, x, o, he0, hpe, ho, hk⟩
    rw [he] at he0; injection he0 with he0; subst he0
    obtain ⟨o1, ho1⟩ := hi1.toPre.rootsEnv he1 (.inr hpe)
    have hoo := collect_sub ho1
    rw [show ((h.letGo temps).hold ret.owned).objs x = h.objs x from rfl, ho] at hoo
    cases hoo
    obtain ⟨o2, ho2, hs2, _⟩ := s.live x _ ho1
    obtain ⟨o3, ho3⟩ := hi'.toPre.rootsEnv he' (.inr hpe)
    have h4 := collect_sub ho3
    rw [show (h2.letGo ret.owned).objs x = h2.objs x from rfl, ho2] at h4
    cases h4
    exact ⟨_, x, _, he', hpe, ho3, throwable_same hk hs2⟩

/-- The end of `invoke`. -/
theorem invokeEnd_ok {h h' : Heap} (hs : Sound h) {t : Nat} {owned : List Nat} (hh : Holding owned h)
    {x : Option Exn} (hx : h.invokeEnd t owned = .ok (h', x)) :
    Sound h' ∧ h' = (h.letGo owned).collect ∧ h'.envs = h.envs ∧ (∀ e, Pends h t e ↔ Pends h' t e) ∧
      ((x = none ∧ ∃ env, h.envs t = some env ∧ env.pending = none) ∨
        ∃ e, x = some e ∧ Pends h t (some e)) := by
  have hp := hs.inv.toPre.letGo hh
  have hfin : Sound (h.letGo owned).collect := ⟨hp.collect, PendOk.collect hp hs.pend⟩
  have hpe : ∀ e, Pends h t e ↔ Pends (h.letGo owned).collect t e := by
    intro e
    constructor
    · rintro ⟨env, y, o, he, hy, ho, hk⟩
      have he' : (h.letGo owned).collect.envs t = some env := by rw [collect_envs]; exact he
      obtain ⟨o1, ho1⟩ := hfin.inv.toPre.rootsEnv he' (.inr hy)
      have := collect_sub ho1
      rw [show (h.letGo owned).objs y = h.objs y from rfl, ho] at this
      cases this
      exact ⟨env, y, _, he', hy, ho1, hk⟩
    · rintro ⟨env, y, o, he, hy, ho, hk⟩
      rw [collect_envs] at he
      exact ⟨env, y, o, he, hy, (collect_sub (h := h.letGo owned) ho :), hk⟩
  unfold invokeEnd at hx
  split at hx
  · exact nomatch hx
  · rename_i env he
    split at hx
    · rename_i hpn
      injection hx with hx; injection hx with h1 h2; subst h1 h2
      exact ⟨hfin, rfl, by rw [collect_envs]; rfl, hpe, .inl ⟨rfl, env, he, hpn⟩⟩
    · rename_i y hy
      split at hx
      · rename_i e _ ho
        injection hx with hx; injection hx with h1 h2; subst h1 h2
        exact ⟨hfin, rfl, by rw [collect_envs]; rfl, hpe, .inr ⟨e, rfl, env, y, _, he, hy, ho, rfl⟩⟩
      · exact nomatch hx
      · exact nomatch hx

theorem invokeEnd_pends {h : Heap} {t : Nat} {e : Exn} (hp : Pends h t (some e)) (owned : List Nat) :
    h.invokeEnd t owned = .ok ((h.letGo owned).collect, some e) := by
  obtain ⟨env, x, ⟨k, c⟩, he, hx, ho, hk⟩ := hp
  cases hk
  simp only [invokeEnd, he, hx, ho]

theorem invokeEnd_none {h : Heap} {t : Nat} {env : Env} (he : h.envs t = some env) (hp : env.pending = none)
    (owned : List Nat) : h.invokeEnd t owned = .ok ((h.letGo owned).collect, none) := by
  simp only [invokeEnd, he, hp]

theorem begin_env {h h1 : Heap} {t : Nat} {target : Recipient} {args : List InvokeArg} {js : List JArg}
    (hx : h.invokeBegin w share t target args = .ok (h1, js)) : ∃ e, h.envs t = some e := by
  unfold invokeBegin at hx
  obtain ⟨⟨g, _⟩, hb1, _⟩ := Res.bind_eq_ok.1 hx
  obtain ⟨g', hb2, _⟩ := Res.bind_eq_ok.1 hb1
  exact (toJNI_env hb2 :)

theorem enter_returns {h : Heap} {t : Nat} {target : Recipient} {this : Option CppClass} {ps : List Param}
    {b b' : List (Nat × HeapOp)} {r r' : ObjRet} {js : List JArg} :
    h.invokeEnter w t target ⟨this, ps, b, r⟩ js = h.invokeEnter w t target ⟨this, ps, b', r'⟩ js := rfl

theorem enterStop_returns {h : Heap} {t : Nat} {target : Recipient} {this : Option CppClass} {ps : List Param}
    {b b' : List (Nat × HeapOp)} {r r' : ObjRet} {js : List JArg} :
    h.enterStop w t target ⟨this, ps, b, r⟩ js = h.enterStop w t target ⟨this, ps, b', r'⟩ js := rfl

/-- The beginning of a call. -/
structure Started (w : CppTypes) (share : Bool) (t : Nat) (h : Heap) (target : Recipient) (args : List InvokeArg)
    (h1 : Heap) (js : List JArg) : Prop where
  legal : Ordinary h target.ref ∧ ∀ a ∈ args, ArgOk h a
  env : ∃ e, h.envs t = some e
  run : h.invokeBegin w share t target args = .ok (h1, js)
  begun : Begun w share t target args h h1 js
  calm : Calm t (h.hold (invokeOwned target args)) h1
  sound : Sound h1
  pins : Pins (h.hold (invokeOwned target args)) h1

theorem started {h h1 : Heap} (hs : Sound h) {t : Nat} {target : Recipient} {args : List InvokeArg}
    {js : List JArg} (hl : Ordinary h target.ref ∧ ∀ a ∈ args, ArgOk h a)
    (hx : h.invokeBegin w share t target args = .ok (h1, js)) : Started w share t h target args h1 js := by
  obtain ⟨e, he⟩ := begin_env hx
  have B := invokeBegin_ok hs.inv he hl.1 hl.2 hx
  obtain ⟨k, hpu, _⟩ := B.locals
  have c : Calm t (h.hold (invokeOwned target args)) h1 := ⟨B.step, _, hpu⟩
  exact ⟨hl, ⟨e, he⟩, hx, B, c, ⟨B.inv, c.pend (e := e) he hs.pend⟩, B.step.pinned⟩

/-- The function is entered. -/
structure Within (t : Nat) (h1 h2 : Heap) (temps os : List Nat) : Prop where
  sound : Sound h2
  holding : Holding (temps ++ os) h2
  mid : ∃ g, Calm t h1 g ∧ h2 = (g.hold temps).collect

theorem within {h h1 h2 : Heap} {t : Nat} {target : Recipient} {args : List InvokeArg} {js : List JArg}
    (S : Started w share t h target args h1 js) {f : HookedFn} {temps : List Nat} {xs : List Arg}
    (hx : h1.invokeEnter w t target f js = .ok (h2, temps, xs)) :
    Within t h1 h2 temps (invokeOwned target args) := by
  have B := S.begun
  have ht1 : Ordinary h1 target.ref := ordinary_step (h := h.hold (invokeOwned target args)) B.step S.legal.1
  have E := invokeEnter_ok B.inv.toPre ht1 B.holding hx
  obtain ⟨g, hg, s, hpu, rfl⟩ := E.received
  have c : Calm t h1 g := ⟨s, _, hpu⟩
  obtain ⟨e, he⟩ := S.env
  obtain ⟨l, hl⟩ := S.calm.pushed
  have he1 := hl.env e he
  have hlive : (g.hold temps).Pre := s.pre.hold fun i hi => by
    have := E.holding.live E.inv.toPre (List.mem_append_left _ hi)
    obtain ⟨o, ho⟩ := this
    exact ⟨o, (collect_sub (h := g.hold temps) ho :)⟩
  exact ⟨⟨E.inv, PendOk.collect hlive (c.pend he1 S.sound.pend)⟩, E.holding, g, c, rfl⟩

theorem Within.envs {t : Nat} {h1 h2 : Heap} {temps os : List Nat} (x : Within t h1 h2 temps os) :
    EvolvesAll t h1 h2 ∧ (∀ u, u ≠ t → h2.envs u = h1.envs u) ∧
      ∀ e, h1.envs t = some e → ∃ e', h2.envs t = some e' ∧ e'.pending = e.pending := by
  obtain ⟨g, c, rfl⟩ := x.mid
  obtain ⟨l, hl⟩ := c.pushed
  have he' : ∀ e, h1.envs t = some e → (g.hold temps).collect.envs t =
      some { e with frames := addFront l e.frames } := fun e he => by rw [collect_envs]; exact hl.env e he
  refine ⟨fun e he => ⟨_, l, he' e he, rfl, rfl⟩, fun u hu => ?_, fun e he => ⟨_, he' e he, rfl⟩⟩
  rw [collect_envs]
  exact c.step.others u hu

/-- The stages of an `invoke` that ends. -/
theorem invoke_stages {h h' : Heap} (hs : Sound h) {t : Nat} {target : Recipient} {args : List InvokeArg}
    {this : Option CppClass} {ps : List Param} {body : List ProgStmt} {ret : ObjRet} {x : Option Exn}
    (hx : (ProgStmt.invoke target args this ps body ret).run w share t h = .ok (h', x)) :
    ∃ h1 js, Started w share t h target args h1 js ∧
      ((∃ h2 temps xs h3 y h4, h1.invokeEnter w t target ⟨this, ps, [], .void⟩ js = .ok (h2, temps, xs) ∧
          Within t h1 h2 temps (invokeOwned target args) ∧
          runProg w share t h2 body = .ok (h3, y) ∧
          ((y = none ∧ ∃ r, h3.hookLeave w t temps ret = .ok (h4, r)) ∨
            ∃ e, y = some e ∧ h3.catchAll t temps e = .ok h4) ∧
          h4.invokeEnd t (invokeOwned target args) = .ok (h', x)) ∨
        ∃ e h4, h1.invokeEnter w t target ⟨this, ps, [], .void⟩ js = .throws e ∧
          (h1.enterStop w t target ⟨this, ps, [], .void⟩ js).catchAll t [] e = .ok h4 ∧
          h4.invokeEnd t (invokeOwned target args) = .ok (h', x)) := by
  rw [ProgStmt.run] at hx
  by_cases hl : (h.isOrdinary target.ref && args.all h.isGiven) = true
  · rw [if_pos hl] at hx
    obtain ⟨⟨h1, js⟩, hx1, hx2⟩ := Res.bind_eq_ok.1 hx
    dsimp only at hx2
    have S := started hs (legal_iff.1 hl) hx1
    refine ⟨h1, js, S, ?_⟩
    rw [enter_returns (b' := []) (r' := .void), enterStop_returns (b' := []) (r' := .void)] at hx2
    split at hx2
    · rename_i h2 temps xs hent
      obtain ⟨⟨h3, y⟩, hx3, hx4⟩ := Res.bind_eq_ok.1 hx2
      refine .inl ?_
      cases y with
      | none =>
        obtain ⟨⟨h4, r⟩, hx5, hx6⟩ := Res.bind_eq_ok.1 hx4
        exact ⟨h2, temps, xs, h3, none, h4, hent, within S hent, hx3, .inl ⟨rfl, r, hx5⟩, hx6⟩
      | some e =>
        obtain ⟨h4, hx5, hx6⟩ := Res.bind_eq_ok.1 hx4
        exact ⟨h2, temps, xs, h3, some e, h4, hent, within S hent, hx3, .inr ⟨e, rfl, hx5⟩, hx6⟩
    · rename_i e hent
      obtain ⟨h4, hx5, hx6⟩ := Res.bind_eq_ok.1 hx2
      exact .inr ⟨e, h4, hent, hx5, hx6⟩
    · exact nomatch hx2
    · exact nomatch hx2
  · rw [if_neg hl] at hx
    exact nomatch hx

theorem toJNI?_env {h h' : Heap} {t : Nat} {s i r : Option Nat} (hx : h.toJNI? t s i = .ok (h', r)) {e : Env}
    (he : h'.envs t = some e) : ∃ e, h.envs t = some e := by
  cases i with
  | none => cases hx; exact ⟨e, he⟩
  | some i =>
    obtain ⟨h1, hx1, _⟩ := Res.bind_eq_ok.1 hx
    exact toJNI_env hx1

theorem hookLeave_env {h h' : Heap} {t : Nat} {temps : List Nat} {ret : ObjRet} {r : Option Nat}
    (hx : h.hookLeave w t temps ret = .ok (h', r)) {e : Env} (he : h'.envs t = some e) :
    ∃ e, h.envs t = some e := by
  unfold hookLeave at hx
  split at hx
  · obtain ⟨⟨h2, r'⟩, hx1, hx2⟩ := Res.bind_eq_ok.1 hx
    injection hx2 with hx2; injection hx2 with hx2 _; subst hx2
    rw [collect_envs] at he
    have he2 : h2.envs t = some e := he
    have key : ∃ e, ((h.letGo temps).hold ret.owned).collect.envs t = some e := by
      cases ret with
      | void => cases hx1; exact ⟨e, he2⟩
      | jobject r => cases hx1; exact ⟨e, he2⟩
      | shared c o => exact toJNI?_env hx1 he2
      | value c o =>
        obtain ⟨⟨h1, k⟩, hx3, hx4⟩ := Res.bind_eq_ok.1 hx1
        obtain ⟨e1, he1⟩ := toJNI?_env hx4 he2
        cases o with
        | none => cases hx3; exact ⟨e1, he1⟩
        | some i =>
          dsimp only [copyOf] at hx3
          split at hx3
          · exact nomatch hx3
          · injection hx3 with hx3; injection hx3 with hx3 _; subst hx3; exact ⟨e1, he1⟩
    obtain ⟨e0, he0⟩ := key
    rw [collect_envs] at he0
    exact ⟨e0, he0⟩
  · exact nomatch hx

/-- From the end of the body to the end of the call. -/
structure Closed (t : Nat) (h : Heap) (os : List Nat) (h4 : Heap) (h' : Heap) (x : Option Exn) : Prop where
  sound4 : Sound h4
  pins4 : Pins (h.hold os) h4
  sound : Sound h'
  pins : Pins h h'
  envs : h'.envs = h4.envs
  pends : ∀ e, Pends h4 t e ↔ Pends h' t e
  ends : (x = none ∧ ∃ env, h4.envs t = some env ∧ env.pending = none) ∨ ∃ e, x = some e ∧ Pends h4 t (some e)

theorem close {h h4 h' : Heap} (hi : h.Inv) {t : Nat} {os : List Nat} (hs : Sound h4)
    (hp : Pins (h.hold os) h4) {x : Option Exn} (hx : h4.invokeEnd t os = .ok (h', x)) :
    Closed t h os h4 h' x := by
  have hh : Holding os h4 := (hi.toPre.holding os).mono hp
  obtain ⟨h1, h2, h3, h5, h6⟩ := invokeEnd_ok hs hh hx
  subst h2
  exact ⟨hs, hp, h1, (pins_hold hp).trans (pins_collect _), h3, h5, h6⟩

/-- The body has ended. -/
theorem leave_stage {h h1 h2 h3 h4 : Heap} {t : Nat} {target : Recipient} {args : List InvokeArg} {js : List JArg}
    (S : Started w share t h target args h1 js) {temps : List Nat}
    (W : Within t h1 h2 temps (invokeOwned target args)) (hs3 : Sound h3) (hp3 : Pins h2 h3) {ret : ObjRet}
    {y : Option Exn} {env4 : Env} (he4 : h4.envs t = some env4)
    (hx : (y = none ∧ ∃ r, h3.hookLeave w t temps ret = .ok (h4, r)) ∨
            ∃ e, y = some e ∧ h3.catchAll t temps e = .ok h4) :
    Sound h4 ∧ Pins (h.hold (invokeOwned target args)) h4 ∧ EvolvesAll t h3 h4 ∧
      (∀ u, u ≠ t → h4.envs u = h3.envs u) ∧
      (y = none → ∃ env, h3.envs t = some env ∧ env4.pending = env.pending ∧
        ∀ e, Pends h3 t e → Pends h4 t e) ∧
      ∀ e, y = some e → Pends h4 t (some e) := by
  have hh3 : Holding temps h3 := (W.holding.mono hp3).drop
  obtain ⟨g, c, hg⟩ := W.mid
  have hp1 : Pins g (h3.letGo temps) := by
    refine pins_hold ((pins_collect _).trans ?_)
    rw [← hg]; exact hp3
  have hpg : Pins (h.hold (invokeOwned target args)) (h3.letGo temps) :=
    (S.pins.trans c.step.pinned).trans hp1
  rcases hx with ⟨rfl, r, hx⟩ | ⟨e, rfl, hx⟩
  · obtain ⟨env3, he3⟩ := hookLeave_env hx he4
    obtain ⟨hs4, hp4, hev, hot, ⟨env', he', hpe⟩, hpk⟩ := hookLeave_stage hs3 hh3 he3 hx
    rw [he4] at he'; injection he' with he'; subst he'
    exact ⟨hs4, hpg.trans hp4, hev, hot, fun _ => ⟨env3, he3, hpe, hpk⟩, fun e he => (nomatch he)⟩
  · obtain ⟨hs4, hp4, hev, hot, hpd⟩ := catchAll_ok hs3 hh3 hx
    exact ⟨hs4, hpg.trans hp4, hev, hot, fun he => (nomatch he), fun e' he => by cases he; exact hpd⟩

/-- A conversion has thrown. -/
theorem refuse_stage {h h1 h4 : Heap} {t : Nat} {target : Recipient} {args : List InvokeArg} {js : List JArg}
    (S : Started w share t h target args h1 js) {f : HookedFn} {e : Exn}
    (hx : (h1.enterStop w t target f js).catchAll t [] e = .ok h4) :
    Sound h4 ∧ Pins (h.hold (invokeOwned target args)) h4 ∧ EvolvesAll t h1 h4 ∧
      (∀ u, u ≠ t → h4.envs u = h1.envs u) ∧ Pends h4 t (some e) := by
  have c : Calm t h1 (h1.enterStop w t target f js) := enterStop_calm S.begun.inv.toPre
  obtain ⟨e0, he0⟩ := S.env
  obtain ⟨l, hl⟩ := S.calm.pushed
  have he1 := hl.env e0 he0
  have hq := c.pend he1 S.sound.pend
  -- the state in between need not be collected
  obtain ⟨⟨h5, out⟩, hx1, hx2⟩ := Res.bind_eq_ok.1 hx
  injection hx2 with hx2
  subst hx2
  have hp0 := c.step.pre
  have e3 : (h1.enterStop w t target f js).letGo [] = h1.enterStop w t target f js := rfl
  rw [e3] at hx1
  have hs1 : Sound (h1.enterStop w t target f js).collect := ⟨hp0.collect, PendOk.collect hp0 hq⟩
  obtain ⟨l1, hl1⟩ := c.pushed
  have he2 : (h1.enterStop w t target f js).collect.envs t = _ := (collect_envs _ ▸ hl1.env _ he1 :)
  obtain ⟨h6, o, hr, he6, ho, hk, hot⟩ := raise_inv hs1.inv he2 e
  rw [hx1] at hr
  injection hr with hr; injection hr with hr _; subst hr
  refine ⟨hs1.op hx1, ((S.pins.trans c.step.pinned).trans (pins_collect _)).trans (pins_run hs1.inv.toPre hx1),
    ?_, ?_, ⟨_, _, o, he6, rfl, ho, hk⟩⟩
  · intro e' he'
    rw [he1] at he'; injection he' with he'; subst he'
    exact ⟨_, l1, he6, rfl, rfl⟩
  · intro u hu
    rw [hot u hu, collect_envs]
    exact c.step.others u hu

theorem refuse_exists {h h1 : Heap} {t : Nat} {target : Recipient} {args : List InvokeArg} {js : List JArg}
    (S : Started w share t h target args h1 js) (f : HookedFn) (e : Exn) :
    ∃ h4, (h1.enterStop w t target f js).catchAll t [] e = .ok h4 := by
  have c : Calm t h1 (h1.enterStop w t target f js) := enterStop_calm S.begun.inv.toPre
  obtain ⟨e0, he0⟩ := S.env
  obtain ⟨l, hl⟩ := S.calm.pushed
  obtain ⟨l1, hl1⟩ := c.pushed
  have he2 : (h1.enterStop w t target f js).collect.envs t = _ := (collect_envs _ ▸ hl1.env _ (hl.env e0 he0) :)
  have hi : (h1.enterStop w t target f js).collect.Inv := c.step.pre.collect
  obtain ⟨h6, o, hr, _⟩ := raise_inv hi he2 e
  refine ⟨h6, ?_⟩
  have e3 : (h1.enterStop w t target f js).letGo [] = h1.enterStop w t target f js := rfl
  rw [catchAll, e3, hr]; rfl

theorem end_env {h h' : Heap} {t : Nat} {os : List Nat} {x : Option Exn} (hx : h.invokeEnd t os = .ok (h', x)) :
    ∃ env, h.envs t = some env := by
  unfold invokeEnd at hx
  split at hx
  · exact nomatch hx
  · rename_i env he; exact ⟨env, he⟩

/-! ### Scopes -/

theorem callStmt_sound {h h' : Heap} (hs : Sound h) {t u : Nat} {op : HeapOp} {x : Option Exn}
    (hx : h.callStmt t u op = .ok (h', x)) : Sound h' ∧ Pins h h' := by
  unfold Heap.callStmt at hx
  split at hx
  · rename_i h1 out hrun
    injection hx with hx; injection hx with hx1 _; subst hx1
    exact ⟨hs.op hrun, pins_run hs.inv.toPre hrun⟩
  · injection hx with hx; injection hx with hx1 _; subst hx1
    exact ⟨hs, Pins.of_eq rfl rfl⟩
  · exact nomatch hx
  · exact nomatch hx

/-- What the constructor of `LocalFrame` is made of. -/
theorem enterFrame_ops {h h1 : Heap} {t : Nat} {vm made : Bool} (hx : h.enterFrame t vm = .ok (h1, made)) :
    (∃ e o, h.envs t = some e ∧ made = false ∧ HeapOp.pushLocalFrame.run h t = .ok (h1, o)) ∨
      ∃ h0 o o', h.envs t = none ∧ made = true ∧ HeapOp.attach.run h t = .ok (h0, o) ∧
        HeapOp.pushLocalFrame.run h0 t = .ok (h1, o') := by
  unfold Heap.enterFrame at hx
  split at hx
  · rename_i e he
    obtain ⟨⟨h2, o⟩, hx1, hx2⟩ := Res.bind_eq_ok.1 hx
    injection hx2 with hx2; injection hx2 with hx2 hx3; subst hx2 hx3
    exact .inl ⟨e, o, he, rfl, hx1⟩
  · rename_i he
    split at hx
    · obtain ⟨⟨h2, o⟩, hx1, hx2⟩ := Res.bind_eq_ok.1 hx
      obtain ⟨⟨h3, o3⟩, hx3, hx4⟩ := Res.bind_eq_ok.1 hx2
      injection hx4 with hx4; injection hx4 with hx4 hx5; subst hx4 hx5
      exact .inr ⟨h2, o, o3, he, rfl, hx1, hx3⟩
    · exact nomatch hx

theorem leaveFrame_ops {h h1 : Heap} {t : Nat} {made : Bool} (hx : h.leaveFrame t made = .ok h1) :
    ∃ h0 o, (HeapOp.popLocalFrame none).run h t = .ok (h0, o) ∧
      ((made = false ∧ h1 = h0) ∨ made = true ∧ ∃ o', HeapOp.detach.run h0 t = .ok (h1, o')) := by
  unfold Heap.leaveFrame at hx
  obtain ⟨⟨h2, o⟩, hx1, hx2⟩ := Res.bind_eq_ok.1 hx
  dsimp only at hx2
  refine ⟨h2, o, hx1, ?_⟩
  cases made with
  | false =>
    simp only [Bool.false_eq_true, if_false] at hx2
    injection hx2 with hx2; subst hx2
    exact .inl ⟨rfl, rfl⟩
  | true =>
    simp only [if_true] at hx2
    obtain ⟨⟨h3, o3⟩, hx3, hx4⟩ := Res.bind_eq_ok.1 hx2
    injection hx4 with hx4; subst hx4
    exact .inr ⟨rfl, o3, hx3⟩

theorem enterFrame_sound {h h1 : Heap} (hs : Sound h) {t : Nat} {vm made : Bool}
    (hx : h.enterFrame t vm = .ok (h1, made)) : Sound h1 ∧ Pins h h1 := by
  rcases enterFrame_ops hx with ⟨_, _, _, _, hr⟩ | ⟨_, _, _, _, _, hr, hr'⟩
  · exact ⟨hs.op hr, pins_run hs.inv.toPre hr⟩
  · have hs0 := hs.op hr
    exact ⟨hs0.op hr', (pins_run hs.inv.toPre hr).trans (pins_run hs0.inv.toPre hr')⟩

theorem leaveFrame_sound {h h1 : Heap} (hs : Sound h) {t : Nat} {made : Bool}
    (hx : h.leaveFrame t made = .ok h1) : Sound h1 ∧ Pins h h1 := by
  obtain ⟨h0, o, hr, hc⟩ := leaveFrame_ops hx
  have hs0 := hs.op hr
  have hp0 := pins_run hs.inv.toPre hr
  rcases hc with ⟨_, rfl⟩ | ⟨_, o', hr'⟩
  · exact ⟨hs0, hp0⟩
  · exact ⟨hs0.op hr', hp0.trans (pins_run hs0.inv.toPre hr')⟩

/-! ### Whole programs -/

mutual

theorem stmt_sound {h h' : Heap} (hs : Sound h) {t : Nat} {x : Option Exn} (s : ProgStmt)
    (hx : s.run w share t h = .ok (h', x)) : Sound h' ∧ Pins h h' := by
  cases s with
  | call u op =>
    rw [ProgStmt.run] at hx
    exact callStmt_sound hs hx
  | raise e =>
    rw [ProgStmt.run] at hx
    injection hx with hx; injection hx with hx1 _; subst hx1
    exact ⟨hs, Pins.of_eq rfl rfl⟩
  | attempt clear body =>
    rw [ProgStmt.run] at hx
    obtain ⟨⟨h1, y⟩, hx1, hx2⟩ := Res.bind_eq_ok.1 hx
    obtain ⟨hs1, hp1⟩ := prog_sound hs body hx1
    cases y with
    | none =>
      injection hx2 with hx2; injection hx2 with hx2 _; subst hx2
      exact ⟨hs1, hp1⟩
    | some e =>
      cases clear with
      | false =>
        simp only [Bool.false_eq_true, if_false] at hx2
        injection hx2 with hx2; injection hx2 with hx2 _; subst hx2
        exact ⟨hs1, hp1⟩
      | true =>
        simp only [if_true] at hx2
        obtain ⟨⟨h2, o⟩, hx3, hx4⟩ := Res.bind_eq_ok.1 hx2
        injection hx4 with hx4; injection hx4 with hx4 _; subst hx4
        exact ⟨hs1.op hx3, hp1.trans (pins_run hs1.inv.toPre hx3)⟩
  | frame vm body =>
    rw [ProgStmt.run] at hx
    split at hx
    · rename_i h1 made hent
      obtain ⟨⟨h2, y⟩, hx1, hx2⟩ := Res.bind_eq_ok.1 hx
      obtain ⟨h3, hx3, hx4⟩ := Res.bind_eq_ok.1 hx2
      injection hx4 with hx4; injection hx4 with hx4 _; subst hx4
      obtain ⟨hs1, hp1⟩ := enterFrame_sound hs hent
      obtain ⟨hs2, hp2⟩ := prog_sound hs1 body hx1
      obtain ⟨hs3, hp3⟩ := leaveFrame_sound hs2 hx3
      exact ⟨hs3, (hp1.trans hp2).trans hp3⟩
    · injection hx with hx; injection hx with hx1 _; subst hx1
      exact ⟨hs, Pins.of_eq rfl rfl⟩
    · exact nomatch hx
    · exact nomatch hx
  | invoke target args this ps body ret =>
    obtain ⟨h1, js, S, hc⟩ := invoke_stages hs hx
    rcases hc with ⟨h2, temps, xs, h3, y, h4, _, W, hb, hlv, hen⟩ | ⟨e, h4, _, hca, hen⟩
    · obtain ⟨hs3, hp3⟩ := prog_sound W.sound body hb
      obtain ⟨env4, he4⟩ := end_env hen
      obtain ⟨hs4, hp4, _⟩ := leave_stage S W hs3 hp3 he4 hlv
      have C := close hs.inv hs4 hp4 hen
      exact ⟨C.sound, C.pins⟩
    · obtain ⟨hs4, hp4, _⟩ := refuse_stage S hca
      have C := close hs.inv hs4 hp4 hen
      exact ⟨C.sound, C.pins⟩

theorem prog_sound {h h' : Heap} (hs : Sound h) {t : Nat} {x : Option Exn} (l : List ProgStmt)
    (hx : runProg w share t h l = .ok (h', x)) : Sound h' ∧ Pins h h' := by
  cases l with
  | nil =>
    rw [runProg] at hx
    injection hx with hx; injection hx with hx1 _; subst hx1
    exact ⟨hs, Pins.of_eq rfl rfl⟩
  | cons s l =>
    rw [runProg] at hx
    obtain ⟨⟨h1, y⟩, hx1, hx2⟩ := Res.bind_eq_ok.1 hx
    obtain ⟨hs1, hp1⟩ := stmt_sound hs s hx1
    cases y with
    | none =>
      obtain ⟨hs2, hp2⟩ := prog_sound hs1 l hx2
      exact ⟨hs2, hp1.trans hp2⟩
    | some e =>
      injection hx2 with hx2; injection hx2 with hx2 _; subst hx2
      exact ⟨hs1, hp1⟩

end

theorem _root_.Spec.ProgReachable.sound {w : CppTypes} {h : Heap} (hr : ProgReachable w h) : Sound h := by
  induction hr with
  | initial => exact .initial
  | run _ hx ih => exact (prog_sound ih _ hx).1

end Jnivm
