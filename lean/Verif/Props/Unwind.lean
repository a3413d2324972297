import Verif.Lemmas.UnwindProg
import Verif.Props.Invoke
import Verif.Props.LocalFrame
/-!
C72: an exception that leaves a hooked C++ function called through `Method::invoke` reaches the C++ caller, through
any number of such calls, and everything that was owned on the way is released.
-/
namespace Jnivm
open Spec
open Heap hiding Live

variable {w : CppTypes} {share : Bool}

/-! ## What `invoke` throws -/

/-- C72. If the function throws `e`, then `invoke` throws `e`, and `e` is pending afterwards. -/
theorem unwind_thrown {h h2 h3 : Heap} (hr : ProgReachable w h) {t : Nat} {target : Recipient}
    {args : List InvokeArg} (hl : Ordinary h target.ref ∧ ∀ a ∈ args, ArgOk h a) {this : Option CppClass}
    {ps : List Param} {temps : List Nat} (hen : Enters w share t h target args this ps h2 temps)
    {body : List ProgStmt} {e : Exn} (hb : runProg w share t h2 body = .ok (h3, some e))
    (ha : h3.envs t ≠ none) (ret : ObjRet) :
    ∃ h', (ProgStmt.invoke target args this ps body ret).run w share t h = .ok (h', some e) ∧
      Pends h' t (some e) := by
  obtain ⟨h1, js, xs, hb1, hen⟩ := hen
  have S := started hr.sound hl hb1
  have W := within S hen
  obtain ⟨hs3, hp3⟩ := prog_sound W.sound body hb
  have hh3 : Holding temps h3 := (W.holding.mono hp3).drop
  obtain ⟨env, he⟩ := Option.ne_none_iff_exists'.1 ha
  obtain ⟨h4, hc⟩ := catchAll_exists hs3 hh3 he e
  obtain ⟨hs4, _, _, _, hpd⟩ := catchAll_ok hs3 hh3 hc
  have hx : (ProgStmt.invoke target args this ps body ret).run w share t h =
      .ok ((h4.letGo (invokeOwned target args)).collect, some e) := by
    rw [run_invoke hl hb1, hen]
    simp only [hb, Res.bind_ok, hc, invokeEnd_pends hpd]
  obtain ⟨_, hp4, _⟩ := leave_stage S W hs3 hp3 (ret := ret) hpd.choose_spec.choose_spec.choose_spec.1
    (.inr ⟨e, rfl, hc⟩)
  exact ⟨_, hx, ((close hr.sound.inv hs4 hp4 (invokeEnd_pends hpd _)).pends _).1 hpd⟩

/-- C72. If the function returns normally, it depends on the pending exception what `invoke` does: nothing,
throw it, or dereference a null pointer. -/
theorem unwind_returned {h h2 h3 : Heap} (hr : ProgReachable w h) {t : Nat} {target : Recipient}
    {args : List InvokeArg} (hl : Ordinary h target.ref ∧ ∀ a ∈ args, ArgOk h a) {this : Option CppClass}
    {ps : List Param} {temps : List Nat} (hen : Enters w share t h target args this ps h2 temps)
    {body : List ProgStmt} (hb : runProg w share t h2 body = .ok (h3, none)) {env : Env}
    (he : h3.envs t = some env) {ret : ObjRet} (hret : ∀ i ∈ ret.owned, Live h3 i) :
    (env.pending = none ∧ ∃ h', (ProgStmt.invoke target args this ps body ret).run w share t h = .ok (h', none) ∧
      NonePends h' t) ∨
    (∃ e h', Pends h3 t (some e) ∧
      (ProgStmt.invoke target args this ps body ret).run w share t h = .ok (h', some e) ∧ Pends h' t (some e)) ∨
    (Pends h3 t none ∧ (ProgStmt.invoke target args this ps body ret).run w share t h = .ub .nullDeref) := by
  obtain ⟨h1, js, xs, hb1, hen⟩ := hen
  have S := started hr.sound hl hb1
  have W := within S hen
  obtain ⟨hs3, hp3⟩ := prog_sound W.sound body hb
  have hh3 : Holding temps h3 := (W.holding.mono hp3).drop
  obtain ⟨h4, r, hlv⟩ := hookLeave_exists (w := w) hs3.inv hh3 he hret
  obtain ⟨hs4, _, _, _, ⟨env4, he4, hpe⟩, hk⟩ := hookLeave_stage hs3 hh3 he hlv
  obtain ⟨_, hp4, _⟩ := leave_stage S W hs3 hp3 (ret := ret) he4 (.inl ⟨rfl, r, hlv⟩)
  have hx : (ProgStmt.invoke target args this ps body ret).run w share t h =
      h4.invokeEnd t (invokeOwned target args) := by
    rw [run_invoke hl hb1, hen]
    simp only [hb, Res.bind_ok, hlv]
  cases hp : env.pending with
  | none =>
    have hend := invokeEnd_none he4 (hpe.trans hp) (invokeOwned target args)
    refine .inl ⟨rfl, _, hx.trans hend, ?_⟩
    intro env' he'
    rw [(close hr.sound.inv hs4 hp4 hend).envs, he4] at he'
    injection he' with he'; subst he'; exact hpe.trans hp
  | some i =>
    obtain ⟨o, p, ho, hko⟩ := hs3.pend t env i he hp
    have hpd : Pends h3 t p := ⟨env, i, o, he, hp, ho, hko⟩
    have hpd4 := hk p hpd
    cases p with
    | some e =>
      have hend := invokeEnd_pends hpd4 (invokeOwned target args)
      exact .inr (.inl ⟨e, _, hpd, hx.trans hend, ((close hr.sound.inv hs4 hp4 hend).pends _).1 hpd4⟩)
    | none =>
      refine .inr (.inr ⟨hpd, hx.trans ?_⟩)
      obtain ⟨env', i', ⟨k', c'⟩, he', hp', ho', hk'⟩ := hpd4
      cases hk'
      simp only [invokeEnd, he', hp', ho']

/-- C72. If `this` or an argument cannot be converted, nothing of the function is run: whatever the function is,
the exception of the conversion reaches the caller and is pending. -/
theorem unwind_refused {h : Heap} (hr : ProgReachable w h) {t : Nat} {target : Recipient}
    {args : List InvokeArg} (hl : Ordinary h target.ref ∧ ∀ a ∈ args, ArgOk h a) {this : Option CppClass}
    {ps : List Param} {e : Exn} (hre : Refuses w share t h target args this ps e) :
    ∃ h', Pends h' t (some e) ∧
      ∀ body ret, (ProgStmt.invoke target args this ps body ret).run w share t h = .ok (h', some e) := by
  obtain ⟨h1, js, hb1, hen⟩ := hre
  have S := started hr.sound hl hb1
  obtain ⟨h4, hc⟩ := refuse_exists S ⟨this, ps, [], .void⟩ e
  obtain ⟨hs4, hp4, _, _, hpd⟩ := refuse_stage S hc
  have hend := invokeEnd_pends hpd (invokeOwned target args)
  refine ⟨_, ((close hr.sound.inv hs4 hp4 hend).pends _).1 hpd, fun body ret => ?_⟩
  rw [run_invoke hl hb1, hen]
  simp only [hc, Res.bind_ok, hend]

/-- C72. These are all the cases: on an attached thread, if the parameters fit to the arguments, the function is
entered or a conversion throws. -/
theorem unwind_enters {h : Heap} (hr : ProgReachable w h) {t : Nat} (ha : h.envs t ≠ none) {target : Recipient}
    {args : List InvokeArg} (hl : Ordinary h target.ref ∧ ∀ a ∈ args, ArgOk h a) {ps : List Param}
    (hm : MatchesAll args ps) (this : Option CppClass) :
    (∃ h2 temps, Enters w share t h target args this ps h2 temps) ∨
      ∃ e, Refuses w share t h target args this ps e := by
  obtain ⟨env, he⟩ := Option.ne_none_iff_exists'.1 ha
  obtain ⟨h1, js, hb⟩ := invokeBegin_exists (w := w) (share := share) hr.sound.inv he hl.1 hl.2
  rcases enters_or_refuses (started hr.sound hl hb) (this := this) hm with ⟨⟨h2, temps, xs⟩, hx⟩ | ⟨e, hx⟩
  · exact .inl ⟨h2, temps, h1, js, xs, hb, hx⟩
  · exact .inr ⟨e, h1, js, hb, hx⟩

/-- C72. The exception that leaves `invoke` is the pending exception: it throws `e` if and only if `e` is pending
when it ends, and it returns normally if and only if nothing is. -/
theorem unwind_pending {h h' : Heap} (hr : ProgReachable w h) {t : Nat} {target : Recipient}
    {args : List InvokeArg} {this : Option CppClass} {ps : List Param} {body : List ProgStmt} {ret : ObjRet}
    {x : Option Exn} (hx : (ProgStmt.invoke target args this ps body ret).run w share t h = .ok (h', x)) :
    (∀ e, x = some e ↔ Pends h' t (some e)) ∧ (x = none ↔ NonePends h' t) ∧ h'.envs t ≠ none := by
  obtain ⟨h1, js, S, hcs⟩ := invoke_stages hr.sound hx
  have key : ∀ {h4}, Closed t h (invokeOwned target args) h4 h' x →
      (∀ e, x = some e ↔ Pends h' t (some e)) ∧ (x = none ↔ NonePends h' t) ∧ h'.envs t ≠ none := by
    intro h4 C
    rcases C.ends with ⟨rfl, env, he, hp⟩ | ⟨e, rfl, hp⟩
    · rw [← C.envs] at he
      refine ⟨fun e => ⟨fun h => (nomatch h), ?_⟩, ⟨fun _ env' he' => ?_, fun _ => rfl⟩, by rw [he]; simp⟩
      · rintro ⟨env', i, o, he', hp', _⟩
        rw [he] at he'; injection he' with he'; subst he'
        rw [hp] at hp'; exact nomatch hp'
      · rw [he] at he'; injection he' with he'; subst he'; exact hp
    · have hp' := (C.pends _).1 hp
      refine ⟨fun e' => ⟨fun h => by cases h; exact hp', fun h => ?_⟩, ⟨fun h => (nomatch h), fun hn => ?_⟩, ?_⟩
      · exact pends_fun hp' h
      · obtain ⟨env, i, o, he, hpe, _⟩ := hp'
        rw [hn env he] at hpe; exact nomatch hpe
      · obtain ⟨env, i, o, he, _⟩ := hp'
        rw [he]; simp
  rcases hcs with ⟨h2, temps, xs, h3, y, h4, _, W, hb, hlv, hen⟩ | ⟨e, h4, _, hca, hen⟩
  · obtain ⟨hs3, hp3⟩ := prog_sound W.sound body hb
    obtain ⟨env4, he4⟩ := end_env hen
    obtain ⟨hs4, hp4, _⟩ := leave_stage S W hs3 hp3 he4 hlv
    exact key (close hr.sound.inv hs4 hp4 hen)
  · obtain ⟨hs4, hp4, _⟩ := refuse_stage S hca
    exact key (close hr.sound.inv hs4 hp4 hen)

/-- C72, partial form: a function whose own code treats exceptions properly, called while nothing is pending.
Then `invoke` throws what the function throws, and returns normally if the function does.  Missing: functions that
leave an exception pending, see `unwind_caught` and `unwind_stale`. -/
theorem unwind_exact_partial {h h' : Heap} (hr : ProgReachable w h) {t : Nat} (hn : NonePends h t)
    {target : Recipient} {args : List InvokeArg} {this : Option CppClass} {ps : List Param}
    {body : List ProgStmt} (ht : AllClears t body) {ret : ObjRet} {x : Option Exn}
    (hx : (ProgStmt.invoke target args this ps body ret).run w share t h = .ok (h', x)) :
    (∃ h2 temps h3, Enters w share t h target args this ps h2 temps ∧ NonePends h2 t ∧
      runProg w share t h2 body = .ok (h3, x)) ∨
    ∃ e, Refuses w share t h target args this ps e ∧ x = some e := by
  obtain ⟨h1, js, S, hcs⟩ := invoke_stages hr.sound hx
  rcases hcs with ⟨h2, temps, xs, h3, y, h4, hent, W, hb, hlv, hen⟩ | ⟨e, h4, hent, hca, hen⟩
  · refine .inl ⟨h2, temps, h3, ⟨h1, js, xs, S.run, hent⟩, ?_⟩
    obtain ⟨hs3, hp3⟩ := prog_sound W.sound body hb
    obtain ⟨env4, he4⟩ := end_env hen
    obtain ⟨hs4, hp4, _, _, hnone, hsome⟩ := leave_stage S W hs3 hp3 he4 hlv
    have C := close hr.sound.inv hs4 hp4 hen
    have hn2 : NonePends h2 t := by
      obtain ⟨e0, he0⟩ := S.env
      obtain ⟨l, hl⟩ := S.calm.pushed
      obtain ⟨e2, he2, hpe⟩ := W.envs.2.2 _ (hl.env e0 he0)
      intro env he
      rw [he2] at he; injection he with he; subst he
      exact hpe.trans (hn e0 he0)
    refine ⟨hn2, ?_⟩
    have hxy : x = y := by
      cases y with
      | none =>
        obtain ⟨env, he, hpe, _⟩ := hnone rfl
        have hn3 := prog_tidy W.sound body hn2 ht hb (.inl rfl) env he
        rcases C.ends with ⟨hx0, _⟩ | ⟨e, _, env', i, o, he', hp', _⟩
        · exact hx0
        · rw [he4] at he'; injection he' with he'; subst he'
          rw [hpe, hn3] at hp'; exact nomatch hp'
      | some e =>
        have hpd := hsome e rfl
        rcases C.ends with ⟨_, env', he', hp'⟩ | ⟨e', hx', hpd'⟩
        · obtain ⟨env, i, o, he, hp, _⟩ := hpd
          rw [he'] at he; injection he with he; subst he
          rw [hp'] at hp; exact nomatch hp
        · rw [hx']; exact pends_fun hpd' hpd
    rw [hxy]; exact hb
  · refine .inr ⟨e, ⟨h1, js, S.run, hent⟩, ?_⟩
    obtain ⟨hs4, hp4, _, _, hpd⟩ := refuse_stage S hca
    have C := close hr.sound.inv hs4 hp4 hen
    rcases C.ends with ⟨_, env', he', hp'⟩ | ⟨e', hx', hpd'⟩
    · obtain ⟨env, i, o, he, hp, _⟩ := hpd
      rw [he'] at he; injection he with he; subst he
      rw [hp'] at hp; exact nomatch hp
    · rw [hx']; exact pends_fun hpd' hpd

/-- C72. Code that treats exceptions properly and ends normally leaves nothing pending, so that the next `invoke`
is not disturbed. -/
theorem unwind_tidy {h h' : Heap} (hr : ProgReachable w h) {t : Nat} (hn : NonePends h t) {l : List ProgStmt}
    (ht : AllClears t l) (hx : runProg w share t h l = .ok (h', none)) : NonePends h' t :=
  prog_tidy hr.sound l hn ht hx (.inl rfl)

/-! ## What is left behind -/

/-- C72. After any program, however it ends, what `shared_ptr`s of the calls owned is given back: the owners
outside of the interface are those of before, followed by new entries of the VM's tables; and every object that
is alive is referenced by a root or by another object. -/
theorem unwind_balanced {h h' : Heap} (hr : ProgReachable w h) {t : Nat} {l : List ProgStmt} {x : Option Exn}
    (hx : runProg w share t h l = .ok (h', x)) :
    (∃ new, h'.pinned = h.pinned ++ new) ∧ (∀ i, Live h' i → Root h' i ∨ ∃ j, Live h' j ∧ Owns h' j i) ∧
      ∀ i, Root h' i → Live h' i := by
  obtain ⟨hs, new, hp, _⟩ := prog_sound hr.sound l hx
  refine ⟨⟨new, hp⟩, fun i ⟨o, ho⟩ => ?_, fun i hi => hs.inv.toPre.roots i ((root_iff hs.inv.toPre).1 hi)⟩
  rcases (held_iff hs.inv.bound).1 (hs.inv.held i o ho) with hr | ⟨j, he⟩
  · exact .inl ((root_iff hs.inv.toPre).2 hr)
  · have := owns_iff.2 he
    exact .inr ⟨j, by obtain ⟨oj, hoj, _⟩ := this; exact ⟨oj, hoj⟩, this⟩

/-- C72. A `LocalFrame` around any such program restores frames and attachment, also if an exception passes
through several calls before it leaves the scope. -/
theorem unwind_frames {h h' : Heap} (hr : ProgReachable w h) {t : Nat} {vm : Bool} {body : List ProgStmt}
    {x : Option Exn} (hc : AllProgCalls (Structured t) body)
    (hx : (ProgStmt.frame vm body).run w share t h = .ok (h', x)) :
    Restored t h h' ∧ (AllProgCalls (NoDelete t) body → RestoredAll t h h') := by
  rw [ProgStmt.run] at hx
  split at hx
  · rename_i h1 made hent
    obtain ⟨⟨h2, y⟩, hx1, hx2⟩ := Res.bind_eq_ok.1 hx
    obtain ⟨h3, hx3, hx4⟩ := Res.bind_eq_ok.1 hx2
    injection hx4 with hx4; injection hx4 with hx4 _; subst hx4
    have hs1 := (enterFrame_sound hr.sound hent).1
    exact scope_restores hr.sound hent (prog_sound hs1 body hx1).1 (prog_flows hs1 body hc hx1) hx3
  · injection hx with hx; injection hx with hx1 _; subst hx1
    unfold Restored RestoredAll
    cases he : h.envs t with
    | none => exact ⟨rfl, fun _ => rfl⟩
    | some e => exact ⟨⟨e, rfl, rfl, .refl _⟩, fun _ => ⟨e, rfl, rfl, rfl⟩⟩
  · exact nomatch hx
  · exact nomatch hx

/-- C72. Other threads that make no calls meanwhile keep their references and their pending exception. -/
theorem unwind_others {h h' : Heap} (hr : ProgReachable w h) {t u : Nat} (hu : u ≠ t) {l : List ProgStmt}
    {x : Option Exn} (hc : AllProgCalls (fun v _ => v ≠ u) l) (hx : runProg w share t h l = .ok (h', x)) :
    h'.envs u = h.envs u := prog_apart hu hr.sound l hc hx

/-- C72. No exception gets lost on the way out of a program: none is thrown by a destructor or by a part of `invoke`
that has no handler. -/
theorem unwind_no_terminate {h : Heap} (hr : ProgReachable w h) (t : Nat) (l : List ProgStmt) (e : Exn) :
    runProg w share t h l ≠ .throws e := (prog_silent hr.sound l).never e

/-- C72. A call in which nothing is thrown and nothing is pending is the call of C59. -/
theorem unwind_agrees {h h' : Heap} {t : Nat} {target : Recipient}
    {args : List InvokeArg} (hl : Ordinary h target.ref ∧ ∀ a ∈ args, ArgOk h a) {f : HookedFn} {r : Option Nat}
    {xs : List Arg} (hx : h.invoke w share t target args f = .ok (h', r, xs)) (ha : h'.envs t ≠ none)
    (hn : NonePends h' t) :
    (ProgStmt.invoke target args f.this f.params (f.body.map fun x => .call x.1 x.2) f.returns).run w share t h =
      .ok (h', none) := by
  obtain ⟨⟨h1, js⟩, hx1, hx2⟩ := Res.bind_eq_ok.1 hx
  obtain ⟨⟨h2, temps, ys⟩, hx3, hx4⟩ := Res.bind_eq_ok.1 hx2
  obtain ⟨h3, hx5, hx6⟩ := Res.bind_eq_ok.1 hx4
  obtain ⟨⟨h4, r'⟩, hx7, hx8⟩ := Res.bind_eq_ok.1 hx6
  injection hx8 with hx8; injection hx8 with hx8 _; subst hx8
  obtain ⟨env, he⟩ := Option.ne_none_iff_exists'.1 ha
  have hpe := hn env he
  have he4 : h4.envs t = some env := by rw [collect_envs] at he; exact he
  have hen : h1.invokeEnter w t target ⟨f.this, f.params, [], .void⟩ js = .ok (h2, temps, ys) := hx3
  rw [run_invoke hl hx1, hen]
  simp only [runProg_calls hx5, Res.bind_ok, hx7]
  exact invokeEnd_none he4 hpe _

/-! ## What goes wrong -/

/-- `invoke` on object 9 without arguments; the function is not a member function. -/
def plainInvoke (body : List ProgStmt) : ProgStmt := .invoke (.obj 9) [] none [] body .void

/-- Thread 0 has object 9; `invoke` of a function with that body. -/
def unwindCheck (body : List ProgStmt) (y x : Option Exn) (h : Heap) : Bool :=
  h.isOrdinary 9 && (h.invokeBegin sampleTypes true 0 (.obj 9) []).holds fun a =>
    (a.1.invokeEnter sampleTypes 0 (.obj 9) ⟨none, [], [], .void⟩ a.2).holds fun b =>
      (runProg sampleTypes true 0 b.1 body).holds fun c => c.2 == y && (c.1.envs 0).isSome &&
        ((plainInvoke body).run sampleTypes true 0 h).holds fun d => d.2 == x

theorem unwindCheck_sound {body : List ProgStmt} {y x : Option Exn} {h : Heap}
    (hc : unwindCheck body y x h = true) :
    (Ordinary h (Recipient.obj 9).ref ∧ ∀ a ∈ ([] : List InvokeArg), ArgOk h a) ∧
    ∃ h2 temps h3 h', Enters sampleTypes true 0 h (.obj 9) [] none [] h2 temps ∧
      runProg sampleTypes true 0 h2 body = .ok (h3, y) ∧ h3.envs 0 ≠ none ∧
      (plainInvoke body).run sampleTypes true 0 h = .ok (h', x) := by
  simp only [unwindCheck, Bool.and_eq_true, Res.holds_iff, beq_iff_eq] at hc
  obtain ⟨hi, ⟨h1, js⟩, hb, ⟨h2, temps, xs⟩, hen, ⟨h3, y'⟩, hr, ⟨hy, he⟩, ⟨h', x'⟩, hx, hxx⟩ := hc
  simp only at hy hxx hen hr
  subst hy hxx
  refine ⟨⟨isOrdinary_iff.1 hi, fun _ h => nomatch h⟩, h2, temps, h3, h', ⟨h1, js, xs, hb, hen⟩, hr, ?_, hx⟩
  simp only at he
  intro h0; rw [h0] at he; exact nomatch he

/-- C72 fails in general: the function catches the exception of another function without `ExceptionClear` and returns
normally, but its caller gets the exception. -/
theorem unwind_caught : ¬ ∀ (w : CppTypes) (share : Bool) (h : Heap) (t : Nat) (target : Recipient)
    (args : List InvokeArg) (this : Option CppClass) (ps : List Param) (body : List ProgStmt) (ret : ObjRet)
    (h2 : Heap) (temps : List Nat) (h3 : Heap) (y : Option Exn) (h' : Heap) (x : Option Exn),
    ProgReachable w h → NonePends h t → Enters w share t h target args this ps h2 temps →
    runProg w share t h2 body = .ok (h3, y) →
    (ProgStmt.invoke target args this ps body ret).run w share t h = .ok (h', x) → x = y := by
  intro hall
  obtain ⟨h, _, hr, hp⟩ := reachable_of (ops := sampleObject)
    (p := fun h => (h.envs 0).all (fun e => e.pending.isNone) &&
      unwindCheck [.attempt false [plainInvoke [.raise .runtimeError]]] none (some .runtimeError) h)
    (by decide +kernel)
  simp only [Bool.and_eq_true, Option.all_eq_true] at hp
  obtain ⟨hn, hc⟩ := hp
  obtain ⟨_, h2, temps, h3, h', hen, hb, _, hx⟩ := unwindCheck_sound hc
  exact nomatch hall _ _ _ _ _ _ _ _ _ _ _ _ _ _ _ _ (.of_heap hr)
    (fun env he => Option.isNone_iff_eq_none.1 (hn env he)) hen hb hx

/-- C72 fails if an exception is pending before: `invoke` of a function that does nothing throws it. -/
theorem unwind_stale : ¬ ∀ (w : CppTypes) (share : Bool) (h : Heap) (t : Nat) (target : Recipient)
    (args : List InvokeArg) (this : Option CppClass) (ps : List Param) (body : List ProgStmt) (ret : ObjRet)
    (h2 : Heap) (temps : List Nat) (h3 : Heap) (y : Option Exn) (h' : Heap) (x : Option Exn),
    ProgReachable w h → AllClears t body → Enters w share t h target args this ps h2 temps →
    runProg w share t h2 body = .ok (h3, y) →
    (ProgStmt.invoke target args this ps body ret).run w share t h = .ok (h', x) → x = y := by
  intro hall
  obtain ⟨h, _, hr, hp⟩ := reachable_of (ops := sampleObject ++ [(0, .raise .runtimeError)])
    (p := unwindCheck [] none (some .runtimeError)) (by decide +kernel)
  obtain ⟨_, h2, temps, h3, h', hen, hb, _, hx⟩ := unwindCheck_sound hp
  exact nomatch hall _ _ _ _ _ _ _ _ _ _ _ _ _ _ _ _ (.of_heap hr)
    (by simp [AllClears] : AllClears 0 []) hen hb hx

/-- C72: a function that makes a `Throwable` and throws it by the interface.  `invoke` would have to throw, but
there is no C++ exception inside. -/
theorem unwind_bare : ∃ h h2 h3 temps, ProgReachable sampleTypes h ∧
    Enters sampleTypes true 0 h (.obj 9) [] none [] h2 temps ∧
    runProg sampleTypes true 0 h2 [.call 0 (.newObject (some "java/lang/Throwable".toList)),
      .call 0 (.throw (some 11))] = .ok (h3, none) ∧ Pends h3 0 none ∧
    (plainInvoke [.call 0 (.newObject (some "java/lang/Throwable".toList)),
      .call 0 (.throw (some 11))]).run sampleTypes true 0 h = .ub .nullDeref := by
  obtain ⟨h, _, hr, hp⟩ := reachable_of (ops := sampleObject)
    (p := fun h => h.isOrdinary 9 && (h.invokeBegin sampleTypes true 0 (.obj 9) []).holds fun a =>
      (a.1.invokeEnter sampleTypes 0 (.obj 9) ⟨none, [], [], .void⟩ a.2).holds fun b =>
      (runProg sampleTypes true 0 b.1 [.call 0 (.newObject (some "java/lang/Throwable".toList)),
        .call 0 (.throw (some 11))]).holds fun c => c.2 == none &&
        (c.1.envs 0).any (fun e => e.pending == some 11) &&
        (c.1.objs 11).any (fun o => o.kind == .throwable none)) (by decide +kernel)
  simp only [Bool.and_eq_true, Res.holds_iff, beq_iff_eq, Option.any_eq_true] at hp
  obtain ⟨hi, ⟨h1, js⟩, hb, ⟨h2, temps, xs⟩, hen, ⟨h3, y⟩, hrun, ⟨hy, env, he, hpe⟩, o, ho, hk⟩ := hp
  simp only at hen hrun hy he hpe ho hk
  subst hy
  have hpd : Pends h3 0 none := ⟨env, 11, o, he, hpe, ho, hk⟩
  have hE : Enters sampleTypes true 0 h (.obj 9) [] none [] h2 temps := ⟨h1, js, xs, hb, hen⟩
  have hl : Ordinary h (Recipient.obj 9).ref ∧ ∀ a ∈ ([] : List InvokeArg), ArgOk h a :=
    ⟨isOrdinary_iff.1 hi, fun _ h => nomatch h⟩
  refine ⟨h, h2, h3, temps, .of_heap hr, hE, hrun, hpd, ?_⟩
  rcases unwind_returned (.of_heap hr) hl hE hrun he (ret := .void) (fun _ h => nomatch h) with
    ⟨hn, _⟩ | ⟨e, _, hp', _⟩ | ⟨_, hx⟩
  · rw [hpe] at hn; exact nomatch hn
  · exact nomatch pends_fun hpd hp'
  · exact hx

/-! ## Concrete programs -/

/-- For `unwind_thrown`: the function makes an object and throws. -/
example : ∃ h h2 temps h3, ProgReachable sampleTypes h ∧
    (Ordinary h (Recipient.obj 9).ref ∧ ∀ a ∈ ([] : List InvokeArg), ArgOk h a) ∧
    Enters sampleTypes true 0 h (.obj 9) [] none [] h2 temps ∧
    runProg sampleTypes true 0 h2 [.call 0 (.newObject none), .raise .lengthError] = .ok (h3, some .lengthError) ∧
    h3.envs 0 ≠ none := by
  obtain ⟨h, _, hr, hp⟩ := reachable_of (ops := sampleObject)
    (p := unwindCheck [.call 0 (.newObject none), .raise .lengthError] (some .lengthError) (some .lengthError))
    (by decide +kernel)
  obtain ⟨hl, h2, temps, h3, h', hen, hb, ha, _⟩ := unwindCheck_sound hp
  exact ⟨h, h2, temps, h3, .of_heap hr, hl, hen, hb, ha⟩

/-- For `unwind_returned`: the function makes an object and returns. -/
example : ∃ h h2 temps h3, ProgReachable sampleTypes h ∧
    (Ordinary h (Recipient.obj 9).ref ∧ ∀ a ∈ ([] : List InvokeArg), ArgOk h a) ∧
    Enters sampleTypes true 0 h (.obj 9) [] none [] h2 temps ∧
    runProg sampleTypes true 0 h2 [.call 0 (.newObject none)] = .ok (h3, none) ∧ h3.envs 0 ≠ none := by
  obtain ⟨h, _, hr, hp⟩ := reachable_of (ops := sampleObject)
    (p := unwindCheck [.call 0 (.newObject none)] none none) (by decide +kernel)
  obtain ⟨hl, h2, temps, h3, h', hen, hb, ha, _⟩ := unwindCheck_sound hp
  exact ⟨h, h2, temps, h3, .of_heap hr, hl, hen, hb, ha⟩

/-- For `unwind_refused`: a null pointer for a reference. -/
example : ∃ h, ProgReachable sampleTypes h ∧
    (Ordinary h (Recipient.obj 9).ref ∧ ∀ a ∈ [InvokeArg.shared (.cls 7) (some 9), .pointer (.cls 7) none], ArgOk h a) ∧
    ∃ e, Refuses sampleTypes true 0 h (.obj 9) [.shared (.cls 7) (some 9), .pointer (.cls 7) none] (some (.cls 7))
      [.obj (.pointer (.cls 7)), .obj (.ref (.cls 7))] e := by
  obtain ⟨h, _, hr, hp⟩ := reachable_of (ops := sampleObject)
    (p := fun h => h.isOrdinary 9 && (h.invokeBegin sampleTypes true 0 (.obj 9)
        [.shared (.cls 7) (some 9), .pointer (.cls 7) none]).holds fun a =>
      match a.1.invokeEnter sampleTypes 0 (.obj 9)
        ⟨some (.cls 7), [.obj (.pointer (.cls 7)), .obj (.ref (.cls 7))], [], .void⟩ a.2 with
      | .throws _ => true
      | _ => false) (by decide +kernel)
  simp only [Bool.and_eq_true, Res.holds_iff] at hp
  obtain ⟨hi, ⟨h1, js⟩, hb, hp⟩ := hp
  refine ⟨h, .of_heap hr, ⟨isOrdinary_iff.1 hi, fun a ha => ?_⟩, ?_⟩
  · simp only [List.mem_cons, List.not_mem_nil, or_false] at ha
    rcases ha with rfl | rfl
    · intro i hi'; cases hi'; exact isOrdinary_iff.1 hi
    · intro i hi'; cases hi'
  · split at hp
    · rename_i e he
      exact ⟨e, h1, js, hb, he⟩
    · exact nomatch hp

/-- For `unwind_enters`: the arguments of C59. -/
example : ∃ h, ProgReachable sampleTypes h ∧ h.envs 0 ≠ none ∧
    (Ordinary h (Recipient.obj 9).ref ∧ ∀ a ∈ sampleArgs, ArgOk h a) ∧ MatchesAll sampleArgs sampleCallee.params := by
  obtain ⟨h, _, hr, hp⟩ := reachable_of (ops := sampleObject) (p := sampleCheck) (by decide +kernel)
  obtain ⟨⟨e, he, _⟩, h9, hok⟩ := sampleCheck_sound hp
  exact ⟨h, .of_heap hr, by rw [he]; simp, ⟨h9, hok⟩, sampleArgs_match⟩

/-- Three calls deep: the innermost function throws while another thread makes calls, the middle one has a
`LocalFrame` and lets the exception pass. -/
def deepThrow : ProgStmt :=
  .invoke (.obj 9) sampleArgs sampleCallee.this sampleCallee.params
    [.call 0 (.newObject none), .frame true [.call 0 (.newObject none),
      plainInvoke [.call 2 .attach, .call 2 (.newObject none), .call 0 (.newLocalRef (some 9)),
        .raise .runtimeError], .call 0 (.newObject none)]] .void

/-- The outermost function catches the exception and clears it, and goes on. -/
def deepCatch : List ProgStmt :=
  [.call 0 (.newLocalRef (some 9)), .attempt true [.call 0 (.newObject none), deepThrow], deepThrow]

/-- For `unwind_pending`, `unwind_exact_partial`, `unwind_balanced`, `unwind_frames` and `unwind_others`: in the
outermost function nothing is pending when it throws. -/
example : ∃ h h' h'', ProgReachable sampleTypes h ∧ NonePends h 0 ∧ AllClears 0 deepCatch ∧
    (plainInvoke deepCatch).run sampleTypes true 0 h = .ok (h', some .runtimeError) ∧
    AllProgCalls (Structured 0) deepCatch ∧ AllProgCalls (NoDelete 0) deepCatch ∧
    AllProgCalls (fun v _ => v ≠ 1) deepCatch ∧ (h.envs 1).isSome ∧
    (ProgStmt.frame true deepCatch).run sampleTypes true 0 h = .ok (h'', some .runtimeError) := by
  obtain ⟨h, _, hr, hp⟩ := reachable_of (ops := sampleObject ++ [(1, .attach)])
    (p := fun h => (h.envs 0).all (fun e => e.pending.isNone) && (h.envs 1).isSome &&
      ((plainInvoke deepCatch).run sampleTypes true 0 h).holds (fun y => y.2 == some .runtimeError) &&
      ((ProgStmt.frame true deepCatch).run sampleTypes true 0 h).holds (fun y => y.2 == some .runtimeError))
    (by decide +kernel)
  simp only [Bool.and_eq_true, Option.all_eq_true, Res.holds_iff, beq_iff_eq] at hp
  obtain ⟨⟨⟨hn, h1⟩, ⟨h', x⟩, hx, rfl⟩, ⟨h'', x'⟩, hx', rfl⟩ := hp
  refine ⟨h, h', h'', .of_heap hr, fun env he => Option.isNone_iff_eq_none.1 (hn env he), ?_, hx, ?_, ?_, ?_, h1, hx'⟩
  · simp [deepCatch, deepThrow, AllClears, Clears]
  · simp [deepCatch, deepThrow, plainInvoke, AllProgCalls, ProgCalls, Structured]
  · simp [deepCatch, deepThrow, plainInvoke, AllProgCalls, ProgCalls, NoDelete]
  · simp [deepCatch, deepThrow, plainInvoke, AllProgCalls, ProgCalls]

/-- For `unwind_tidy`: the exception is caught and cleared. -/
example : ∃ h h', ProgReachable sampleTypes h ∧ NonePends h 0 ∧
    AllClears 0 [.attempt true [plainInvoke [.raise .badCast]], plainInvoke [], .attempt false [.raise .runtimeError]] ∧
    runProg sampleTypes true 0 h [.attempt true [plainInvoke [.raise .badCast]], plainInvoke [],
      .attempt false [.raise .runtimeError]] = .ok (h', none) := by
  obtain ⟨h, _, hr, hp⟩ := reachable_of (ops := sampleObject)
    (p := fun h => (h.envs 0).all (fun e => e.pending.isNone) &&
      (runProg sampleTypes true 0 h [.attempt true [plainInvoke [.raise .badCast]], plainInvoke [],
        .attempt false [.raise .runtimeError]]).holds (fun y => y.2 == none)) (by decide +kernel)
  simp only [Bool.and_eq_true, Option.all_eq_true, Res.holds_iff, beq_iff_eq] at hp
  obtain ⟨hn, ⟨h', x⟩, hx, rfl⟩ := hp
  exact ⟨h, h', .of_heap hr, fun env he => Option.isNone_iff_eq_none.1 (hn env he),
    by simp [AllClears, Clears, plainInvoke, AllPlain, Plain], hx⟩

/-- For `unwind_agrees`: the sample of C59. -/
example : ∃ h h' r xs, (Ordinary h (Recipient.obj 9).ref ∧ ∀ a ∈ sampleArgs, ArgOk h a) ∧
    h.invoke sampleTypes true 0 (.obj 9) sampleArgs sampleCallee = .ok (h', r, xs) ∧ h'.envs 0 ≠ none ∧
    NonePends h' 0 := by
  obtain ⟨h, _, _, hp⟩ := reachable_of (ops := sampleObject)
    (p := fun h => sampleCheck h && (h.invoke sampleTypes true 0 (.obj 9) sampleArgs sampleCallee).holds fun y =>
      (y.1.envs 0).any fun e => e.pending == none) (by decide +kernel)
  simp only [Bool.and_eq_true, Res.holds_iff, Option.any_eq_true, beq_iff_eq] at hp
  obtain ⟨hc, ⟨h', r, xs⟩, hx, e', he', hpe⟩ := hp
  obtain ⟨_, h9, hok⟩ := sampleCheck_sound hc
  refine ⟨h, h', r, xs, ⟨h9, hok⟩, hx, by rw [he']; simp, fun env he => ?_⟩
  rw [he'] at he; injection he with he; subst he; exact hpe

end Jnivm
