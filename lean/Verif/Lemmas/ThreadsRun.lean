import Verif.Spec.ThreadsRun
import Verif.Lemmas.Nested
/-!
Helper lemmas on threads that run at the same time.
-/
namespace Jnivm
open Spec
open Heap hiding Live

/-! ### One thread alone -/

/-- Steps lead from one piece of code and state to another. -/
inductive StepsTo : Prog → Vm → Prog → Vm → Prop where
  | refl (p vm) : StepsTo p vm p vm
  | step {f : Vm → Vm} {k : Vm → Prog} {vm p' vm'} : StepsTo (k vm) (f vm) p' vm' → StepsTo (.step f k) vm p' vm'

theorem StepsTo.trans {p : Prog} {vm : Vm} {p1 : Prog} {vm1 : Vm} (h : StepsTo p vm p1 vm1) {p2 : Prog} {vm2 : Vm}
    (h' : StepsTo p1 vm1 p2 vm2) : StepsTo p vm p2 vm2 := by
  induction h with
  | refl => exact h'
  | step _ ih => exact .step (ih h')

/-- The code goes on as the outcome says. -/
def Goes {α : Type} (p : Prog) (vm : Vm) (ok : α → Prog) (exn : Exn → Prog) : Outcome Vm α → Prop
  | .returns v a => StepsTo p vm (ok a) v
  | .raises v e => StepsTo p vm (exn e) v
  | .ub u => ∃ v, StepsTo p vm (.ub u) v
  | .aborts => ∃ v, StepsTo p vm .aborts v
  | .diverges => ∃ v, StepsTo p vm .diverges v

theorem goes_act {α : Type} (r : Vm → Outcome Vm α) (ok : α → Prog) (exn : Exn → Prog) (vm : Vm) :
    Goes (.act r ok exn) vm ok exn (r vm) := by
  unfold Prog.act
  cases h : r vm with
  | returns v a => refine .step ?_; simp only [h]; exact .refl _ _
  | raises v e => refine .step ?_; simp only [h]; exact .refl _ _
  | ub u => refine ⟨vm, .step ?_⟩; simp only [h]; exact .refl _ _
  | aborts => refine ⟨vm, .step ?_⟩; simp only [h]; exact .refl _ _
  | diverges => refine ⟨vm, .step ?_⟩; simp only [h]; exact .refl _ _

/-- Going on after a result. -/
theorem Goes.andThen {α β : Type} {p : Prog} {vm : Vm} {ok : α → Prog} {exn : Exn → Prog} {o : Outcome Vm α}
    (h : Goes p vm ok exn o) {ok' : β → Prog} {f : Vm → α → Outcome Vm β}
    (hf : ∀ v a, Goes (ok a) v ok' exn (f v a)) : Goes p vm ok' exn (o.andThen f) := by
  cases o with
  | returns v a =>
    have := hf v a
    simp only [Outcome.andThen]
    cases ho : f v a with
    | returns v' b => rw [ho] at this; exact StepsTo.trans h this
    | raises v' e => rw [ho] at this; exact StepsTo.trans h this
    | ub u => rw [ho] at this; obtain ⟨w, hw⟩ := this; exact ⟨w, StepsTo.trans h hw⟩
    | aborts => rw [ho] at this; obtain ⟨w, hw⟩ := this; exact ⟨w, StepsTo.trans h hw⟩
    | diverges => rw [ho] at this; obtain ⟨w, hw⟩ := this; exact ⟨w, StepsTo.trans h hw⟩
  | raises v e => exact h
  | ub u => exact h
  | aborts => exact h
  | diverges => exact h

/-- Going on after an exception. -/
theorem Goes.orElse {α : Type} {p : Prog} {vm : Vm} {ok : α → Prog} {exn' exn : Exn → Prog} {o : Outcome Vm α}
    (h : Goes p vm ok exn' o) {f : Vm → Exn → Outcome Vm α}
    (hf : ∀ v e, Goes (exn' e) v ok exn (f v e)) : Goes p vm ok exn (o.orElse f) := by
  cases o with
  | raises v e =>
    have := hf v e
    simp only [Outcome.orElse]
    cases ho : f v e with
    | returns v' b => rw [ho] at this; exact StepsTo.trans h this
    | raises v' e => rw [ho] at this; exact StepsTo.trans h this
    | ub u => rw [ho] at this; obtain ⟨w, hw⟩ := this; exact ⟨w, StepsTo.trans h hw⟩
    | aborts => rw [ho] at this; obtain ⟨w, hw⟩ := this; exact ⟨w, StepsTo.trans h hw⟩
    | diverges => rw [ho] at this; obtain ⟨w, hw⟩ := this; exact ⟨w, StepsTo.trans h hw⟩
  | returns v a => exact h
  | ub u => exact h
  | aborts => exact h
  | diverges => exact h

/-- The steps of functions do what the functions do. -/
structure CodeGoes (code : Code) (steps : Steps) : Prop where
  hooks : ∀ f vm self args ok exn, Goes (steps.hooked f self args ok exn) vm ok exn ((code.hooks f).run vm self args)
  natives : ∀ p ty vm target args ok exn,
    Goes (steps.registered p ty target args ok exn) vm ok exn (code.natives p ty vm target args)

/-- The hooks are those of the client's functions. -/
structure SameHooks (code : Code) (fs : Natives) : Prop where
  kind : ∀ f, (code.hooks f).kind = fs.kind f
  type : ∀ f, (code.hooks f).type = fs.type f

theorem lift_andThen {σ α β γ : Type} (s : σ) (r : Res α) (f : α → Outcome σ β) (g : σ → β → Outcome σ γ) :
    (Outcome.lift s r f).andThen g = Outcome.lift s r fun a => (f a).andThen g := by
  cases r <;> rfl

theorem attached_andThen {α β : Type} (vm : Vm) (t : Nat) (o : Outcome Vm α) (g : Vm → α → Outcome Vm β) :
    (vm.attached t o).andThen g = vm.attached t (o.andThen g) := by
  unfold Vm.attached
  split <;> rfl

/-- What a call does after it chose the function. -/
def CallEntry.called (code : Code) (t : Nat) (vm : Vm) : CallEntry → Outcome Vm (BitVec 64)
  | .value v => .returns vm v
  | .enter f self args => Vm.catchAll t ((code.hooks f).run vm self args)
  | .fail e => Vm.catchAll t (.raises vm e)

/-- What an access does after it chose the function. -/
def CallEntry.accessed (code : Code) (vm : Vm) : CallEntry → Outcome Vm (BitVec 64)
  | .value v => .returns vm v
  | .enter f self args => (code.hooks f).run vm self args
  | .fail e => .raises vm e

theorem enter_called {code : Code} {fs : Natives} (hs : SameHooks code fs) (t : Nat) (ty : JType) (a : Access)
    (self : Self) (args : List (BitVec 64)) (vm : Vm) (m : Option MethodRec) :
    (vm.enter fs ty a self args m).andThen (fun vm x => x.called code t vm) =
      Vm.invoke code.hooks t ty a self args vm m := by
  cases m with
  | none => rfl
  | some m =>
    simp only [Vm.enter, Vm.invoke]
    cases m.handle with
    | none => rfl
    | some f =>
      simp only [Outcome.andThen, Natives.entry, Hook.invoke, hs.kind, hs.type]
      split
      · cases fs.kind f <;> cases a <;> rfl
      · rfl

theorem enterMethod_called {code : Code} (t : Nat) (vm : Vm) (id : Option Nat) {f : MethodRec → Outcome Vm CallEntry}
    {g : MethodRec → Outcome Vm (BitVec 64)} (h : ∀ m, (f m).andThen (fun vm x => x.called code t vm) = g m) :
    (vm.enterMethod id f).andThen (fun vm x => x.called code t vm) = vm.withMethod id g := by
  cases id with
  | none => rfl
  | some i =>
    simp only [Vm.enterMethod, Vm.withMethod]
    cases vm.world.method? i with
    | none => rfl
    | some m =>
      dsimp only
      split
      · exact h m
      · rfl

theorem enterA_called {code : Code} {fs : Natives} (hs : SameHooks code fs) (t : Nat) (ty : JType) (vm : Vm)
    (form : Form) (id : Option Nat) (args : List (BitVec 64)) :
    (vm.enterA fs t ty form id args).andThen (fun vm x => x.called code t vm) =
      vm.callA code.hooks t ty form id args := by
  cases form with
  | virtual obj =>
    refine enterMethod_called t vm id fun m => ?_
    rw [lift_andThen]
    congr 1
    funext x
    exact enter_called hs ..
  | nonVirtual obj cl =>
    refine enterMethod_called t vm id fun m => ?_
    rw [lift_andThen]
    congr 1
    funext x
    exact enter_called hs ..
  | static cl =>
    simp only [Vm.enterA, Vm.callA]
    rw [lift_andThen]
    congr 1
    funext x
    exact enterMethod_called t x.1 id fun m => enter_called hs ..

theorem enterV_called {code : Code} {fs : Natives} (hs : SameHooks code fs) (d2f : BitVec 64 → BitVec 32) (t : Nat)
    (ty : JType) (vm : Vm) (form : Form) (id : Option Nat) (va : List CArg) :
    (vm.enterV d2f fs t ty form id va).andThen (fun vm x => x.called code t vm) =
      vm.callV d2f code.hooks t ty form id va := by
  cases id with
  | none => rfl
  | some i =>
    simp only [Vm.enterV, Vm.callV]
    cases vm.world.method? i with
    | none => rfl
    | some m =>
      rw [lift_andThen]
      congr 1
      funext x
      exact enterA_called hs ..

theorem accessor_accessed {code : Code} {fs : Natives} (hs : SameHooks code fs) (f : Nat) (st : Bool) (ty : JType)
    (vm : Vm) (self : Self) (args : List (BitVec 64)) :
    (fs.accessor f st ty self args).accessed code vm = (code.hooks f).access st ty vm self args := by
  simp only [Natives.accessor, Hook.access, hs.kind, hs.type]
  split <;> rfl

theorem enterGet_accessed {code : Code} {fs : Natives} (hs : SameHooks code fs) (ty : JType) (vm : Vm) (owner : Owner)
    (id : Option Nat) :
    (vm.enterGet fs ty owner id).andThen (fun vm x => x.accessed code vm) = vm.getField code.hooks ty owner id := by
  cases id with
  | none => rfl
  | some i =>
    simp only [Vm.enterGet, Vm.getField]
    cases vm.world.field? i with
    | none => rfl
    | some f =>
      dsimp only
      cases f.getter with
      | none => rfl
      | some g =>
        dsimp only
        split
        · rw [lift_andThen]
          congr 1
          funext x
          exact accessor_accessed hs ..
        · rfl

theorem enterSet_accessed {code : Code} {fs : Natives} (hs : SameHooks code fs) (ty : JType) (vm : Vm) (owner : Owner)
    (id : Option Nat) (v : BitVec 64) :
    (vm.enterSet fs ty owner id v).andThen (fun vm x => x.accessed code vm) =
      vm.setField code.hooks ty owner id v := by
  unfold Vm.enterSet Vm.setField
  by_cases hn : owner.isNull = true
  · rw [if_pos hn, if_pos hn]; rfl
  rw [if_neg hn, if_neg hn]
  cases id with
  | none => rfl
  | some i =>
    dsimp only
    cases vm.world.field? i with
    | none => rfl
    | some f =>
      dsimp only
      cases f.setter with
      | none => rfl
      | some g =>
        dsimp only
        split
        · rw [lift_andThen]
          congr 1
          funext x
          exact accessor_accessed hs ..
        · rfl

theorem goes_caught {code : Code} {steps : Steps} (hc : CodeGoes code steps) (t : Nat) (ok : BitVec 64 → Prog)
    (exn : Exn → Prog) (vm : Vm) (x : CallEntry) : Goes (x.call t steps ok exn) vm ok exn (x.called code t vm) := by
  have raise : ∀ v e, Goes (Prog.caught t ok exn e) v ok exn (Vm.catchAll t (.raises v e)) := by
    intro v e
    have h := goes_act (fun vm => Outcome.lift vm ((HeapOp.raise e).run vm.heap t) fun (h, _) =>
      .returns { vm with heap := h } ()) (fun _ => ok 0) exn v
    unfold Prog.caught
    refine cast ?_ (h.andThen (ok' := ok) (f := fun v _ => .returns v 0) fun v a => .refl _ _)
    congr 1
    simp only [Vm.catchAll, lift_andThen]
    rfl
  cases x with
  | value v => exact .refl _ _
  | enter f self args =>
    have h := hc.hooks f vm self args ok (Prog.caught t ok exn)
    have := h.orElse (exn := exn) (f := fun v e => Vm.catchAll t (.raises v e)) fun v e => raise v e
    refine cast ?_ this
    congr 1
    simp only [CallEntry.called]
    cases (code.hooks f).run vm self args <;> rfl
  | fail e => exact raise vm e

theorem goes_accessed {code : Code} {steps : Steps} (hc : CodeGoes code steps) (ok : BitVec 64 → Prog)
    (exn : Exn → Prog) (vm : Vm) (x : CallEntry) : Goes (x.access steps ok exn) vm ok exn (x.accessed code vm) := by
  cases x with
  | value v => exact .refl _ _
  | enter f self args => exact hc.hooks f vm self args ok exn
  | fail e => exact .refl _ _

theorem goes_rethrow (t : Nat) (ty : JType) (ok : BitVec 64 → Prog) (exn : Exn → Prog) (v : BitVec 64) (vm : Vm) :
    Goes (Prog.rethrow t ty ok exn v) vm ok exn (vm.rethrow t (ty.toJValue v)) :=
  goes_act (fun vm => vm.rethrow t (ty.toJValue v)) ok exn vm

/-- A script in steps does what the script does. -/
theorem goes_script {code : Code} {fs : Natives} {steps : Steps} (hs : SameHooks code fs) (hc : CodeGoes code steps)
    (d2f : BitVec 64 → BitVec 32) (t : Nat) (s : Script) : ∀ (vm : Vm) (ok : BitVec 64 → Prog) (exn : Exn → Prog),
    Goes (s.prog d2f fs steps t ok exn) vm ok exn (s.run d2f code t vm) := by
  induction s with
  | ret v => intro vm ok exn; exact .refl _ _
  | raise e => intro vm ok exn; exact .refl _ _
  | jni op k ih =>
    intro vm ok exn
    have := (goes_act (fun vm => Outcome.lift vm (op.run vm t) fun p => .returns p.1 p.2)
      (fun a => (k a).prog d2f fs steps t ok exn) exn vm).andThen fun v a => ih a v ok exn
    rw [lift_andThen] at this
    exact this
  | callA ty form id args k ih =>
    intro vm ok exn
    have := ((goes_act (fun vm => vm.attached t (vm.enterA fs t ty form id args))
      (CallEntry.call t steps (fun v => (k v).prog d2f fs steps t ok exn) exn) exn vm).andThen
        (fun v x => goes_caught hc t _ _ v x)).andThen fun v a => ih a v ok exn
    rw [attached_andThen, attached_andThen, enterA_called hs] at this
    exact this
  | callV ty form id va k ih =>
    intro vm ok exn
    have := ((goes_act (fun vm => vm.attached t (vm.enterV d2f fs t ty form id va))
      (CallEntry.call t steps (fun v => (k v).prog d2f fs steps t ok exn) exn) exn vm).andThen
        (fun v x => goes_caught hc t _ _ v x)).andThen fun v a => ih a v ok exn
    rw [attached_andThen, attached_andThen, enterV_called hs] at this
    exact this
  | getField ty owner id k ih =>
    intro vm ok exn
    have := ((goes_act (fun vm => vm.attached t (vm.enterGet fs ty owner id))
      (CallEntry.access steps (fun v => (k v).prog d2f fs steps t ok exn) exn) exn vm).andThen
        (fun v x => goes_accessed hc _ _ v x)).andThen fun v a => ih a v ok exn
    rw [attached_andThen, attached_andThen, enterGet_accessed hs] at this
    exact this
  | setField ty owner id x k ih =>
    intro vm ok exn
    have := ((goes_act (fun vm => vm.attached t (vm.enterSet fs ty owner id x))
      (CallEntry.access steps (fun _ => k.prog d2f fs steps t ok exn) exn) exn vm).andThen
        (fun v x => goes_accessed hc _ _ v x)).andThen fun v _ => ih v ok exn
    rw [attached_andThen, attached_andThen, enterSet_accessed hs] at this
    exact this
  | invoke target id args k ih =>
    intro vm ok exn
    have key : ∀ (x : JType × Option Nat) (v : Vm), Goes
        (let go := Prog.rethrow t x.1 (fun v => (k v).prog d2f fs steps t ok exn) exn
        match x.2 with
        | some p => steps.registered p x.1 target args go exn
        | none => steps.callA fs t x.1 target.form (some id) args go exn) v
        (fun v => (k v).prog d2f fs steps t ok exn) exn
        ((match x.2 with
          | some p => code.natives p x.1 v target args
          | none => v.callA code.hooks t x.1 target.form (some id) args).andThen
            fun v y => v.rethrow t (x.1.toJValue y)) := by
      rintro ⟨ty, p⟩ v
      cases p with
      | some p => exact (hc.natives p ty v target args _ exn).andThen fun v y => goes_rethrow ..
      | none =>
        have := (goes_act (fun vm => vm.enterA fs t ty target.form (some id) args)
          (CallEntry.call t steps (Prog.rethrow t ty (fun v => (k v).prog d2f fs steps t ok exn) exn) exn) exn v).andThen
            (fun v x => goes_caught hc t _ _ v x)
        rw [enterA_called hs] at this
        exact this.andThen fun v y => goes_rethrow ..
    have := ((goes_act (fun vm => vm.attached t (vm.enterInvoke t target id)) _ exn vm).andThen
      (fun v x => key x v)).andThen fun v a => ih a v ok exn
    rw [attached_andThen, attached_andThen] at this
    refine cast ?_ this
    simp only [Script.run, Script.prog]
    congr 2
    congr 1
    simp only [Vm.enterInvoke, Vm.invokeMethod]
    cases vm.world.method? id with
    | none => rfl
    | some m =>
      dsimp only
      rw [lift_andThen]
      congr 1
      funext y
      cases m.native <;> dsimp only <;> rw [lift_andThen] <;> rfl
  | attempt body handler k ihb ihh ihk =>
    intro vm ok exn
    exact ((ihb vm (fun v => (k v).prog d2f fs steps t ok exn)
      (fun e => (handler e).prog d2f fs steps t (fun v => (k v).prog d2f fs steps t ok exn) exn)).orElse
        fun v e => ihh e v _ exn).andThen fun v a => ihk a v ok exn

theorem goes_code (d2f : BitVec 64 → BitVec 32) (fs : Natives) (t : Nat) : ∀ depth,
    SameHooks (fs.code d2f t depth) fs ∧ CodeGoes (fs.code d2f t depth) (fs.steps d2f t depth)
  | 0 => ⟨⟨fun _ => rfl, fun _ => rfl⟩, fun _ vm _ _ _ _ => ⟨vm, .refl _ _⟩, fun _ _ vm _ _ _ _ => ⟨vm, .refl _ _⟩⟩
  | depth + 1 =>
    have ih := goes_code d2f fs t depth
    ⟨⟨fun _ => rfl, fun _ => rfl⟩, fun _ vm _ _ ok exn => goes_script ih.1 ih.2 d2f t _ vm ok exn,
      fun _ _ vm _ _ ok exn => goes_script ih.1 ih.2 d2f t _ vm ok exn⟩

theorem Pool.run_append (p : Pool) (a b : List Nat) : p.run (a ++ b) = (p.run a).run b := by
  simp only [Pool.run, List.foldl_append]

theorem Pool.step_same {p : Pool} {t : Nat} (h : (p.prog t).Ended) : p.step t = p := by
  unfold Pool.step
  cases hp : p.prog t with
  | step f k => rw [hp] at h; exact h.elim
  | _ => rfl

theorem reaches_pool {t : Nat} {p p' : Prog} {vm vm' : Vm} (h : StepsTo p vm p' vm') :
    ∀ (P : Pool), P.vm = vm → P.prog t = p →
      ∃ n, (P.run (List.replicate n t)).vm = vm' ∧ (P.run (List.replicate n t)).prog t = p' := by
  induction h with
  | refl => exact fun P h1 h2 => ⟨0, h1, h2⟩
  | @step f k vm p' vm' _ ih =>
    intro P h1 h2
    have hs : P.step t = ⟨f P.vm, fun u => if u = t then k P.vm else P.prog u⟩ := by
      unfold Pool.step; rw [h2]
    obtain ⟨n, hn1, hn2⟩ := ih (P.step t) (by rw [hs, h1]) (by rw [hs, ← h1]; simp)
    exact ⟨n + 1, hn1, hn2⟩

theorem run_replicate_ended {P : Pool} {t : Nat} (h : (P.prog t).Ended) : ∀ m, P.run (List.replicate m t) = P
  | 0 => rfl
  | m + 1 => by
    show (P.step t).run (List.replicate m t) = P
    rw [Pool.step_same h]
    exact run_replicate_ended h m

/-! ### What the steps keep -/

/-- Every step, done in a state in order, is of that kind. -/
def Prog.Does (I : Vm → Prop) (R : Vm → Vm → Prop) : Prog → Prop
  | .step f k => ∀ vm, I vm → R vm (f vm) ∧ (k vm).Does I R
  | _ => True

theorem does_act {α : Type} {I : Vm → Prop} {R : Vm → Vm → Prop} (hR : ∀ vm, I vm → R vm vm) {r : Vm → Outcome Vm α}
    {ok : α → Prog} {exn : Exn → Prog} (h : ∀ vm, I vm → EndsIn (R vm) (r vm)) (hok : ∀ a, (ok a).Does I R)
    (hexn : ∀ e, (exn e).Does I R) : (Prog.act r ok exn).Does I R := by
  intro vm hv
  have := h vm hv
  dsimp only
  cases ho : r vm with
  | returns v a => rw [ho] at this; exact ⟨this, hok a⟩
  | raises v e => rw [ho] at this; exact ⟨this, hexn e⟩
  | _ => exact ⟨hR vm hv, trivial⟩

theorem kept_enter {I : Vm → Prop} {vm : Vm} (hv : I vm) (fs : Natives) (ty : JType) (a : Access) (self : Self)
    (args : List (BitVec 64)) (m : Option MethodRec) : EndsIn I (vm.enter fs ty a self args m) := by
  unfold Vm.enter
  split
  · trivial
  · split
    · trivial
    · exact hv

theorem kept_enterMethod {I : Vm → Prop} {vm : Vm} (hv : I vm) {id : Option Nat} {f : MethodRec → Outcome Vm CallEntry}
    (hf : ∀ m, EndsIn I (f m)) : EndsIn I (vm.enterMethod id f) := by
  unfold Vm.enterMethod
  split
  · exact hv
  · split
    · trivial
    · split
      · exact hf _
      · exact hv

theorem kept_enterA {t : Nat} {P : JniOp → Prop} {I : Vm → Prop} (hk : Kept t P I) {vm : Vm} (hv : I vm)
    (fs : Natives) (ty : JType) (form : Form) (id : Option Nat) (args : List (BitVec 64)) :
    EndsIn I (vm.enterA fs t ty form id args) := by
  cases form with
  | virtual obj =>
    exact kept_enterMethod hv fun m => endsIn_lift hv fun ⟨v, c⟩ hx => kept_enter (hk.cls hv hx) ..
  | nonVirtual obj cl =>
    exact kept_enterMethod hv fun m => endsIn_lift hv fun ⟨v, c⟩ hx => kept_enter (hk.cast hv hx) ..
  | static cl =>
    exact endsIn_lift hv fun ⟨v, c⟩ hx => kept_enterMethod (hk.cast hv hx) fun m => kept_enter (hk.cast hv hx) ..

theorem kept_enterV {t : Nat} {P : JniOp → Prop} {I : Vm → Prop} (hk : Kept t P I) {vm : Vm} (hv : I vm)
    (d2f : BitVec 64 → BitVec 32) (fs : Natives) (ty : JType) (form : Form) (id : Option Nat) (va : List CArg) :
    EndsIn I (vm.enterV d2f fs t ty form id va) := by
  unfold Vm.enterV
  split
  · exact hv
  · split
    · trivial
    · exact endsIn_lift hv fun _ _ => kept_enterA hk hv ..

theorem kept_enterGet {t : Nat} {P : JniOp → Prop} {I : Vm → Prop} (hk : Kept t P I) {vm : Vm} (hv : I vm)
    (fs : Natives) (ty : JType) (owner : Owner) (id : Option Nat) : EndsIn I (vm.enterGet fs ty owner id) := by
  unfold Vm.enterGet
  split
  · exact hv
  · split
    · trivial
    · split
      · exact hv
      · split
        · exact endsIn_lift hv fun ⟨v, s⟩ hx => kept_owner hk hv hx
        · trivial

theorem kept_enterSet {t : Nat} {P : JniOp → Prop} {I : Vm → Prop} (hk : Kept t P I) {vm : Vm} (hv : I vm)
    (fs : Natives) (ty : JType) (owner : Owner) (id : Option Nat) (x : BitVec 64) :
    EndsIn I (vm.enterSet fs ty owner id x) := by
  unfold Vm.enterSet
  split
  · exact hv
  · split
    · exact hv
    · split
      · trivial
      · split
        · exact hv
        · split
          · exact endsIn_lift hv fun ⟨v, s⟩ hx => kept_owner hk hv hx
          · trivial

theorem kept_enterInvoke {t : Nat} {P : JniOp → Prop} {I : Vm → Prop} (hk : Kept t P I) {vm : Vm} (hv : I vm)
    (target : Recipient) (id : Nat) : EndsIn I (vm.enterInvoke t target id) := by
  unfold Vm.enterInvoke
  split
  · trivial
  · refine endsIn_lift hv fun ⟨h, out⟩ hx => ?_
    have hv1 := hk.ret hv hx
    dsimp only
    split
    · exact endsIn_lift hv1 fun k _ => hv1
    · exact endsIn_lift hv1 fun k _ => hv1

section
variable {t : Nat} {P : JniOp → Prop} {I : Vm → Prop} {R : Vm → Vm → Prop}

/-- The steps of functions are of that kind. -/
structure StepsDo (I : Vm → Prop) (R : Vm → Vm → Prop) (steps : Steps) : Prop where
  hooks : ∀ f self args ok exn, (∀ v, (ok v).Does I R) → (∀ e, (exn e).Does I R) →
    (steps.hooked f self args ok exn).Does I R
  natives : ∀ p ty target args ok exn, (∀ v, (ok v).Does I R) → (∀ e, (exn e).Does I R) →
    (steps.registered p ty target args ok exn).Does I R

theorem does_caught (hR : ∀ vm, I vm → R vm vm) (hk : ∀ vm, I vm → Kept t P (R vm)) {ok : BitVec 64 → Prog}
    {exn : Exn → Prog} (hok : ∀ v, (ok v).Does I R) (hexn : ∀ e, (exn e).Does I R) (e : Exn) :
    (Prog.caught t ok exn e).Does I R :=
  does_act hR (fun vm hv => endsIn_lift (hR vm hv) fun ⟨_, _⟩ hx => (hk vm hv).raise (hR vm hv) hx) (fun _ => hok 0) hexn

theorem does_call (hR : ∀ vm, I vm → R vm vm) (hk : ∀ vm, I vm → Kept t P (R vm)) {steps : Steps}
    (hc : StepsDo I R steps) {ok : BitVec 64 → Prog} {exn : Exn → Prog} (hok : ∀ v, (ok v).Does I R)
    (hexn : ∀ e, (exn e).Does I R) (x : CallEntry) : (x.call t steps ok exn).Does I R := by
  cases x with
  | value v => exact hok v
  | enter f self args => exact hc.hooks f self args ok _ hok (does_caught hR hk hok hexn)
  | fail e => exact does_caught hR hk hok hexn e

theorem does_access {steps : Steps} (hc : StepsDo I R steps) {ok : BitVec 64 → Prog} {exn : Exn → Prog}
    (hok : ∀ v, (ok v).Does I R) (hexn : ∀ e, (exn e).Does I R) (x : CallEntry) : (x.access steps ok exn).Does I R := by
  cases x with
  | value v => exact hok v
  | enter f self args => exact hc.hooks f self args ok exn hok hexn
  | fail e => exact hexn e

theorem does_script (hR : ∀ vm, I vm → R vm vm) (hk : ∀ vm, I vm → Kept t P (R vm)) {steps : Steps}
    (hc : StepsDo I R steps) (d2f : BitVec 64 → BitVec 32) (fs : Natives) (s : Script) (hs : s.Only P) :
    ∀ {ok : BitVec 64 → Prog} {exn : Exn → Prog}, (∀ v, (ok v).Does I R) → (∀ e, (exn e).Does I R) →
      (s.prog d2f fs steps t ok exn).Does I R := by
  induction s with
  | ret v => intro ok exn hok hexn; exact hok v
  | raise e => intro ok exn hok hexn; exact hexn e
  | jni op k ih =>
    intro ok exn hok hexn
    exact does_act hR (fun vm hv => endsIn_lift (hR vm hv) fun ⟨_, _⟩ hx => (hk vm hv).jni hs.1 (hR vm hv) hx)
      (fun a => ih a (hs.2 a) hok hexn) hexn
  | callA ty form id args k ih =>
    intro ok exn hok hexn
    exact does_act hR (fun vm hv => endsIn_attached (kept_enterA (hk vm hv) (hR vm hv) ..))
      (does_call hR hk hc (fun v => ih v (hs v) hok hexn) hexn) hexn
  | callV ty form id va k ih =>
    intro ok exn hok hexn
    exact does_act hR (fun vm hv => endsIn_attached (kept_enterV (hk vm hv) (hR vm hv) ..))
      (does_call hR hk hc (fun v => ih v (hs v) hok hexn) hexn) hexn
  | getField ty owner id k ih =>
    intro ok exn hok hexn
    exact does_act hR (fun vm hv => endsIn_attached (kept_enterGet (hk vm hv) (hR vm hv) ..))
      (does_access hc (fun v => ih v (hs v) hok hexn) hexn) hexn
  | setField ty owner id x k ih =>
    intro ok exn hok hexn
    exact does_act hR (fun vm hv => endsIn_attached (kept_enterSet (hk vm hv) (hR vm hv) ..))
      (does_access hc (fun v => ih hs hok hexn) hexn) hexn
  | invoke target id args k ih =>
    intro ok exn hok hexn
    refine does_act hR (fun vm hv => endsIn_attached (kept_enterInvoke (hk vm hv) (hR vm hv) ..)) (fun x => ?_) hexn
    have hgo : ∀ v, (Prog.rethrow t x.1 (fun v => (k v).prog d2f fs steps t ok exn) exn v).Does I R := fun v =>
      does_act hR (fun vm hv => kept_rethrow (hR vm hv) ..) (fun v => ih v (hs v) hok hexn) hexn
    dsimp only
    split
    · exact hc.natives _ _ _ _ _ _ hgo hexn
    · exact does_act hR (fun vm hv => kept_enterA (hk vm hv) (hR vm hv) ..) (does_call hR hk hc hgo hexn) hexn
  | attempt body handler k ihb ihh ihk =>
    intro ok exn hok hexn
    exact ihb hs.1 (fun v => ihk v (hs.2.2 v) hok hexn)
      fun e => ihh e (hs.2.1 e) (fun v => ihk v (hs.2.2 v) hok hexn) hexn

theorem does_code (hR : ∀ vm, I vm → R vm vm) (hk : ∀ vm, I vm → Kept t P (R vm)) (d2f : BitVec 64 → BitVec 32)
    {fs : Natives} (hf : fs.Only P) : ∀ depth, StepsDo I R (fs.steps d2f t depth)
  | 0 => ⟨fun _ _ _ _ _ _ _ => trivial, fun _ _ _ _ _ _ _ _ => trivial⟩
  | depth + 1 =>
    ⟨fun f self args _ _ h1 h2 => does_script hR hk (does_code hR hk d2f hf depth) d2f fs _ (hf.1 f self args) h1 h2,
      fun p ty target args _ _ h1 h2 =>
        does_script hR hk (does_code hR hk d2f hf depth) d2f fs _ (hf.2 p ty target args) h1 h2⟩

end

theorem Script.Only.mono {P Q : JniOp → Prop} (h : ∀ op, P op → Q op) (s : Script) (hs : s.Only P) : s.Only Q := by
  induction s with
  | ret _ => trivial
  | raise _ => trivial
  | jni op k ih => exact ⟨h _ hs.1, fun a => ih a (hs.2 a)⟩
  | setField _ _ _ _ k ih => exact ih hs
  | attempt body handler k ihb ihh ihk =>
    exact ⟨ihb hs.1, fun e => ihh e (hs.2.1 e), fun v => ihk v (hs.2.2 v)⟩
  | _ => rename_i ih; exact fun v => ih v (hs v)

theorem Natives.Only.mono {P Q : JniOp → Prop} (h : ∀ op, P op → Q op) {fs : Natives} (hf : fs.Only P) : fs.Only Q :=
  ⟨fun f self args => Script.Only.mono h _ (hf.1 f self args),
    fun p ty target args => Script.Only.mono h _ (hf.2 p ty target args)⟩

/-! ### All threads -/

theorem _root_.Spec.ByThreads.refl (P : Nat → JniOp → Prop) (vm : Vm) : ByThreads P vm vm := ⟨[], [], nofun, rfl⟩

theorem _root_.Spec.ByThreads.trans {P : Nat → JniOp → Prop} {a b c : Vm} (h : ByThreads P a b)
    (h' : ByThreads P b c) : ByThreads P a c := by
  obtain ⟨p, as, hp, hpr⟩ := h
  obtain ⟨q, bs, hq, hqr⟩ := h'
  refine ⟨p ++ q, as ++ bs, fun x hx => (List.mem_append.1 hx).elim (hp x) (hq x), ?_⟩
  rw [runJni_append, hpr]
  simp only [Res.bind_ok, hqr]

theorem _root_.Spec.ByThreads.mono {P Q : Nat → JniOp → Prop} (hPQ : ∀ t op, P t op → Q t op) {a b : Vm}
    (h : ByThreads P a b) : ByThreads Q a b := by
  obtain ⟨p, as, hp, hpr⟩ := h
  exact ⟨p, as, fun x hx => hPQ _ _ (hp x hx), hpr⟩

theorem _root_.Spec.ByThreads.reachable {P : Nat → JniOp → Prop} {a b : Vm} (h : ByThreads P a b)
    (ha : JniReachable a) : JniReachable b := by
  obtain ⟨ops, as, _, hr⟩ := h
  obtain ⟨p, bs, hp⟩ := ha
  exact ⟨p ++ ops, bs ++ as, by rw [runJni_append, hp]; simp only [Res.bind_ok, hr]⟩

theorem _root_.Spec.ByCallsOf.threads {t : Nat} {P : JniOp → Prop} {a b : Vm} (h : ByCallsOf t P a b)
    {Q : Nat → JniOp → Prop} (hQ : ∀ op, P op → Q t op) : ByThreads Q a b := by
  obtain ⟨ops, as, ht, hr⟩ := h
  refine ⟨ops, as, fun x hx => ?_, hr⟩
  obtain ⟨h1, h2⟩ := ht x hx
  rw [h1]
  exact hQ _ h2

/-- What every step keeps is kept by every schedule. -/
theorem pool_run {I : Vm → Prop} {R : Nat → Vm → Vm → Prop} (hI : ∀ t vm vm', I vm → R t vm vm' → I vm')
    {S : Vm → Vm → Prop} (h0 : ∀ vm, S vm vm) (hS : ∀ a b c, S a b → S b c → S a c) :
    ∀ (sched : List Nat), (∀ t ∈ sched, ∀ a b, R t a b → S a b) → ∀ (P : Pool), I P.vm →
      (∀ t, (P.prog t).Does I (R t)) →
      S P.vm (P.run sched).vm ∧ I (P.run sched).vm ∧ ∀ t, ((P.run sched).prog t).Does I (R t) := by
  intro sched
  induction sched with
  | nil => exact fun _ P h1 h2 => ⟨h0 _, h1, h2⟩
  | cons t sched ih =>
    intro hRS P h1 h2
    show S P.vm ((P.step t).run sched).vm ∧ _
    have hstep : S P.vm (P.step t).vm ∧ I (P.step t).vm ∧ ∀ u, ((P.step t).prog u).Does I (R u) := by
      have ht := h2 t
      unfold Pool.step
      cases hp : P.prog t with
      | step f k =>
        rw [hp] at ht
        obtain ⟨hr, hk⟩ := ht P.vm h1
        refine ⟨hRS t (List.mem_cons_self ..) _ _ hr, hI t _ _ h1 hr, fun u => ?_⟩
        dsimp only
        split
        · rename_i h; subst h; exact hk
        · exact h2 u
      | _ => exact ⟨h0 _, h1, h2⟩
    obtain ⟨a, b, c⟩ := ih (fun u hu => hRS u (List.mem_cons_of_mem _ hu)) (P.step t) hstep.2.1 hstep.2.2
    exact ⟨hS _ _ _ hstep.1 a, b, c⟩

/-- The code of a thread does nothing but calls of that thread. -/
theorem thread_does (d2f : BitVec 64 → BitVec 32) {fs : Natives} {P : JniOp → Prop} (hf : fs.Only P) (depth t : Nat)
    {s : Script} (hs : s.Only P) :
    (s.thread d2f fs depth t).Does JniReachable (ByCallsOf t fun op => P op ∨ CallsOwn op) := by
  have hR : ∀ vm, JniReachable vm → ByCallsOf t (fun op => P op ∨ CallsOwn op) vm vm := fun vm _ => .refl t _ vm
  have hk : ∀ vm, JniReachable vm → Kept t P (ByCallsOf t (fun op => P op ∨ CallsOwn op) vm) := fun vm hr =>
    kept_calls hr.jniInv t (fun _ h => .inl h) (fun _ h => .inr h)
  exact does_script hR hk (does_code hR hk d2f hf depth) d2f fs s hs (fun _ => trivial) (fun _ => trivial)

/-- A thread that does no step keeps its code. -/
theorem run_prog_other {t : Nat} : ∀ {sched : List Nat}, t ∉ sched → ∀ P : Pool, (P.run sched).prog t = P.prog t := by
  intro sched
  induction sched with
  | nil => exact fun _ _ => rfl
  | cons u sched ih =>
    intro ht P
    show ((P.step u).run sched).prog t = _
    rw [ih (fun h => ht (List.mem_cons_of_mem _ h))]
    have hu : t ≠ u := fun h => ht (h ▸ List.mem_cons_self ..)
    unfold Pool.step
    split
    · simp [hu]
    · rfl

/-- Once ended, code stays as it is. -/
theorem run_prog_ended {t : Nat} : ∀ (sched : List Nat) (P : Pool), (P.prog t).Ended →
    (P.run sched).prog t = P.prog t := by
  intro sched
  induction sched with
  | nil => exact fun _ _ => rfl
  | cons u sched ih =>
    intro P hp
    show ((P.step u).run sched).prog t = _
    have : (P.step u).prog t = P.prog t := by
      by_cases hu : u = t
      · subst hu; rw [Pool.step_same hp]
      · unfold Pool.step
        split
        · simp [Ne.symm hu]
        · rfl
    rw [ih _ (this ▸ hp), this]

/-! ### Hooks last -/

theorem hook_step {vm vm' : Vm} (inv : JniInv vm) {t : Nat} {op : JniOp} {a : JniAnswer}
    (h : op.run vm t = .ok (vm', a)) {c : Nat} {m : MethodRec} (hm : m ∈ (vm.world.mem c).methods)
    (hn : m.native = none) (ho : ¬ Rehooks m.static m.name m.signature op) : m ∈ (vm'.world.mem c).methods := by
  obtain ⟨hb, -⟩ := run_body h
  have heap : ∀ {v v' : Vm} {hop : HeapOp} {out : Out}, v.heapCall t hop = .ok (v', out) →
      v'.world.mem = v.world.mem := by
    intro v v' hop out hx
    rw [(heapCall_ok hx).2]; rfl
  have keep : ∀ {w w' : World} {mop : MemOp}, w.mem = vm.world.mem → mop.run w = .ok w' →
      (∀ fn, mop ≠ .hookMethod c m.static m.name m.signature fn) → m ∈ (w'.mem c).methods := fun hw hx hmop =>
    step_method_keep hx (by rw [hw]; exact hm) hn hmop
  cases op with
  | heap op =>
    obtain ⟨⟨v, o⟩, h1, h2⟩ := Res.bind_eq_ok.1 hb
    cases h2
    rw [heap h1]; exact hm
  | getMethodID d s r an cl n sig =>
    obtain ⟨⟨v, x⟩, h1, h2⟩ := Res.bind_eq_ok.1 hb
    cases castClass_self inv h1
    obtain ⟨⟨w, id⟩, h3, h4⟩ := Res.bind_eq_ok.1 h2
    cases h4
    refine keep (mop := .getMethodID d s r an x n sig) rfl ?_ nofun
    simp only [MemOp.run]
    rw [show World.getMethodID _ _ _ _ _ _ _ _ = _ from h3]
    rfl
  | getFieldID d s r cl n ty =>
    obtain ⟨⟨v, x⟩, h1, h2⟩ := Res.bind_eq_ok.1 hb
    cases castClass_self inv h1
    obtain ⟨⟨w, id⟩, h3, h4⟩ := Res.bind_eq_ok.1 h2
    cases h4
    refine keep (mop := .getFieldID d s r x n ty) rfl ?_ nofun
    simp only [MemOp.run]
    rw [show World.getFieldID _ _ _ _ _ _ _ = _ from h3]
    rfl
  | registerNatives cl l =>
    obtain ⟨⟨v, x⟩, h1, h2⟩ := Res.bind_eq_ok.1 hb
    cases castClass_self inv h1
    cases h2
    exact keep (mop := .registerNatives x l) rfl rfl nofun
  | unregisterNatives cl =>
    obtain ⟨⟨v, x⟩, h1, h2⟩ := Res.bind_eq_ok.1 hb
    cases castClass_self inv h1
    cases h2
    exact keep (mop := .unregisterNatives x) rfl rfl nofun
  | isAssignableFrom d c1 c2 =>
    cases assignable_self inv hb
    exact hm
  | isInstanceOf d obj cl =>
    cases obj with
    | none => cases hb; exact hm
    | some o =>
      obtain ⟨⟨v, out⟩, h1, h2⟩ := Res.bind_eq_ok.1 hb
      have g := heapCall_grows inv h1
      cases out with
      | ref x =>
        cases assignable_self g.inv h2
        rw [heap h1]; exact hm
      | _ => cases h2
  | getSuperclass cl =>
    obtain ⟨⟨v, x⟩, h1, h2⟩ := Res.bind_eq_ok.1 hb
    cases castClass_self inv h1
    obtain ⟨d, rfl, h2⟩ := onClass_inv h2
    obtain ⟨b, h3, h4⟩ := Res.bind_eq_ok.1 h2
    cases hn : vm.world.nameOf b with
    | none =>
      simp only [hn] at h4
      cases h4
      exact hm
    | some n =>
      simp only [hn] at h4
      obtain ⟨⟨v, o⟩, h5, h6⟩ := Res.bind_eq_ok.1 h4
      cases h6
      rw [heap h5]; exact hm
  | cpp op =>
    obtain ⟨⟨w, x⟩, h1, h2⟩ := Res.bind_eq_ok.1 hb
    have hres : ∀ (v : World) (cl : Option Str), (Build.debug.resolve v cl).1.mem = v.mem := by
      intro v cl
      cases cl <;> rfl
    have hw : m ∈ (w.mem c).methods := by
      cases op with
      | findClass n => cases h1; exact hm
      | getMethodID d s r an cl n sig =>
        obtain ⟨⟨w1, id⟩, h3, h4⟩ := Res.bind_eq_ok.1 h1
        cases h4
        refine keep (mop := .getMethodID d s r an (Build.debug.resolve vm.world cl).2 n sig) (hres _ cl) ?_ nofun
        simp only [MemOp.run]
        rw [show World.getMethodID _ _ _ _ _ _ _ _ = _ from h3]
        rfl
      | getFieldID d s r cl n ty =>
        obtain ⟨⟨w1, id⟩, h3, h4⟩ := Res.bind_eq_ok.1 h1
        cases h4
        refine keep (mop := .getFieldID d s r (Build.debug.resolve vm.world cl).2 n ty) (hres _ cl) ?_ nofun
        simp only [MemOp.run]
        rw [show World.getFieldID _ _ _ _ _ _ _ = _ from h3]
        rfl
      | hookMethod cl s n sig fn =>
        obtain ⟨d, hd, h3⟩ := onClass_inv h1
        cases h3
        refine keep (mop := .hookMethod d s n sig fn) (hres _ (some cl)) rfl fun g e => ?_
        cases e
        exact ho ⟨rfl, rfl, rfl⟩
      | hookField cl g s n ty fn =>
        obtain ⟨d, hd, h3⟩ := onClass_inv h1
        cases h3
        exact keep (mop := .hookField d g s n ty fn) (hres _ (some cl)) rfl nofun
      | registerNatives cl l =>
        cases h1
        exact keep (mop := .registerNatives (Build.debug.resolve vm.world cl).2 l) (hres _ cl) rfl nofun
      | unregisterNatives cl =>
        cases h1
        exact keep (mop := .unregisterNatives (Build.debug.resolve vm.world cl).2) (hres _ cl) rfl nofun
      | bindType t n bs =>
        cases h1
        exact keep (mop := .bindType t n bs) rfl rfl nofun
      | isAssignableFrom d c1 c2 =>
        obtain ⟨y, h3, h4⟩ := Res.bind_eq_ok.1 h1
        cases h4
        rw [hres, hres]; exact hm
      | getSuperclass cl =>
        obtain ⟨d, hd, h3⟩ := onClass_inv h1
        obtain ⟨y, h4, h5⟩ := Res.bind_eq_ok.1 h3
        cases h5
        rw [hres]; exact hm
    cases hmk : op.makes with
    | none =>
      simp only [hmk] at h2
      cases h2
      exact hw
    | some n =>
      simp only [hmk] at h2
      obtain ⟨⟨v, o⟩, h5, h6⟩ := Res.bind_eq_ok.1 h2
      cases h6
      rw [heap h5]; exact hw

theorem hook_run {ops : List (Nat × JniOp)} : ∀ {vm vm' : Vm} {as : List JniAnswer}, JniInv vm →
    runJni vm ops = .ok (vm', as) → ∀ {c : Nat} {m : MethodRec}, m ∈ (vm.world.mem c).methods → m.native = none →
      (∀ x ∈ ops, ¬ Rehooks m.static m.name m.signature x.2) → m ∈ (vm'.world.mem c).methods := by
  induction ops with
  | nil => intro vm vm' as _ h c m hm _ _; cases h; exact hm
  | cons x ops ih =>
    intro vm vm' as inv h c m hm hn ho
    obtain ⟨t, op⟩ := x
    obtain ⟨⟨v, a⟩, h1, h2⟩ := Res.bind_eq_ok.1 h
    obtain ⟨⟨v', as'⟩, h3, h4⟩ := Res.bind_eq_ok.1 h2
    cases h4
    exact ih (jni_grows inv h1).inv h3 (hook_step inv h1 hm hn (ho (t, op) (List.mem_cons_self ..))) hn
      fun y hy => ho y (List.mem_cons_of_mem _ hy)

/-- Calls of other threads leave a thread alone. -/
theorem runHeap_untouched {u : Nat} {ops : List (Nat × HeapOp)} : ∀ {h h' : Heap}, HeapReachable h →
    (∀ x ∈ ops, x.1 ≠ u) → runHeap h ops = .ok h' → h'.envs u = h.envs u := by
  induction ops with
  | nil => intro h h' _ _ hx; cases hx; rfl
  | cons x ops ih =>
    intro h h' hr ht hx
    obtain ⟨⟨h1, out⟩, h2, h3⟩ := Res.bind_eq_ok.1 hx
    rw [ih (hr.step h2) (fun y hy => ht y (List.mem_cons_of_mem _ hy)) h3]
    exact runHeap_others (t := x.1) (ops := [x]) hr (fun y hy => by rw [List.mem_singleton.1 hy])
      (by obtain ⟨v, op⟩ := x; simp only [runHeap]; rw [show op.run h v = _ from h2]; rfl) u
      (ht x (List.mem_cons_self ..)).symm

theorem byThreads_env {P : Nat → JniOp → Prop} {vm vm' : Vm} (hr : JniReachable vm) (h : ByThreads P vm vm') {u : Nat}
    (hu : ∀ op, ¬ P u op) : vm'.heap.envs u = vm.heap.envs u := by
  obtain ⟨ops, as, ht, hx⟩ := h
  obtain ⟨hops, hh, hp⟩ := (runJni_grows hr.jniInv hx).heap
  refine runHeap_untouched hr.jniInv.heap (fun x hx => ?_) hh
  obtain ⟨y, hy, hb⟩ := hp x hx
  rw [hb.1]
  intro e
  exact hu _ (e ▸ ht y hy)

/-! ### Code that other threads do not disturb -/

/-- In the states in order, the code changes nothing and ends in one of these ways. -/
def Prog.Gives (J : Vm → Prop) (Q : Prog → Prop) : Prog → Prop
  | .step f k => ∀ vm, J vm → f vm = vm ∧ (k vm).Gives J Q
  | p => Q p

theorem Prog.Gives.ended {J : Vm → Prop} {Q : Prog → Prop} {p : Prog} (h : p.Gives J Q) (hp : p.Ended) : Q p := by
  cases p with
  | step f k => exact hp.elim
  | _ => exact h

theorem gives_run {J : Vm → Prop} {Q : Prog → Prop} {R : Nat → Vm → Vm → Prop} {I : Vm → Prop} {t : Nat}
    (hJI : ∀ vm, J vm → I vm) (hJ : ∀ u, u ≠ t → ∀ a b, J a → R u a b → J b) : ∀ (sched : List Nat) (P : Pool), J P.vm →
      (P.prog t).Gives J Q → (∀ u, u ≠ t → (P.prog u).Does I (R u)) →
      J (P.run sched).vm ∧ ((P.run sched).prog t).Gives J Q := by
  intro sched
  induction sched with
  | nil => exact fun P h1 h2 _ => ⟨h1, h2⟩
  | cons v sched ih =>
    intro P h1 h2 h3
    show J ((P.step v).run sched).vm ∧ (((P.step v).run sched).prog t).Gives J Q
    have hstep : J (P.step v).vm ∧ ((P.step v).prog t).Gives J Q ∧
        ∀ u, u ≠ t → ((P.step v).prog u).Does I (R u) := by
      unfold Pool.step
      cases hp : P.prog v with
      | step f k =>
        dsimp only
        by_cases hv : v = t
        · subst hv
          rw [hp] at h2
          obtain ⟨e, hk⟩ := h2 P.vm h1
          refine ⟨by rw [e]; exact h1, by simpa using hk, fun u hu => ?_⟩
          simpa [hu] using h3 u hu
        · have hd := h3 v hv
          rw [hp] at hd
          obtain ⟨hr, hk⟩ := hd P.vm (hJI _ h1)
          refine ⟨hJ v hv _ _ h1 hr, by simpa [Ne.symm hv] using h2, fun u hu => ?_⟩
          by_cases huv : u = v
          · subst huv; simpa using hk
          · simpa [huv] using h3 u hu
      | _ => exact ⟨h1, h2, h3⟩
    exact ih _ hstep.1 hstep.2.1 hstep.2.2

/-- The method is hooked, the class is where it was and the thread is attached. -/
structure Undisturbed (t k : Nat) (n : Str) (c : Nat) (nm : Str) (cm : Nat) (m : MethodRec) (vm : Vm) : Prop where
  reach : JniReachable vm
  env : (vm.heap.envs t).isSome
  obj : ∃ o, vm.heap.objs k = some o ∧ o.kind = .cls n
  cls : vm.world.IsClass n c
  owner : vm.world.IsClass nm cm
  method : m ∈ (vm.world.mem cm).methods

theorem Undisturbed.kept {t k : Nat} {n : Str} {c : Nat} {nm : Str} {cm : Nat} {m : MethodRec} {a b : Vm}
    (h : Undisturbed t k n c nm cm m a) (hn : m.native = none) {P : Nat → JniOp → Prop} (hab : ByThreads P a b)
    (hP : ∀ u op, P u op → u ≠ t ∧ ¬ Rehooks m.static m.name m.signature op) : Undisturbed t k n c nm cm m b := by
  have he := byThreads_env h.reach hab (u := t) fun op hp => (hP _ _ hp).1 rfl
  have hr := hab.reachable h.reach
  obtain ⟨ops, as, ht, hx⟩ := hab
  have g := runJni_grows h.reach.jniInv hx
  obtain ⟨hops, hh, _⟩ := g.heap
  obtain ⟨o, ho, hk⟩ := h.obj
  exact ⟨hr, by rw [he]; exact h.env, classObject_kept h.reach.jniInv.heap hh ho hk, g.names _ _ h.cls,
    g.names _ _ h.owner, hook_run h.reach.jniInv hx h.method hn fun x hx => (hP _ _ (ht x hx)).2⟩

theorem Undisturbed.enters {t k : Nat} {n : Str} {c : Nat} {nm : Str} {cm : Nat} {m : MethodRec} {vm : Vm}
    (h : Undisturbed t k n c nm cm m vm) (fs : Natives) {f : Nat} (hf : m.handle = some f) (hk : fs.kind f = .static)
    (args : List (BitVec 64)) :
    vm.attached t (vm.enterA fs t (fs.type f) (.static (some k)) (some m.id) args) =
      .returns vm (.enter f (.cls (some c)) args) := by
  obtain ⟨o, ho, hko⟩ := h.obj
  have hc : IsClassRef vm (some k) c :=
    ⟨k, o, n, .direct ho (by rw [hko]; exact fun _ => ⟨nofun, nofun⟩), ho, hko, h.cls⟩
  have hn : Names vm.world m.id m := ⟨nm, cm, h.owner, h.method, rfl⟩
  obtain ⟨e, he⟩ := Option.isSome_iff_exists.1 h.env
  simp only [Vm.attached, he, Option.isNone_some, Bool.false_eq_true, if_false, Vm.enterA,
    castClass_ref h.reach.jniInv.vm hc, Outcome.lift, Vm.enterMethod, method?_names h.reach.jniInv.vm.1 hn, hf,
    Option.isSome_some, if_true, Vm.enter, Natives.entry, hk]

/-- The recursive function in steps. -/
theorem countdown_gives (d2f : BitVec 64 → BitVec 32) (fs : Natives) {t k : Nat} {J : Vm → Prop} {id f : Nat} {c : Nat}
    (hbody : ∀ self, fs.hooked f self = countdown (some k) id)
    (henter : ∀ vm, J vm → ∀ args, vm.attached t (vm.enterA fs t .int (.static (some k)) (some id) args) =
      .returns vm (.enter f (.cls (some c)) args)) {Q : Prog → Prop} : ∀ (depth : Nat) (n : BitVec 64)
    (ok : BitVec 64 → Prog) (exn : Exn → Prog), (n.toNat ≤ depth → (ok n).Gives J Q) →
      (¬ n.toNat ≤ depth → Q .diverges) →
      ((countdown (some k) id [n]).prog d2f fs (fs.steps d2f t depth) t ok exn).Gives J Q := by
  intro depth
  induction depth with
  | zero =>
    intro n ok exn h1 h2
    by_cases h0 : n = 0
    · subst h0
      simp only [countdown, if_true, Script.prog]
      exact h1 (by decide)
    · have hpos : ¬ n.toNat ≤ 0 := by
        intro h; exact h0 (BitVec.eq_of_toNat_eq (by simpa using h))
      simp only [countdown, h0, if_false, Script.prog, Prog.act]
      intro vm hv
      simp only [henter vm hv]
      exact ⟨trivial, h2 hpos⟩
  | succ depth ih =>
    intro n ok exn h1 h2
    by_cases h0 : n = 0
    · subst h0
      simp only [countdown, if_true, Script.prog]
      exact h1 (Nat.zero_le _)
    · have hn1 : (n - 1).toNat = n.toNat - 1 ∧ 0 < n.toNat := by
        have : n.toNat ≠ 0 := fun h => h0 (BitVec.eq_of_toNat_eq (by simpa using h))
        have := n.isLt
        have h1 : (1 : BitVec 64).toNat = 1 := rfl
        simp only [BitVec.toNat_sub, h1]
        omega
      simp only [countdown, h0, if_false, Script.prog, Prog.act]
      intro vm hv
      simp only [henter vm hv]
      refine ⟨trivial, ?_⟩
      simp only [CallEntry.call, Natives.steps, hbody]
      refine ih (n - 1) _ _ (fun h => ?_) fun h => h2 (by omega)
      rw [BitVec.sub_add_cancel]
      exact h1 (by omega)

end Jnivm
