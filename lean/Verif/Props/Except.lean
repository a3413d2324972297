import Verif.Lemmas.Except
import Verif.Props.Proxy
/-!
C70: `ThrowNew` raises an exception with the given message, and `ExceptionDescribe` prints it.
-/
namespace Jnivm
open Spec
open Heap hiding Live

/-- C70. `ExceptionDescribe` of an attached thread: nothing pending, an exception with a text, one without
a text, and a `Throwable` without an exception, which is undefined.  It never changes anything. -/
theorem describe_exact {h : Heap} (hr : HeapReachable h) {t : Nat} {env : Env} (he : h.envs t = some env)
    (what : Exn → Option Str) :
    (env.pending = none ∧ h.describe what t = .ok (h, some "No pending Exception".toList)) ∨
    (∃ e s, Pends h t (some e) ∧ what e = some s ∧
      h.describe what t = .ok (h, some (lineOf (cText s)))) ∨
    (∃ e, Pends h t (some e) ∧ what e = none ∧ h.describe what t = .ok (h, none)) ∨
    (Pends h t none ∧ h.describe what t = .ub .nullDeref) := by
  rcases pends_cases hr he with hn | ⟨e, hp⟩
  · exact .inl ⟨hn, describe_none he hn what⟩
  · cases e with
    | none => exact .inr (.inr (.inr ⟨hp, describe_bare hp what⟩))
    | some e =>
      have := describe_pends hp what
      cases hw : what e with
      | none =>
        rw [hw] at this
        exact .inr (.inr (.inl ⟨e, hp, hw, this⟩))
      | some s =>
        rw [hw] at this
        exact .inr (.inl ⟨e, s, hp, hw, this⟩)

/-- C70. The exception inside the pending `Throwable` is the same until this thread raises, clears or
detaches, whatever else is called and whatever the other threads do; so it is printed the same. -/
theorem describe_kept {h h' : Heap} (hr : HeapReachable h) {t : Nat} {e : Exn} (hp : Pends h t (some e))
    {ops : List (Nat × HeapOp)} (hq : ∀ op, (t, op) ∈ ops → ¬ TouchesPending op) (hx : runHeap h ops = .ok h')
    (what : Exn → Option Str) :
    Pends h' t (some e) ∧ h'.describe what t = .ok (h', (what e).map fun s => lineOf (cText s)) :=
  have := pends_kept hr hp hq hx
  ⟨this, describe_pends this what⟩

/-- C70. `ThrowNew` on an attached thread returns 0, and from then on, until this thread raises, clears or
detaches, the pending exception is a new object which contains the message, `ExceptionOccurred` returns it and
`ExceptionDescribe` prints the message.  Partial form of C70: the class is lost, see `throwNew_class`. -/
theorem throwNew_partial {h : Heap} (hr : HeapReachable h) {t : Nat} {env : Env} (he : h.envs t = some env)
    (c : Option Nat) {m : Str} (hm : IsCString m) :
    ∃ h1, h.throwNew t c (some m) = .ok (h1, 0) ∧ HeapReachable h1 ∧ (∀ u, u ≠ t → h1.envs u = h.envs u) ∧
      ∀ ops h2, (∀ op, (t, op) ∈ ops → ¬ TouchesPending op) → runHeap h1 ops = .ok h2 →
        Pends h2 t (some (.message m)) ∧ (∃ x, h.next ≤ x ∧ Reports h2 t (some x)) ∧
        ∀ others, h2.describe (Exn.what others) t = .ok (h2, some (lineOf m)) := by
  obtain ⟨h1, o, hx, he1, ho, hk, hu⟩ := raise_run hr he (.message m)
  have hr1 := hr.step hx
  refine ⟨h1, ?_, hr1, hu, fun ops h2 hq hx2 => ?_⟩
  · simp only [Heap.throwNew, cText_eq hm, hx, Res.bind_ok]
  · have hp1 : Pends h1 t (some (.message m)) := ⟨_, h.next, o, he1, rfl, ho, hk⟩
    have hd := fun others => describe_kept hr1 hp1 hq hx2 (Exn.what others)
    obtain ⟨e2, he2, hpe, hrep⟩ := pending_unchanged hr1 he1 hq hx2
    refine ⟨(hd fun _ => none).1, ⟨h.next, Nat.le_refl _, hrep⟩, fun others => ?_⟩
    rw [(hd others).2]
    simp only [Exn.what, Option.map, cText_eq hm]

/-- Sample for the theorems above: a message is thrown by one thread, another one raises and clears, the
thread itself goes on with frames and references. -/
example : ∃ h h1 h2 env, HeapReachable h ∧ h.envs 0 = some env ∧ IsCString "boom".toList ∧
    h.throwNew 0 (some 3) (some "boom".toList) = .ok (h1, 0) ∧
    runHeap h1 [(1, .raise .badCast), (0, .exceptionOccurred), (0, .pushLocalFrame), (1, .exceptionClear),
      (0, .deleteLocalRef (some 9)), (0, .popLocalFrame none)] = .ok h2 ∧
    h2.describe (Exn.what fun _ => none) 0 = .ok (h2, some "Exception with Message `boom` was thrown".toList) := by
  obtain ⟨h, hx, hr, hp⟩ := reachable_of (ops := [(1, .attach)])
    (p := fun h => (h.envs 0).any (fun _ => true) && (h.throwNew 0 (some 3) (some "boom".toList)).holds fun x =>
      x.2 == 0 && (runHeap x.1 [(1, .raise .badCast), (0, .exceptionOccurred), (0, .pushLocalFrame), (1, .exceptionClear),
      (0, .deleteLocalRef (some 9)), (0, .popLocalFrame none)]).holds fun _ => true) (by decide +kernel)
  simp only [Bool.and_eq_true, beq_iff_eq, Res.holds_iff] at hp
  obtain ⟨he, ⟨h1, v⟩, hx1, hv, h2, hx2, _⟩ := hp
  obtain ⟨env, he, _⟩ := Option.any_eq_true _ _ |>.1 he
  simp only at hv hx2
  subst hv
  have hm : IsCString "boom".toList := by unfold IsCString; decide +kernel
  refine ⟨h, h1, h2, env, hr, he, hm, hx1, hx2, ?_⟩
  obtain ⟨h1', hx1', _, _, hall⟩ := throwNew_partial hr he (some 3) hm
  rw [hx1] at hx1'
  injection hx1' with hx1'; injection hx1' with hx1' _
  subst hx1'
  obtain ⟨_, _, hd⟩ := hall _ _ (by simp [TouchesPending]) hx2
  rw [hd]
  have : lineOf "boom".toList = "Exception with Message `boom` was thrown".toList := by decide +kernel
  rw [this]

/-- C70 fails for the class: whatever class is given to `ThrowNew`, the exception that `ExceptionOccurred`
returns has the class of the C++ type `Throwable`. -/
theorem throwNew_class {h h1 h2 : Heap} (hr : HeapReachable h) {t : Nat} {c : Option Nat} {m : Option Str} {v : Int}
    {x : Option Nat} (hx1 : h.throwNew t c m = .ok (h1, v))
    (hx2 : HeapOp.exceptionOccurred.run h1 t = .ok (h2, .ref x)) :
    ∃ i o, x = some i ∧ h2.objs i = some o ∧ o.cls = h.classes.lookup "java/lang/Throwable".toList := by
  cases m with
  | none => cases hx1
  | some m =>
    obtain ⟨⟨h1', out⟩, hx, hv⟩ := Res.bind_eq_ok.1 hx1
    injection hv with hv; injection hv with hv _
    simp only at hv
    subst hv
    have hr1 := hr.step hx
    obtain ⟨h1', hx', rfl⟩ := Heap.run_ok hx
    obtain ⟨hb, hne⟩ := Heap.exec_ok hx'
    obtain ⟨env, he⟩ := hne rfl
    obtain ⟨e2, hee, hb⟩ := Res.bind_eq_ok.1 (Heap.outUnit_ok hb).1
    have : e2 = env := by
      have := Heap.env_ok.1 hee
      simpa [Heap.alloc, Heap.setObj, he] using this.symm
    subst this
    cases hb
    obtain ⟨h1c, o0, hx0, he0, ho0, _⟩ := raise_run hr he (.message (cText m))
    rw [hx] at hx0
    injection hx0 with hx0; injection hx0 with hx0 _
    subst hx0
    have hc0 : o0.cls = none := by
      have := Heap.collect_sub ho0
      simp [Heap.setObj] at this
      rw [← this]
    have hp2 := (pending_unchanged hr1 he0 (t := t) (ops := [(t, .exceptionOccurred)])
      (by simp [TouchesPending]) (by show (HeapOp.run _ _ _).bind _ = _; rw [hx2]; rfl))
    obtain ⟨e2, he2, hpe2, _⟩ := hp2
    obtain ⟨o2, p2, ho2, _⟩ := (hr1.step hx2).pending t e2 h.next he2 hpe2
    obtain ⟨h2', hx2', rfl⟩ := Heap.run_ok hx2
    obtain ⟨hb2, _⟩ := Heap.exec_ok hx2'
    obtain ⟨r, hb2, hx3⟩ := Heap.outRef_ok hb2
    injection hx3 with hx3
    unfold Heap.exceptionOccurred at hb2
    rw [Heap.env_ok.2 he0, Res.bind_ok] at hb2
    obtain ⟨h4, hb4, hr4⟩ := Res.bind_eq_ok.1 hb2
    injection hr4 with hr4; injection hr4 with hr4 hr5
    subst hr4
    obtain ⟨o4, ho4, _, _, ho5⟩ := Heap.toJNI_ok hb4
    rw [ho0] at ho4; cases ho4
    have ho6 := Heap.collect_sub ho2
    rw [ho5] at ho6
    refine ⟨h.next, o2, hx3.trans hr5.symm, ho2, ?_⟩
    injection ho6 with ho6
    rw [← ho6, hc0]
    simp [Heap.typeClass, Heap.setObj, Heap.setEnv]

/-- Sample for `throwNew_class`, and a witness: the class found for "java/io/IOException" is given, the
exception has another one. -/
theorem throwNew_loses_class : ∃ h c h1 h2 i o, HeapReachable h ∧
    h.classes.lookup "java/io/IOException".toList = some c ∧ h.throwNew 0 (some c) (some "boom".toList) = .ok (h1, 0) ∧
    HeapOp.exceptionOccurred.run h1 0 = .ok (h2, .ref (some i)) ∧ h2.objs i = some o ∧ o.cls ≠ some c := by
  obtain ⟨h, hx, hr, hp⟩ := reachable_of (ops := [(0, .findClass "java/io/IOException".toList)])
    (p := fun h => (h.classes.lookup "java/io/IOException".toList == some 9) &&
      (h.classes.lookup "java/lang/Throwable".toList == some 4) &&
      (h.throwNew 0 (some 9) (some "boom".toList)).holds fun x =>
      x.2 == 0 && (HeapOp.exceptionOccurred.run x.1 0).holds fun y => y.2 == .ref (some 10)) (by decide +kernel)
  simp only [Bool.and_eq_true, beq_iff_eq, Res.holds_iff] at hp
  obtain ⟨⟨hc, ht⟩, ⟨h1, v⟩, hx1, hv, ⟨h2, out⟩, hx2, ho⟩ := hp
  simp only at hv hx2 ho
  subst hv ho
  obtain ⟨i, o, hi, ho, hcls⟩ := throwNew_class hr hx1 hx2
  cases hi
  refine ⟨h, 9, h1, h2, 10, o, hr, hc, hx1, hx2, ho, ?_⟩
  rw [hcls, ht]
  simp

/-- C70. A null message is read. -/
theorem throwNew_null (h : Heap) (t : Nat) (c : Option Nat) : h.throwNew t c none = .ub .nullDeref := rfl

/-- C70 fails for `ExceptionDescribe` as JNI defines it: the exception stays pending and is printed again. -/
theorem describe_not_cleared {h h' : Heap} {t : Nat} {e : Exn} (hp : Pends h t (some e))
    {what : Exn → Option Str} {line : Option Str} (hx : h.describe what t = .ok (h', line)) :
    Pends h' t (some e) ∧ h'.describe what t = .ok (h', line) := by
  have := describe_pends hp what
  rw [hx] at this
  injection this with this; injection this with h1 _
  subst h1
  exact ⟨hp, hx⟩

/-- C70. An exception that is thrown again through any reference is printed as before. -/
theorem describe_rethrown {h h1 : Heap} (hr : HeapReachable h) {t : Nat} {env : Env} (he : h.envs t = some env)
    {r : Option Nat} {x : Nat} {o : Obj} {e : Option Exn} (hd : Denotes h r (some x)) (ho : h.objs x = some o)
    (hk : o.kind = .throwable e) {out : Out} (hx : (HeapOp.throw r).run h t = .ok (h1, out)) : Pends h1 t e := by
  have hone : runHeap h1 [] = .ok h1 := rfl
  have hrep := pending_raised_partial hr hx (x := x) hd (ops := []) (by simp) hone
  have hr1 := hr.step hx
  obtain ⟨h1', hx', hh⟩ := Heap.run_ok hx
  obtain ⟨⟨e', he', _⟩, _⟩ := Heap.effect_exec hr.inv.toPre he hx' (by simp)
  have he1 : h1.envs t = some e' := by rw [hh]; simpa using he'
  have hpe := reports_fun (reports_pending hr1 he1) hrep
  obtain ⟨o1, p1, ho1, hk1⟩ := hr1.pending t e' x he1 hpe
  obtain ⟨o2, ho2, hs, _⟩ := (runStep hr.inv.toPre hx).old x o1 (hr.inv.bound x o ho) ho1
  rw [ho] at ho2; cases ho2
  refine ⟨e', x, o1, he1, hpe, ho1, ?_⟩
  rw [hk, hk1] at hs
  rw [hk1]
  simp only [Kind.Same] at hs
  exact hs.symm

/-- Sample for `describe_rethrown`: thrown through a global reference, after everything else has gone. -/
example : ∃ h h1 env o out, HeapReachable h ∧ h.envs 0 = some env ∧ Denotes h (some 10) (some 9) ∧
    h.objs 9 = some o ∧ o.kind = .throwable (some (.message "boom".toList)) ∧
    (HeapOp.throw (some 10)).run h 0 = .ok (h1, out) := by
  obtain ⟨h, hx, hr, hp⟩ := reachable_of (ops := [(0, .raise (.message "boom".toList)), (0, .exceptionOccurred),
      (0, .newGlobalRef (some 9)), (0, .deleteLocalRef (some 9)), (0, .exceptionClear)])
    (p := fun h => (h.envs 0).any (fun _ => true) && h.denote (some 10) == .ok (some 9) &&
      (h.objs 9).any (fun o => o.kind == .throwable (some (.message "boom".toList))) &&
      ((HeapOp.throw (some 10)).run h 0).holds fun _ => true) (by decide +kernel)
  simp only [Bool.and_eq_true, beq_iff_eq, Res.holds_iff] at hp
  obtain ⟨⟨⟨he, hd⟩, ho⟩, ⟨h1, out⟩, hx1, _⟩ := hp
  obtain ⟨env, he, _⟩ := Option.any_eq_true _ _ |>.1 he
  obtain ⟨o, ho, hk⟩ := Option.any_eq_true _ _ |>.1 ho
  exact ⟨h, h1, env, o, out, hr, he, (Heap.denote_iff hr.inv.toPre).1 hd, ho, by simpa using hk, hx1⟩

/-- C70. While nobody makes a `Throwable` by hand, `ExceptionDescribe` of an attached thread is defined. -/
theorem describe_defined_partial {h : Heap} {ops : List (Nat × HeapOp)} (hb : NoBareThrowable ops)
    (hx : runHeap Heap.initial ops = .ok h) {t : Nat} {env : Env} (he : h.envs t = some env)
    (what : Exn → Option Str) : ∃ line, h.describe what t = .ok (h, line) := by
  rcases describe_exact ⟨ops, hx⟩ he what with h1 | ⟨e, s, h1⟩ | ⟨e, h1⟩ | h1
  · exact ⟨_, h1.2⟩
  · exact ⟨_, h1.2.2⟩
  · exact ⟨_, h1.2.2⟩
  · obtain ⟨⟨_, x, o, _, _, ho, hk⟩, _⟩ := h1
    exact absurd hk (no_bare hb hx ho)

/-- Sample for `describe_defined_partial`. -/
example : ∃ h env, NoBareThrowable [(0, .newObject (some "java/lang/Object".toList)), (0, .raise (.user 3))] ∧
    runHeap Heap.initial [(0, .newObject (some "java/lang/Object".toList)), (0, .raise (.user 3))] = .ok h ∧
    h.envs 0 = some env ∧ Pends h 0 (some (.user 3)) := by
  obtain ⟨h, hx, hr, hp⟩ := reachable_of (ops := [(0, .newObject (some "java/lang/Object".toList)), (0, .raise (.user 3))])
    (p := fun h => (h.envs 0).any fun e => e.pending == some 10 &&
      (h.objs 10).any fun o => o.kind == .throwable (some (.user 3))) (by decide +kernel)
  obtain ⟨env, he, hp⟩ := Option.any_eq_true _ _ |>.1 hp
  simp only [Bool.and_eq_true, beq_iff_eq] at hp
  obtain ⟨hp, ho⟩ := hp
  obtain ⟨o, ho, hk⟩ := Option.any_eq_true _ _ |>.1 ho
  refine ⟨h, env, ?_, hx, he, env, 10, o, he, hp, ho, by simpa using hk⟩
  intro t hm
  have hne : ("java/lang/Throwable".toList : Str) ≠ "java/lang/Object".toList := by decide +kernel
  simp only [List.mem_cons, Prod.mk.injEq, HeapOp.newObject.injEq, Option.some.injEq, List.not_mem_nil,
    or_false, reduceCtorEq, and_false] at hm
  exact hne hm.2

/-- C70 fails for a `Throwable` made by hand, for example by `NewObject` of "java/lang/Throwable" where calls
without implementation return a default object: thrown, it cannot be described. -/
theorem describe_bare_throwable : ∃ h, HeapReachable h ∧ Pends h 0 none ∧
    (∃ x, Reports h 0 (some x)) ∧ ∀ what, h.describe what 0 = .ub .nullDeref := by
  obtain ⟨h, hx, hr, hp⟩ := reachable_of (ops := [(0, .newObject (some "java/lang/Throwable".toList)), (0, .throw (some 9))])
    (p := fun h => (h.envs 0).any fun e => e.pending == some 9 &&
      (h.objs 9).any fun o => o.kind == .throwable none) (by decide +kernel)
  obtain ⟨env, he, hp⟩ := Option.any_eq_true _ _ |>.1 hp
  simp only [Bool.and_eq_true, beq_iff_eq] at hp
  obtain ⟨hp, ho⟩ := hp
  obtain ⟨o, ho, hk⟩ := Option.any_eq_true _ _ |>.1 ho
  have hpd : Pends h 0 none := ⟨env, 9, o, he, hp, ho, by simpa using hk⟩
  exact ⟨h, hr, hpd, ⟨9, hp ▸ reports_pending hr he⟩, describe_bare hpd⟩

/-- C70. An exception that is pending when a function invoked from C++ has returned is thrown to the C++ code,
with the message given to `ThrowNew`; a `Throwable` without exception is undefined behaviour there, too. -/
theorem shown_pends {t : Nat} {ty : JType} {vm : Vm} {v : BitVec 64} {outer : Outcome Vm (BitVec 64)}
    {e : Option Exn} (hp : Pends vm.heap t e) (hs : Shown t ty (.returns vm v) outer) :
    outer = match e with | some e => .raises vm e | none => .ub .nullDeref := by
  obtain ⟨env, x, o, he, hpe, ho, hk⟩ := hp
  cases hs with
  | returns h1 h2 => rw [he] at h1; cases h1; rw [hpe] at h2; cases h2
  | detached h1 => rw [he] at h1; cases h1
  | pending h1 h2 h3 h4 =>
    rw [he] at h1; cases h1; rw [hpe] at h2; cases h2; rw [ho] at h3; cases h3; rw [hk] at h4; cases h4
    rfl
  | empty h1 h2 h3 h4 =>
    rw [he] at h1; cases h1; rw [hpe] at h2; cases h2; rw [ho] at h3; cases h3; rw [hk] at h4; cases h4
    rfl

/-- The native function `f` calls `ThrowNew` with that message and returns. -/
def ThrowsNew (natives : NativeCode) (t f : Nat) (c : Option Nat) (m : Str) : Prop :=
  ∀ ty vm target args, natives f ty vm target args =
    match vm.heap.throwNew t c (some m) with
    | .ok (h, _) => .returns { vm with heap := h } 0
    | .ub u => .ub u
    | .throws e => .raises vm e
    | .diverges => .diverges

/-- C70. C++ code that invokes a native function which calls `ThrowNew` gets the message as a C++
exception. -/
theorem invoke_throwNew {natives : NativeCode} (hb : NativesBehave natives) (code : Nat → Hook) {vm : Vm}
    (hr : VmReachable vm) {t : Nat} {env : Env} (he : vm.heap.envs t = some env) {target : Recipient}
    (hi : IsObject vm target.ref) {p : MethodProxy} {id : Nat} (hp : p.NativeFor id target)
    {m : MethodRec} (hn : Names vm.world id m) {f : Nat} (hf : m.native = some f) {params : List Ty}
    {ret : Option Ty} (hs : m.signature = renderSig params ret) (hret : ')' ∉ renderRet ret)
    {c : Option Nat} {text : Str} (hm : IsCString text) (ht : ThrowsNew natives t f c text)
    (args : List (BitVec 64)) :
    ∃ vm', vm.invokeProxy natives code t p target args = .raises vm' (.message text) ∧
      Pends vm'.heap t (some (.message text)) := by
  obtain ⟨vm1, h1, hshown⟩ := invoke_native hb code hr he hi hp hn hf hs hret args
  obtain ⟨vm1', h1', hr1, ⟨e1, he1, _⟩, _⟩ := asRef_run hr he hi
  have : vm1' = vm1 := by
    obtain ⟨w1, hp1⟩ := vm1
    obtain ⟨w1', hp1'⟩ := vm1'
    obtain ⟨ha, hb⟩ := h1
    obtain ⟨ha', hb'⟩ := h1'
    cases target <;> (simp only at ha hb ha' hb'; rw [hb] at hb'; cases hb'; rw [ha, ha'])
  subst this
  obtain ⟨h2, hx2, _, _, hall⟩ := throwNew_partial hr1.2 he1 c hm
  have hpd := (hall [] h2 (by simp) rfl).1
  rw [ht, hx2] at hshown
  exact ⟨_, shown_pends (vm := { vm1' with heap := h2 }) hpd hshown, hpd⟩

/-- Sample for `invoke_throwNew`. -/
example : ∃ natives vm a p id m, NativesBehave natives ∧ ThrowsNew natives 0 9 (some 3) "boom".toList ∧
    VmReachable vm ∧ (∃ e, vm.heap.envs 0 = some e) ∧ IsObject vm (Recipient.obj 10).ref ∧
    vm.world.getMethod 1 a "()I".toList "n".toList = .ok (vm.world, p) ∧ p.NativeFor id (.obj 10) ∧
    Names vm.world id m ∧ m.native = some 9 ∧ m.signature = renderSig [] (some (.prim .int)) := by
  obtain ⟨vm, a, q, m, s, m', s', n, S⟩ := sample_proxy
  obtain ⟨e, he, _⟩ := S.env
  refine ⟨fun _ _ vm _ _ => match vm.heap.throwNew 0 (some 3) (some "boom".toList) with
    | .ok (h, _) => .returns { vm with heap := h } 0
    | .ub u => .ub u
    | .throws e => .raises vm e
    | .diverges => .diverges, vm, a, _, n, ⟨n, "n".toList, "()I".toList, false, some 9, none⟩, ?_, fun _ _ _ _ => rfl,
    S.reach, ⟨e, he⟩, ⟨_, S.obj, by simp⟩, S.native, ⟨rfl, rfl⟩, ⟨_, a, S.isA, by rw [S.methods]; simp, rfl⟩, rfl, rfl⟩
  intro p ty vm target args hr
  have hm : IsCString "boom".toList := by unfold IsCString; decide +kernel
  cases he : vm.heap.envs 0 with
  | none =>
    have : vm.heap.throwNew 0 (some 3) (some "boom".toList) = .ub .dangling := by
      simp only [Heap.throwNew, HeapOp.run, HeapOp.exec, HeapOp.needsEnv, he, Option.isNone, Bool.and_self, if_true, Res.bind]
    simp only [this]
    trivial
  | some env =>
    obtain ⟨h1, hx, hr1, _⟩ := throwNew_partial hr.2 he (some 3) hm
    simp only [hx]
    exact ⟨hr.1, hr1⟩

end Jnivm
