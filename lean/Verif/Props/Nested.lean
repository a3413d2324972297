import Verif.Lemmas.Nested
import Verif.Props.Calls
import Verif.Props.Proxy
import Verif.Props.Jni
import Verif.Props.Refs
/-!
C80: hooked and registered functions may use the VM themselves.
-/
namespace Jnivm
open Spec
open Heap hiding Live

/-- C80. Whatever C++ code runs on a thread, with functions that call each other through the VM to any depth:
it ends, normally or with an exception, in a state that calls of that thread made one after the other lead to,
namely calls that the code makes itself and those that running a function consists of. -/
theorem nested_by_calls (d2f : BitVec 64 → BitVec 32) {fs : Natives} {P : JniOp → Prop} (hf : fs.Only P) {vm : Vm}
    (hr : JniReachable vm) (t depth : Nat) {s : Script} (hs : s.Only P) :
    EndsIn (ByCallsOf t (fun op => P op ∨ CallsOwn op) vm) (s.run d2f (fs.code d2f t depth) t vm) :=
  have hk := kept_calls hr.jniInv t (P := P) (fun _ h => Or.inl h) (fun _ h => Or.inr h)
  kept_script hk (kept_code hk d2f hf depth) d2f s hs (.refl t _ vm)

/-- Sample for `nested_by_calls` and the theorems on the state afterwards: a function that finds a class, calls a
recursive function and throws, called from a thread; the VM knows the new class afterwards. -/
example : ∃ vm, JniReachable vm ∧ ∃ vm', (sampleScript.run toFloat (sampleNatives.code toFloat 0 5) 0 vm) = .returns vm' 1 ∧
    (findClass true vm.world.reg "New".toList).2 = none ∧ ∃ c, vm'.world.IsClass "New".toList c := by
  obtain ⟨vm, as, hx, S⟩ := sample_nested
  obtain ⟨vm', hv, h1, h2⟩ := sample_script hx
  exact ⟨vm, S.reach, vm', hv, h1, h2⟩

theorem sampleNatives_only {P : JniOp → Prop} (h : P (.heap (.findClass "New".toList))) : sampleNatives.Only P := by
  have hc : ∀ args, (countdown (some 9) 0 args).Only P := by
    intro args
    match args with
    | [] => exact trivial
    | [n] => simp only [countdown]; split <;> first | trivial | exact fun _ => trivial
    | _ :: _ :: _ => exact trivial
  refine ⟨fun f self args => ?_, fun _ _ _ args => hc args⟩
  simp only [sampleNatives]
  split
  · exact hc args
  split
  · exact fun _ => trivial
  split
  · exact ⟨h, fun _ => trivial⟩
  · exact ⟨h, fun _ _ => trivial⟩

/-- Sample for the code of `nested_by_calls`: it makes only such calls. -/
example : ∃ P : JniOp → Prop, P = (fun op => op = .heap (.findClass "New".toList) ∨ op = .heap .exceptionCheck) ∧
    sampleNatives.Only P ∧ sampleScript.Only P :=
  ⟨_, rfl, sampleNatives_only (.inl rfl), fun _ => ⟨.inr rfl, fun _ => trivial⟩⟩

/-- C80. So does every function that is written that way. -/
theorem functions_act_by_calls (d2f : BitVec 64 → BitVec 32) {fs : Natives} {P : JniOp → Prop} (hf : fs.Only P)
    (t depth : Nat) : ActByCalls t (fun op => P op ∨ CallsOwn op) (fs.code d2f t depth) :=
  ⟨fun f vm self args hr => (kept_code (kept_calls hr.jniInv t (P := P) (fun _ h => Or.inl h) fun _ h => Or.inr h)
      d2f hf depth).hooks f vm self args (.refl t _ vm),
    fun p ty vm target args hr => (kept_code (kept_calls hr.jniInv t (P := P) (fun _ h => Or.inl h) fun _ h => Or.inr h)
      d2f hf depth).natives p ty vm target args (.refl t _ vm)⟩

/-- C80. Every way to run a function adds no more than the calls it consists of: the call and the access of a field
through JNI, and `Method::invoke`. -/
theorem calls_act_by_calls {t : Nat} {P : JniOp → Prop} {code : Code} (h : ActByCalls t P code)
    (hP : ∀ op, CallsOwn op → P op) {vm : Vm} (hr : JniReachable vm) (ty : JType) (form : Form) (id : Option Nat)
    (args : List (BitVec 64)) (owner : Owner) (v : BitVec 64) (target : Recipient) (i : Nat) :
    EndsIn (ByCallsOf t P vm) (vm.callA code.hooks t ty form id args) ∧
    EndsIn (ByCallsOf t P vm) (vm.getField code.hooks ty owner id) ∧
    EndsIn (ByCallsOf t P vm) (vm.setField code.hooks ty owner id v) ∧
    EndsIn (ByCallsOf t P vm) (vm.invokeMethod code.natives code.hooks t target i args) :=
  have hk := kept_calls hr.jniInv t (P := P) (fun _ h => h) hP
  have hc := h.keeps hr
  ⟨kept_callA hk hc (.refl t P vm) .., kept_getField hk hc (.refl t P vm) .., kept_setField hk hc (.refl t P vm) ..,
    kept_invokeMethod hk hc (.refl t P vm) ..⟩

/-- C80. Local references last: when the code and the functions delete none, pop no frame and do not detach the
thread, an object that the thread had a local reference to still has it and is alive, however the code ended. -/
theorem nested_locals (d2f : BitVec 64 → BitVec 32) {fs : Natives} (hf : fs.Only KeepsLocals) {vm : Vm}
    (hr : JniReachable vm) (t depth : Nat) {s : Script} (hs : s.Only KeepsLocals) {i : Nat} (hi : HasLocal vm.heap t i) :
    EndsIn (fun vm' => HasLocal vm'.heap t i ∧ Live vm'.heap i) (s.run d2f (fs.code d2f t depth) t vm) := by
  refine (nested_by_calls d2f hf hr t depth hs).mono ?_
  rintro vm' ⟨ops, as, ht, hx⟩
  obtain ⟨hops, hh, hp⟩ := (runJni_grows hr.jniInv hx).heap
  obtain ⟨e, he, f, hfr, hif⟩ := hi
  refine local_ref_keeps_alive hr.jniInv.heap he (inner := []) (outer := e.frames) rfl ⟨f, hfr, hif⟩
    (along_of_all (fun x hxm h _ => ?_) _) hh
  obtain ⟨y, hy, hb, ho⟩ := hp x hxm
  rcases ho with ho | ⟨n, ho⟩ | ⟨r, ho⟩
  · have := (ht y hy).2
    rw [ho] at this
    revert this
    generalize x.2 = op
    intro hc e' _
    cases op <;> first | trivial | exact hc.elim False.elim False.elim
  · rw [ho]; exact fun _ _ => trivial
  · rw [ho]; exact fun _ _ => trivial

/-- Sample for `nested_locals`: the functions of the sample, and a thread with a local reference. -/
example : sampleNatives.Only KeepsLocals ∧ sampleScript.Only KeepsLocals ∧
    ∃ vm i, JniReachable vm ∧ HasLocal vm.heap 0 i := by
  refine ⟨sampleNatives_only trivial, fun _ => ⟨trivial, fun _ => trivial⟩, ?_⟩
  · obtain ⟨vm, as, hx, hr, hp⟩ := jniReachable_of (ops := [(0, .heap (.newObject none))])
      (p := fun vm _ => (vm.heap.envs 0).any fun (e : Env) => decide (e.frames = [[9]])) (by decide +kernel)
    obtain ⟨e, he, hf⟩ := Option.any_eq_true _ _ |>.1 hp
    have hf := of_decide_eq_true hf
    exact ⟨vm, 9, hr, e, he, [9], by rw [hf]; exact List.mem_singleton.2 rfl, List.mem_singleton.2 rfl⟩

/-- C80. The state is one between two calls again. -/
theorem nested_reachable (d2f : BitVec 64 → BitVec 32) (fs : Natives) {vm : Vm} (hr : JniReachable vm) (t depth : Nat)
    (s : Script) : EndsIn JniReachable (s.run d2f (fs.code d2f t depth) t vm) :=
  (nested_by_calls d2f (natives_only_true fs) hr t depth (only_true s)).mono fun _ h => h.reachable hr

/-- C80. The functions are well-behaved, which the properties of calls (C22 to C24), of `Method::invoke` (C47)
and of `Jvm::start` (C66) ask for. -/
theorem functions_well_behaved (d2f : BitVec 64 → BitVec 32) (fs : Natives) (t depth : Nat) :
    WellBehaved (fs.code d2f t depth).hooks ∧ NativesBehave (fs.code d2f t depth).natives :=
  have hc := kept_code (kept_vm t) d2f (natives_only_true fs) depth
  ⟨fun f vm self args hr => hc.hooks f vm self args hr, fun p ty vm target args hr => hc.natives p ty vm target args hr⟩

/-- C80. The depth to which calls are followed only matters for code that does not end within it. -/
theorem nested_depth (d2f : BitVec 64 → BitVec 32) (fs : Natives) (t : Nat) (s : Script) (vm : Vm) {n m : Nat}
    (hnm : n ≤ m) (h : s.run d2f (fs.code d2f t n) t vm ≠ .diverges) :
    s.run d2f (fs.code d2f t m) t vm = s.run d2f (fs.code d2f t n) t vm := by
  induction hnm with
  | refl => rfl
  | step _ ih =>
    rcases longer_script (longer_code d2f fs t _) d2f t s vm with e | e
    · rw [ih] at e; exact absurd e h
    · rw [e, ih]

/-- C80. Other threads are not affected: their local references and pending exceptions stay as they are. -/
theorem nested_others (d2f : BitVec 64 → BitVec 32) (fs : Natives) {vm : Vm} (hr : JniReachable vm) (t depth : Nat)
    (s : Script) {u : Nat} (hu : u ≠ t) :
    EndsIn (fun vm' => vm'.heap.envs u = vm.heap.envs u) (s.run d2f (fs.code d2f t depth) t vm) := by
  refine (nested_by_calls d2f (natives_only_true fs) hr t depth (only_true s)).mono ?_
  rintro vm' ⟨ops, as, ht, hx⟩
  obtain ⟨hops, hh, hp⟩ := (runJni_grows hr.jniInv hx).heap
  refine runHeap_others hr.jniInv.heap (t := t) (fun x hx => ?_) hh u hu
  obtain ⟨y, hy, hb⟩ := hp x hx
  rw [hb.1, (ht y hy).1]

/-- C80. Whatever the functions do, a class stays where it is and what it is: a client may keep its address
across calls. -/
theorem nested_class_refs (d2f : BitVec 64 → BitVec 32) (fs : Natives) {vm : Vm} (hr : JniReachable vm)
    (t depth : Nat) (s : Script) {k c : Nat} {o : Obj} {n : Str} (ho : vm.heap.objs k = some o) (hk : o.kind = .cls n)
    (hc : vm.world.IsClass n c) :
    EndsIn (fun vm' => RefersTo vm'.heap (some k) (some n) ∧ IsClassRef vm' (some k) c)
      (s.run d2f (fs.code d2f t depth) t vm) := by
  refine (nested_by_calls d2f (natives_only_true fs) hr t depth (only_true s)).mono ?_
  rintro vm' ⟨ops, as, _, hx⟩
  exact class_address_forever hr hx ho hk hc

/-- Sample for `nested_others` and `nested_class_refs`: a second thread and the class "A". -/
example : ∃ vm c o, JniReachable vm ∧ (∃ e, vm.heap.envs 1 = some e) ∧ vm.heap.objs 9 = some o ∧
    o.kind = .cls "A".toList ∧ vm.world.IsClass "A".toList c := by
  obtain ⟨vm, as, hx, S⟩ := sample_nested
  obtain ⟨o, ho, hk⟩ := S.obj
  obtain ⟨c, hc, _, _⟩ := S.cls
  exact ⟨vm, c, o, S.reach, S.envs 1 (by decide), ho, hk, hc⟩

/-- C80. A static call of a function that returns: the caller goes on with its result, in its state. -/
theorem nested_return (d2f : BitVec 64 → BitVec 32) (fs : Natives) {vm : Vm} (hr : JniReachable vm) {t : Nat} {env : Env}
    (he : vm.heap.envs t = some env) {cl : Option Nat} {c : Nat} (hc : IsClassRef vm cl c) {id f : Nat} {m : MethodRec}
    (hn : Names vm.world id m) (hf : m.handle = some f) (hk : fs.kind f = .static) (args : List (BitVec 64))
    (k : BitVec 64 → Script) {depth : Nat} {vm' : Vm} {v : BitVec 64}
    (hx : (fs.hooked f (.cls (some c)) args).run d2f (fs.code d2f t depth) t vm = .returns vm' v) :
    (Script.callA (fs.type f) (.static cl) (some id) args k).run d2f (fs.code d2f t (depth + 1)) t vm =
      (k v).run d2f (fs.code d2f t (depth + 1)) t vm' := by
  have hs := static_call (functions_well_behaved d2f fs t (depth + 1)).1 hr.jniInv.vm (t := t) (.inr ⟨c, hc, rfl⟩) hn hf
    (ty := fs.type f) rfl hk args
  have hrun : ((fs.code d2f t (depth + 1)).hooks f).run vm (.cls (some c)) args = .returns vm' v := hx
  rw [hrun] at hs
  simp only [Script.run, Vm.attached, he, Option.isNone_some, Bool.false_eq_true, if_false]
  generalize vm.callA (fs.code d2f t (depth + 1)).hooks t (fs.type f) (.static cl) (some id) args = o at hs
  cases hs
  rfl

/-- C80. A static call of a function that throws: the caller goes on with zero, and the exception is the pending
one of its thread. -/
theorem nested_throw (d2f : BitVec 64 → BitVec 32) (fs : Natives) {vm : Vm} (hr : JniReachable vm) {t : Nat} {env : Env}
    (he : vm.heap.envs t = some env) {cl : Option Nat} {c : Nat} (hc : IsClassRef vm cl c) {id f : Nat} {m : MethodRec}
    (hn : Names vm.world id m) (hf : m.handle = some f) (hk : fs.kind f = .static) (args : List (BitVec 64))
    (k : BitVec 64 → Script) {depth : Nat} {vm' : Vm} {e : Exn}
    (hx : (fs.hooked f (.cls (some c)) args).run d2f (fs.code d2f t depth) t vm = .raises vm' e)
    (he' : (vm'.heap.envs t).isSome) :
    ∃ vm2 x o env', (Script.callA (fs.type f) (.static cl) (some id) args k).run d2f (fs.code d2f t (depth + 1)) t vm =
        (k 0).run d2f (fs.code d2f t (depth + 1)) t vm2 ∧ vm2.world = vm'.world ∧
      vm2.heap.envs t = some env' ∧ env'.pending = some x ∧ vm2.heap.objs x = some o ∧
      o.kind = .throwable (some e) := by
  have hs := static_call (functions_well_behaved d2f fs t (depth + 1)).1 hr.jniInv.vm (t := t) (.inr ⟨c, hc, rfl⟩) hn hf
    (ty := fs.type f) rfl hk args
  have hrun : ((fs.code d2f t (depth + 1)).hooks f).run vm (.cls (some c)) args = .raises vm' e := hx
  rw [hrun] at hs
  simp only [Script.run, Vm.attached, he, Option.isNone_some, Bool.false_eq_true, if_false]
  generalize vm.callA (fs.code d2f t (depth + 1)).hooks t (fs.type f) (.static cl) (some id) args = o at hs
  cases hs with
  | @raises _ vm2 _ x env0 ox h1 h2 h3 h4 h5 h6 h7 =>
    exact ⟨vm2, x, ox, _, rfl, h1, h3, rfl, h5, h6⟩
  | detached h => rw [h] at he'; cases he'

/-- C80. The variadic forms do the same as the array form, when the arguments are passed as the signature says. -/
theorem nested_varargs (d2f : BitVec 64 → BitVec 32) (code : Code) {vm : Vm} (hr : JniReachable vm) (t : Nat)
    (ty : JType) (form : Form) {id : Nat} {m : MethodRec} (hn : Names vm.world id m) {params : List Ty}
    {ret : Option Ty} (hs : m.signature = renderSig params ret) (hv : ∀ p ∈ params, p.Valid)
    {args extra : List CArg} {vals : List (BitVec 64)} (hp : Passes d2f params args vals) (k : BitVec 64 → Script) :
    (Script.callV ty form (some id) (args ++ extra) k).run d2f code t vm =
      (Script.callA ty form (some id) vals k).run d2f code t vm := by
  simp only [Script.run, callV_is_callA d2f code.hooks hr.jniInv.vm t ty form hn hs hv hp]

/-- C80. Reading a field: the caller goes on with what the getter returned, in its state; an exception of the getter
goes through JNI and ends the caller. -/
theorem nested_get (d2f : BitVec 64 → BitVec 32) (fs : Natives) {vm : Vm} (hr : JniReachable vm) {t : Nat} {env : Env}
    (he : vm.heap.envs t = some env) {owner : Owner} {self : Self} (ho : Receiver vm owner self) {id g : Nat}
    {f : FieldRec} (hn : NamesField vm.world id f) (hg : f.getter = some g) (hs : f.static = owner.isClass)
    (hk : fs.kind g = .static ↔ f.static = true) (k : BitVec 64 → Script) (depth : Nat) :
    (∀ vm' v, (fs.hooked g self []).run d2f (fs.code d2f t depth) t vm = .returns vm' v →
      (Script.getField (fs.type g) owner (some id) k).run d2f (fs.code d2f t (depth + 1)) t vm =
        (k v).run d2f (fs.code d2f t (depth + 1)) t vm') ∧
    ∀ vm' e, (fs.hooked g self []).run d2f (fs.code d2f t depth) t vm = .raises vm' e →
      (Script.getField (fs.type g) owner (some id) k).run d2f (fs.code d2f t (depth + 1)) t vm = .raises vm' e := by
  have h := getField_runs_getter (fs.code d2f t (depth + 1)).hooks hr.jniInv.vm ho hn hg hs (ty := fs.type g) ⟨rfl, hk⟩
  have hrun : ((fs.code d2f t (depth + 1)).hooks g).run vm self [] =
    (fs.hooked g self []).run d2f (fs.code d2f t depth) t vm := rfl
  rw [hrun] at h
  constructor <;> intro vm' v hx <;>
    simp only [Script.run, Vm.attached, he, Option.isNone_some, Bool.false_eq_true, if_false, h, hx, Outcome.andThen]

/-- C80. Writing a field: the setter gets the value, the caller goes on in its state; an exception of the setter goes
through JNI and ends the caller. -/
theorem nested_set (d2f : BitVec 64 → BitVec 32) (fs : Natives) {vm : Vm} (hr : JniReachable vm) {t : Nat} {env : Env}
    (he : vm.heap.envs t = some env) {owner : Owner} {self : Self} (ho : Receiver vm owner self)
    (hnn : owner.isNull = false) {id g : Nat} {f : FieldRec} (hn : NamesField vm.world id f) (hg : f.setter = some g)
    (hs : f.static = owner.isClass) (hk : fs.kind g = .static ↔ f.static = true) (value : BitVec 64) (k : Script)
    (depth : Nat) :
    (∀ vm' v, (fs.hooked g self [value]).run d2f (fs.code d2f t depth) t vm = .returns vm' v →
      (Script.setField (fs.type g) owner (some id) value k).run d2f (fs.code d2f t (depth + 1)) t vm =
        k.run d2f (fs.code d2f t (depth + 1)) t vm') ∧
    ∀ vm' e, (fs.hooked g self [value]).run d2f (fs.code d2f t depth) t vm = .raises vm' e →
      (Script.setField (fs.type g) owner (some id) value k).run d2f (fs.code d2f t (depth + 1)) t vm = .raises vm' e := by
  have h := setField_runs_setter (fs.code d2f t (depth + 1)).hooks hr.jniInv.vm ho hnn hn hg hs (ty := fs.type g)
    ⟨rfl, hk⟩ value
  have hrun : ((fs.code d2f t (depth + 1)).hooks g).run vm self [value] =
    (fs.hooked g self [value]).run d2f (fs.code d2f t depth) t vm := rfl
  rw [hrun] at h
  constructor <;> intro vm' v hx <;>
    simp only [Script.run, Vm.attached, he, Option.isNone_some, Bool.false_eq_true, if_false, h, hx, Outcome.andThen]

/-- Sample for `nested_get` and `nested_set`: the field "f". -/
example : ∃ vm c f, JniReachable vm ∧ (∃ e, vm.heap.envs 0 = some e) ∧ Receiver vm (.cls (some 9)) (.cls (some c)) ∧
    NamesField vm.world 2 f ∧ f.getter = some 5 ∧ f.setter = some 6 ∧ f.static = (Owner.cls (some 9)).isClass ∧
    (sampleNatives.kind 5 = .static ↔ f.static = true) := by
  obtain ⟨vm, as, hx, S⟩ := sample_nested
  obtain ⟨c, hc, _, _, _, hf⟩ := S.names
  exact ⟨vm, c, _, S.reach, S.envs 0 (by decide), .cls hc, hf, rfl, rfl, rfl, ⟨fun _ => rfl, fun _ => rfl⟩⟩

/-- C80. `Method::invoke` of a registered function: it runs after a local reference to the receiver was made, and the
caller goes on with its result as a `jvalue`, or ends with its exception or the one it left pending. -/
theorem nested_registered (d2f : BitVec 64 → BitVec 32) (fs : Natives) {vm : Vm} (hr : JniReachable vm) {t : Nat}
    {env : Env} (he : vm.heap.envs t = some env) {target : Recipient} (hi : IsObject vm target.ref) {id : Nat}
    {m : MethodRec} (hn : Names vm.world id m) {p : Nat} (hp : m.native = some p) {params : List Ty} {ret : Option Ty}
    (hs : m.signature = renderSig params ret) (hret : ')' ∉ renderRet ret) (args : List (BitVec 64))
    (k : BitVec 64 → Script) (depth : Nat) :
    ∃ vm1 o, AfterRef t target vm vm1 ∧
      Shown t (retJType ret)
        ((fs.registered p (retJType ret) target args).run d2f (fs.code d2f t depth) t vm1) o ∧
      (∀ vm' v, o = .returns vm' v →
        (Script.invoke target id args k).run d2f (fs.code d2f t (depth + 1)) t vm =
          (k v).run d2f (fs.code d2f t (depth + 1)) t vm') ∧
      ∀ vm' e, o = .raises vm' e →
        (Script.invoke target id args k).run d2f (fs.code d2f t (depth + 1)) t vm = .raises vm' e := by
  obtain ⟨vm1, h1, h2⟩ := invoke_native (functions_well_behaved d2f fs t (depth + 1)).2
    (fs.code d2f t (depth + 1)).hooks hr.jniInv.vm he hi (p := ⟨none, none, some id⟩)
    (by cases target <;> exact ⟨rfl, rfl⟩) hn hp hs hret args
  have e : vm.invokeProxy (fs.code d2f t (depth + 1)).natives (fs.code d2f t (depth + 1)).hooks t
      ⟨none, none, some id⟩ target args =
    vm.invokeMethod (fs.code d2f t (depth + 1)).natives (fs.code d2f t (depth + 1)).hooks t target id args := by
    cases target <;> rfl
  rw [e] at h2
  refine ⟨vm1, _, h1, h2, fun vm' v hx => ?_, fun vm' v hx => ?_⟩ <;>
    simp only [Script.run, Vm.attached, he, Option.isNone_some, Bool.false_eq_true, if_false, hx, Outcome.andThen]

/-- Sample for `nested_registered`: the native function "n" on the class "A". -/
example : ∃ vm m, JniReachable vm ∧ (∃ e, vm.heap.envs 0 = some e) ∧ IsObject vm (Recipient.cls 9).ref ∧
    Names vm.world 3 m ∧ m.native = some 2 ∧ m.signature = renderSig [.prim .int] (some (.prim .int)) ∧
    ')' ∉ renderRet (some (.prim .int)) := by
  obtain ⟨vm, as, hx, S⟩ := sample_nested
  obtain ⟨c, hc, _, _, hn, _⟩ := S.names
  obtain ⟨o, ho, hk⟩ := S.obj
  exact ⟨vm, _, S.reach, S.envs 0 (by decide), ⟨o, ho, by rw [hk]; exact fun _ => ⟨nofun, nofun⟩⟩, hn, rfl, rfl, by decide⟩

/-- C80. A `try` block: an exception of the body is handled in the state in which it was thrown; without one the
handler does not run. -/
theorem nested_try (d2f : BitVec 64 → BitVec 32) (code : Code) (t : Nat) (body : Script) (handler : Exn → Script)
    (k : BitVec 64 → Script) (vm : Vm) :
    (∀ vm' v, body.run d2f code t vm = .returns vm' v →
      (Script.attempt body handler k).run d2f code t vm = (k v).run d2f code t vm') ∧
    (∀ vm' e vm'' v, body.run d2f code t vm = .raises vm' e → (handler e).run d2f code t vm' = .returns vm'' v →
      (Script.attempt body handler k).run d2f code t vm = (k v).run d2f code t vm'') ∧
    ∀ vm' e vm'' e', body.run d2f code t vm = .raises vm' e → (handler e).run d2f code t vm' = .raises vm'' e' →
      (Script.attempt body handler k).run d2f code t vm = .raises vm'' e' := by
  refine ⟨fun vm' v h => ?_, fun vm' e vm'' v h h' => ?_, fun vm' e vm'' e' h h' => ?_⟩ <;>
    simp only [Script.run, h, Outcome.orElse, Outcome.andThen] <;> rw [h']

/-- Sample for `nested_try`: the body finds a class and throws, the handler returns. -/
example (code : Code) : ∃ vm vm' : Vm,
    (Script.jni (.heap (.findClass "New".toList)) fun _ => .raise (.user 7)).run toFloat code 0 vm =
      .raises vm' (.user 7) := by
  obtain ⟨vm, as, hx, hr, hp⟩ := jniReachable_of (ops := []) (p := fun vm _ =>
    ((JniOp.heap (.findClass "New".toList)).run vm 0).holds fun _ => true) (by decide +kernel)
  obtain ⟨⟨v, a⟩, h1, _⟩ := Res.holds_iff.1 hp
  exact ⟨vm, v, by simp only [Script.run, h1, Outcome.lift]⟩

/-- C80. A thread that is not attached has no `JNIEnv` to make calls with. -/
theorem nested_detached (d2f : BitVec 64 → BitVec 32) (code : Code) {t : Nat} {vm : Vm} (he : vm.heap.envs t = none)
    (ty : JType) (form : Form) (id : Option Nat) (args : List (BitVec 64)) (va : List CArg) (owner : Owner)
    (v : BitVec 64) (target : Recipient) (i : Nat) (k : BitVec 64 → Script) :
    (Script.callA ty form id args k).run d2f code t vm = .ub .dangling ∧
    (Script.callV ty form id va k).run d2f code t vm = .ub .dangling ∧
    (Script.getField ty owner id k).run d2f code t vm = .ub .dangling ∧
    (Script.setField ty owner id v (k 0)).run d2f code t vm = .ub .dangling ∧
    (Script.invoke target i args k).run d2f code t vm = .ub .dangling := by
  simp [Script.run, Vm.attached, he]

/-- Sample for `nested_detached`. -/
example : ∃ vm : Vm, JniReachable vm ∧ vm.heap.envs 1 = none := by
  obtain ⟨vm, as, hx, hr, hp⟩ := jniReachable_of (ops := []) (p := fun vm _ => (vm.heap.envs 1).isNone) (by decide +kernel)
  exact ⟨vm, hr, Option.isNone_iff_eq_none.1 hp⟩

/-- C80. A hooked function that calls itself through the VM counts up to its argument, whatever that is: it
ends when `n` nested calls are followed, and not before. -/
theorem nested_recursion (d2f : BitVec 64 → BitVec 32) (fs : Natives) {vm : Vm} (hr : JniReachable vm) {t : Nat}
    {env : Env} (he : vm.heap.envs t = some env) {cl : Option Nat} {c : Nat} (hc : IsClassRef vm cl c) {id f : Nat}
    {m : MethodRec} (hn : Names vm.world id m) (hf : m.handle = some f) (hk : fs.kind f = .static)
    (hty : fs.type f = .int) (hbody : ∀ self, fs.hooked f self = countdown cl id) (depth : Nat) (n : BitVec 64) :
    (countdown cl id [n]).run d2f (fs.code d2f t depth) t vm =
      if n.toNat ≤ depth then .returns vm n else .diverges := by
  induction depth generalizing n with
  | zero =>
    by_cases h0 : n = 0
    · subst h0; simp [countdown, Script.run]
    · have hpos : ¬ n.toNat ≤ 0 := by
        intro h; exact h0 (BitVec.eq_of_toNat_eq (by simpa using h))
      have hs := static_call (functions_well_behaved d2f fs t 0).1 hr.jniInv.vm (t := t) (.inr ⟨c, hc, rfl⟩) hn hf
        (ty := .int) hty hk [n - 1]
      have hrun : ((fs.code d2f t 0).hooks f).run vm (.cls (some c)) [n - 1] = .diverges := rfl
      rw [hrun] at hs
      simp only [countdown, h0, if_false, Script.run, Vm.attached, he, Option.isNone_some, Bool.false_eq_true, hpos]
      generalize vm.callA (fs.code d2f t 0).hooks t .int (.static cl) (some id) [n - 1] = o at hs
      cases hs
      rfl
  | succ depth ih =>
    by_cases h0 : n = 0
    · subst h0; simp [countdown, Script.run]
    · have hn1 : (n - 1).toNat = n.toNat - 1 ∧ 0 < n.toNat := by
        have : n.toNat ≠ 0 := fun h => h0 (BitVec.eq_of_toNat_eq (by simpa using h))
        have := n.isLt
        have h1 : (1 : BitVec 64).toNat = 1 := rfl
        simp only [BitVec.toNat_sub, h1]
        omega
      have hs := static_call (functions_well_behaved d2f fs t (depth + 1)).1 hr.jniInv.vm (t := t)
        (.inr ⟨c, hc, rfl⟩) hn hf (ty := .int) hty hk [n - 1]
      have hrun : ((fs.code d2f t (depth + 1)).hooks f).run vm (.cls (some c)) [n - 1] =
          if (n - 1).toNat ≤ depth then .returns vm (n - 1) else .diverges := by
        rw [← ih (n - 1), ← hbody (.cls (some c))]; rfl
      rw [hrun] at hs
      simp only [countdown, h0, if_false, Script.run, Vm.attached, he, Option.isNone_some, Bool.false_eq_true]
      generalize vm.callA (fs.code d2f t (depth + 1)).hooks t .int (.static cl) (some id) [n - 1] = o at hs
      by_cases hle : n.toNat ≤ depth + 1
      · rw [if_pos (by omega)] at hs
        rw [if_pos hle]
        cases hs
        simp only [Outcome.andThen]
        congr 1
        exact BitVec.sub_add_cancel n 1
      · rw [if_neg (by omega)] at hs
        rw [if_neg hle]
        cases hs
        rfl

/-- Sample for `nested_return`. -/
example : ∃ vm c m vm', JniReachable vm ∧ (∃ e, vm.heap.envs 0 = some e) ∧ IsClassRef vm (some 9) c ∧
    Names vm.world 0 m ∧ m.handle = some 3 ∧ sampleNatives.kind 3 = .static ∧
    (sampleNatives.hooked 3 (.cls (some c)) [2]).run toFloat (sampleNatives.code toFloat 0 4) 0 vm = .returns vm' 2 := by
  obtain ⟨vm, as, hx, S⟩ := sample_nested
  obtain ⟨c, hc, m1, m2, _, _⟩ := S.names
  obtain ⟨e, he⟩ := S.envs 0 (by decide)
  exact ⟨vm, c, _, vm, S.reach, ⟨e, he⟩, hc, m1, rfl, rfl,
    (nested_recursion toFloat sampleNatives S.reach he hc m1 (f := 3) rfl rfl rfl (fun _ => rfl) 4 2).trans rfl⟩

/-- Sample for `nested_recursion`: 1000 nested calls. -/
example : ∃ vm, JniReachable vm ∧ (countdown (some 9) 0 [1000]).run toFloat (sampleNatives.code toFloat 0 1000) 0 vm =
    .returns vm 1000 := by
  obtain ⟨vm, as, hx, S⟩ := sample_nested
  obtain ⟨c, hc, m1, m2, _, _⟩ := S.names
  obtain ⟨e, he⟩ := S.envs 0 (by decide)
  exact ⟨vm, S.reach,
    (nested_recursion toFloat sampleNatives S.reach he hc m1 (f := 3) rfl rfl rfl (fun _ => rfl) 1000 1000).trans rfl⟩

/-- Sample for `nested_throw`. -/
example : ∃ vm c m vm', JniReachable vm ∧ (∃ e, vm.heap.envs 0 = some e) ∧ IsClassRef vm (some 9) c ∧
    Names vm.world 1 m ∧ m.handle = some 4 ∧ sampleNatives.kind 4 = .static ∧
    (sampleNatives.hooked 4 (.cls (some c)) []).run toFloat (sampleNatives.code toFloat 0 4) 0 vm = .raises vm' (.user 7) ∧
    (vm'.heap.envs 0).isSome := by
  obtain ⟨vm, as, hx, S⟩ := sample_nested
  obtain ⟨c, hc, m1, m2, _, _⟩ := S.names
  obtain ⟨vm', h1, h2⟩ := sample_fail hx (.cls (some c))
  exact ⟨vm, c, _, vm', S.reach, S.envs 0 (by decide), hc, m2, rfl, rfl, h1, h2⟩

end Jnivm
