import Verif.Spec.Nested
import Verif.Lemmas.Jni
import Verif.Lemmas.Proxy
/-!
Helper lemmas on nested calls.
-/
namespace Jnivm
open Spec
open Heap hiding Live

theorem _root_.Spec.EndsIn.mono {α : Type} {P Q : Vm → Prop} (h : ∀ vm, P vm → Q vm) {o : Outcome Vm α} (ho : EndsIn P o) :
    EndsIn Q o := by
  cases o with
  | returns vm a => exact h vm ho
  | raises vm e => exact h vm ho
  | _ => trivial

theorem endsIn_andThen {α β : Type} {P : Vm → Prop} {o : Outcome Vm α} {f : Vm → α → Outcome Vm β}
    (ho : EndsIn P o) (hf : ∀ vm a, P vm → EndsIn P (f vm a)) : EndsIn P (o.andThen f) := by
  cases o with
  | returns vm a => exact hf vm a ho
  | raises vm e => exact ho
  | _ => trivial

theorem endsIn_orElse {α : Type} {P : Vm → Prop} {o : Outcome Vm α} {f : Vm → Exn → Outcome Vm α}
    (ho : EndsIn P o) (hf : ∀ vm e, P vm → EndsIn P (f vm e)) : EndsIn P (o.orElse f) := by
  cases o with
  | raises vm e => exact hf vm e ho
  | returns vm a => exact ho
  | _ => trivial

theorem endsIn_lift {α β : Type} {P : Vm → Prop} {vm : Vm} {r : Res α} {f : α → Outcome Vm β}
    (hv : P vm) (hf : ∀ a, r = .ok a → EndsIn P (f a)) : EndsIn P (Outcome.lift vm r f) := by
  cases r with
  | ok a => exact hf a rfl
  | throws e => exact hv
  | _ => trivial

theorem endsIn_attached {α : Type} {P : Vm → Prop} {vm : Vm} {t : Nat} {o : Outcome Vm α} (h : EndsIn P o) :
    EndsIn P (vm.attached t o) := by
  unfold Vm.attached
  split
  · trivial
  · exact h

/-- What every piece of a call keeps is kept by all code. -/
structure Kept (t : Nat) (P : JniOp → Prop) (I : Vm → Prop) : Prop where
  jni : ∀ {vm vm' : Vm} {op : JniOp} {a : JniAnswer}, P op → I vm → op.run vm t = .ok (vm', a) → I vm'
  cls : ∀ {vm vm' : Vm} {o c : Option Nat}, I vm → vm.objectClass t o = .ok (vm', c) → I vm'
  cast : ∀ {vm vm' : Vm} {cl c : Option Nat}, I vm → vm.castClass cl = .ok (vm', c) → I vm'
  raise : ∀ {vm : Vm} {e : Exn} {h : Heap} {out : Out}, I vm → (HeapOp.raise e).run vm.heap t = .ok (h, out) →
    I { vm with heap := h }
  ret : ∀ {vm : Vm} {r : Option Nat} {ty : Option Str} {h : Heap} {out : Out}, I vm →
    (HeapOp.returnObject r ty).run vm.heap t = .ok (h, out) → I { vm with heap := h }

/-- The code keeps the invariant. -/
structure CodeKeeps (I : Vm → Prop) (code : Code) : Prop where
  hooks : ∀ f vm self args, I vm → EndsIn I ((code.hooks f).run vm self args)
  natives : ∀ p ty vm target args, I vm → EndsIn I (code.natives p ty vm target args)

theorem kept_invoke {t : Nat} {P : JniOp → Prop} {I : Vm → Prop} (hk : Kept t P I) {code : Code} (hc : CodeKeeps I code)
    {vm : Vm} (hv : I vm) (ty : JType) (a : Access) (self : Self) (args : List (BitVec 64)) (m : Option MethodRec) :
    EndsIn I (Vm.invoke code.hooks t ty a self args vm m) := by
  unfold Vm.invoke
  split
  · trivial
  · split
    · trivial
    · rename_i f _
      have hi : EndsIn I ((code.hooks f).invoke a ty vm self args) := by
        have := hc.hooks f vm self args hv
        unfold Hook.invoke
        split
        · split <;> first | exact this | exact hv
        · exact hv
      cases ho : (code.hooks f).invoke a ty vm self args with
      | raises v e =>
        rw [ho] at hi
        exact endsIn_lift hi fun ⟨h, out⟩ hx => hk.raise hi hx
      | returns v x => rw [ho] at hi; exact hi
      | _ => trivial

theorem kept_withMethod {I : Vm → Prop} {vm : Vm} (hv : I vm) {id : Option Nat}
    {f : MethodRec → Outcome Vm (BitVec 64)} (hf : ∀ m, EndsIn I (f m)) : EndsIn I (vm.withMethod id f) := by
  unfold Vm.withMethod
  split
  · exact hv
  · split
    · trivial
    · split
      · exact hf _
      · exact hv

theorem kept_callA {t : Nat} {P : JniOp → Prop} {I : Vm → Prop} (hk : Kept t P I) {code : Code} (hc : CodeKeeps I code)
    {vm : Vm} (hv : I vm) (ty : JType) (form : Form) (id : Option Nat) (args : List (BitVec 64)) :
    EndsIn I (vm.callA code.hooks t ty form id args) := by
  cases form with
  | virtual obj =>
    exact kept_withMethod hv fun m => endsIn_lift hv fun ⟨v, c⟩ hx => kept_invoke hk hc (hk.cls hv hx) ..
  | nonVirtual obj cl =>
    exact kept_withMethod hv fun m => endsIn_lift hv fun ⟨v, c⟩ hx => kept_invoke hk hc (hk.cast hv hx) ..
  | static cl =>
    exact endsIn_lift hv fun ⟨v, c⟩ hx => kept_withMethod (hk.cast hv hx) fun m =>
      kept_invoke hk hc (hk.cast hv hx) ..

theorem kept_access {I : Vm → Prop} {code : Code} (hc : CodeKeeps I code) {vm : Vm} (hv : I vm) (f : Nat)
    (st : Bool) (ty : JType) (self : Self) (args : List (BitVec 64)) :
    EndsIn I ((code.hooks f).access st ty vm self args) := by
  unfold Hook.access
  split
  · exact hc.hooks f vm self args hv
  · exact hv

theorem kept_owner {t : Nat} {P : JniOp → Prop} {I : Vm → Prop} (hk : Kept t P I) {vm vm' : Vm} (hv : I vm) {o : Owner} {s : Self}
    (h : vm.ownerSelf o = .ok (vm', s)) : I vm' := by
  cases o with
  | obj o => cases h; exact hv
  | cls c =>
    obtain ⟨⟨v, x⟩, h1, h2⟩ := Res.bind_eq_ok.1 h
    cases h2
    exact hk.cast hv h1

theorem kept_getField {t : Nat} {P : JniOp → Prop} {I : Vm → Prop} (hk : Kept t P I) {code : Code} (hc : CodeKeeps I code)
    {vm : Vm} (hv : I vm) (ty : JType) (o : Owner) (id : Option Nat) :
    EndsIn I (vm.getField code.hooks ty o id) := by
  unfold Vm.getField
  split
  · exact hv
  · split
    · trivial
    · split
      · exact hv
      · split
        · exact endsIn_lift hv fun ⟨v, s⟩ hx => kept_access hc (kept_owner hk hv hx) ..
        · trivial

theorem kept_setField {t : Nat} {P : JniOp → Prop} {I : Vm → Prop} (hk : Kept t P I) {code : Code} (hc : CodeKeeps I code)
    {vm : Vm} (hv : I vm) (ty : JType) (o : Owner) (id : Option Nat) (x : BitVec 64) :
    EndsIn I (vm.setField code.hooks ty o id x) := by
  unfold Vm.setField
  split
  · exact hv
  · split
    · exact hv
    · split
      · trivial
      · split
        · exact hv
        · split
          · exact endsIn_lift hv fun ⟨v, s⟩ hx => kept_access hc (kept_owner hk hv hx) ..
          · trivial

theorem kept_rethrow {I : Vm → Prop} {vm : Vm} (hv : I vm) (t : Nat) (x : BitVec 64) :
    EndsIn I (vm.rethrow t x) := by
  unfold Vm.rethrow
  split
  · trivial
  · split
    · exact hv
    · split
      · exact hv
      · trivial
      · trivial

theorem kept_invokeMethod {t : Nat} {P : JniOp → Prop} {I : Vm → Prop} (hk : Kept t P I) {code : Code} (hc : CodeKeeps I code)
    {vm : Vm} (hv : I vm) (target : Recipient) (id : Nat) (args : List (BitVec 64)) :
    EndsIn I (vm.invokeMethod code.natives code.hooks t target id args) := by
  unfold Vm.invokeMethod
  split
  · trivial
  · refine endsIn_lift hv fun ⟨h, out⟩ hx => ?_
    have hv1 := hk.ret hv hx
    dsimp only
    split
    · exact endsIn_lift hv1 fun k _ => endsIn_andThen (hc.natives _ _ _ _ _ hv1) fun v x hv => kept_rethrow hv ..
    · exact endsIn_lift hv1 fun k _ => endsIn_andThen (kept_callA hk hc hv1 ..) fun v x hv => kept_rethrow hv ..

theorem kept_script {t : Nat} {P : JniOp → Prop} {I : Vm → Prop} (hk : Kept t P I) {code : Code} (hc : CodeKeeps I code)
    (d2f : BitVec 64 → BitVec 32) (s : Script) (hs : s.Only P) : ∀ {vm : Vm}, I vm →
    EndsIn I (s.run d2f code t vm) := by
  induction s with
  | ret v => intro vm hv; exact hv
  | raise e => intro vm hv; exact hv
  | jni op k ih => intro vm hv; exact endsIn_lift hv fun ⟨v, a⟩ hx => ih _ (hs.2 _) (hk.jni hs.1 hv hx)
  | callA ty form id args k ih =>
    intro vm hv
    exact endsIn_attached (endsIn_andThen (kept_callA hk hc hv ..) fun v x hv => ih _ (hs _) hv)
  | callV ty form id va k ih =>
    intro vm hv
    refine endsIn_attached (endsIn_andThen ?_ fun v x hv => ih _ (hs _) hv)
    unfold Vm.callV
    split
    · exact hv
    · split
      · trivial
      · exact endsIn_lift hv fun a _ => kept_callA hk hc hv ..
  | getField ty owner id k ih =>
    intro vm hv
    exact endsIn_attached (endsIn_andThen (kept_getField hk hc hv ..) fun v x hv => ih _ (hs _) hv)
  | setField ty owner id x k ih =>
    intro vm hv
    exact endsIn_attached (endsIn_andThen (kept_setField hk hc hv ..) fun v x hv => ih hs hv)
  | invoke target id args k ih =>
    intro vm hv
    exact endsIn_attached (endsIn_andThen (kept_invokeMethod hk hc hv ..) fun v x hv => ih _ (hs _) hv)
  | attempt body handler k ihb ihh ihk =>
    intro vm hv
    exact endsIn_andThen (endsIn_orElse (ihb hs.1 hv) fun v e hv => ihh e (hs.2.1 e) hv)
      fun v x hv => ihk _ (hs.2.2 _) hv

theorem kept_code {t : Nat} {P : JniOp → Prop} {I : Vm → Prop} (hk : Kept t P I) (d2f : BitVec 64 → BitVec 32) {fs : Natives}
    (hf : fs.Only P) : ∀ depth, CodeKeeps I (fs.code d2f t depth)
  | 0 => ⟨fun _ _ _ _ _ => trivial, fun _ _ _ _ _ _ => trivial⟩
  | depth + 1 => ⟨fun _ _ _ _ hv => kept_script hk (kept_code hk d2f hf depth) d2f _ (hf.1 _ _ _) hv,
      fun _ _ _ _ _ hv => kept_script hk (kept_code hk d2f hf depth) d2f _ (hf.2 _ _ _ _) hv⟩

/-! ### The states of the VM -/

theorem classOf_vm {vm vm' : Vm} (hr : VmReachable vm) {k c : Option Nat} (h : vm.classOf k = .ok (vm', c)) :
    VmReachable vm' := by
  cases k with
  | none => cases h; exact hr
  | some k =>
    simp only [Vm.classOf] at h
    split at h
    · cases h
    · split at h
      · cases h
        exact ⟨hr.1.step (op := .findClass false _) rfl, hr.2⟩
      · cases h

theorem castClass_vm {vm vm' : Vm} (hr : VmReachable vm) {cl c : Option Nat} (h : vm.castClass cl = .ok (vm', c)) :
    VmReachable vm' := by
  obtain ⟨x, hx, h⟩ := Res.bind_eq_ok.1 h
  exact classOf_vm hr h

theorem objectClass_vm {vm vm' : Vm} (hr : VmReachable vm) {t : Nat} {o c : Option Nat}
    (h : vm.objectClass t o = .ok (vm', c)) : VmReachable vm' := by
  obtain ⟨⟨h1, out⟩, hx, h⟩ := Res.bind_eq_ok.1 h
  cases out with
  | ref k => exact classOf_vm (vm := { vm with heap := h1 }) ⟨hr.1, hr.2.step hx⟩ h
  | _ => cases h

theorem heapCall_vm {vm vm' : Vm} (hr : VmReachable vm) {t : Nat} {op : HeapOp} {out : Out}
    (h : vm.heapCall t op = .ok (vm', out)) : VmReachable vm' := by
  obtain ⟨h1, h2⟩ := heapCall_ok h
  exact ⟨h2 ▸ (found_spec vm'.heap.classes hr.1).1, hr.2.step h1⟩

theorem assignable_vm {vm vm' : Vm} (hr : VmReachable vm) {d : Nat} {c1 c2 : Option Nat} {a : JniAnswer}
    (h : vm.assignable d c1 c2 = .ok (vm', a)) : VmReachable vm' := by
  obtain ⟨⟨v1, x1⟩, h1, h2⟩ := Res.bind_eq_ok.1 h
  obtain ⟨⟨v2, x2⟩, h3, h4⟩ := Res.bind_eq_ok.1 h2
  obtain ⟨b, h5, h6⟩ := Res.bind_eq_ok.1 h4
  cases h6
  exact castClass_vm (castClass_vm hr h1) h3

theorem jni_vm {vm vm' : Vm} (hr : VmReachable vm) {t : Nat} {op : JniOp} {a : JniAnswer}
    (h : op.run vm t = .ok (vm', a)) : VmReachable vm' := by
  obtain ⟨hb, -⟩ := run_body h
  have memStep : ∀ {v : Vm} {mop : MemOp} {w : World}, VmReachable v → mop.run v.world = .ok w →
      VmReachable { v with world := w } := fun hv hm => ⟨hv.1.step hm, hv.2⟩
  cases op with
  | heap op =>
    obtain ⟨⟨v, o⟩, h1, h2⟩ := Res.bind_eq_ok.1 hb
    cases h2
    exact heapCall_vm hr h1
  | getMethodID d s r an cl n sig =>
    obtain ⟨⟨v, c⟩, h1, h2⟩ := Res.bind_eq_ok.1 hb
    obtain ⟨⟨w, id⟩, h3, h4⟩ := Res.bind_eq_ok.1 h2
    cases h4
    refine memStep (mop := .getMethodID d s r an c n sig) (castClass_vm hr h1) ?_
    simp only [MemOp.run]
    rw [show World.getMethodID _ _ _ _ _ _ _ _ = _ from h3]
    rfl
  | getFieldID d s r cl n ty =>
    obtain ⟨⟨v, c⟩, h1, h2⟩ := Res.bind_eq_ok.1 hb
    obtain ⟨⟨w, id⟩, h3, h4⟩ := Res.bind_eq_ok.1 h2
    cases h4
    refine memStep (mop := .getFieldID d s r c n ty) (castClass_vm hr h1) ?_
    simp only [MemOp.run]
    rw [show World.getFieldID _ _ _ _ _ _ _ = _ from h3]
    rfl
  | registerNatives cl l =>
    obtain ⟨⟨v, c⟩, h1, h2⟩ := Res.bind_eq_ok.1 hb
    cases h2
    exact memStep (mop := .registerNatives c l) (castClass_vm hr h1) rfl
  | unregisterNatives cl =>
    obtain ⟨⟨v, c⟩, h1, h2⟩ := Res.bind_eq_ok.1 hb
    cases h2
    exact memStep (mop := .unregisterNatives c) (castClass_vm hr h1) rfl
  | isAssignableFrom d c1 c2 => exact assignable_vm hr hb
  | isInstanceOf d obj cl =>
    cases obj with
    | none => cases hb; exact hr
    | some o =>
      obtain ⟨⟨v, out⟩, h1, h2⟩ := Res.bind_eq_ok.1 hb
      cases out with
      | ref c => exact assignable_vm (heapCall_vm hr h1) h2
      | _ => cases h2
  | getSuperclass cl =>
    obtain ⟨⟨v, c⟩, h1, h2⟩ := Res.bind_eq_ok.1 hb
    have hv := castClass_vm hr h1
    obtain ⟨d, rfl, h2⟩ := onClass_inv h2
    obtain ⟨b, h3, h4⟩ := Res.bind_eq_ok.1 h2
    cases hn : v.world.nameOf b with
    | none => simp only [hn] at h4; cases h4; exact hv
    | some n =>
      simp only [hn] at h4
      obtain ⟨⟨v, o⟩, h5, h6⟩ := Res.bind_eq_ok.1 h4
      cases h6
      exact heapCall_vm hv h5
  | cpp op =>
    obtain ⟨⟨w, x⟩, h1, h2⟩ := Res.bind_eq_ok.1 hb
    have g : VmReachable { vm with world := w } := ⟨(client_step hr.1 h1).1, hr.2⟩
    cases hm : op.makes with
    | none => simp only [hm] at h2; cases h2; exact g
    | some n =>
      simp only [hm] at h2
      obtain ⟨⟨v, o⟩, h5, h6⟩ := Res.bind_eq_ok.1 h2
      cases h6
      exact heapCall_vm g h5

theorem kept_vm (t : Nat) : Kept t (fun _ => True) VmReachable :=
  ⟨fun _ hr hx => jni_vm hr hx, fun hr hx => objectClass_vm hr hx, fun hr hx => castClass_vm hr hx, fun hr hx => ⟨hr.1, hr.2.step hx⟩, fun hr hx => ⟨hr.1, hr.2.step hx⟩⟩

/-! ### Calls one after the other -/

theorem runJni_append (p q : List (Nat × JniOp)) (vm : Vm) :
    runJni vm (p ++ q) = (runJni vm p).bind fun x => (runJni x.1 q).bind fun y => .ok (y.1, x.2 ++ y.2) := by
  induction p generalizing vm with
  | nil =>
    simp only [List.nil_append, runJni, Res.bind_ok]
    cases runJni vm q <;> rfl
  | cons op p ih =>
    obtain ⟨t, op⟩ := op
    simp only [List.cons_append, runJni]
    cases op.run vm t with
    | ok x =>
      simp only [Res.bind_ok, ih]
      cases runJni x.1 p with
      | ok y =>
        simp only [Res.bind_ok]
        cases runJni y.1 q <;> rfl
      | _ => rfl
    | _ => rfl

theorem _root_.Spec.ByCallsOf.refl (t : Nat) (P : JniOp → Prop) (vm : Vm) : ByCallsOf t P vm vm := ⟨[], [], nofun, rfl⟩

theorem _root_.Spec.ByCallsOf.call {t : Nat} {P : JniOp → Prop} {a b c : Vm} (h : ByCallsOf t P a b) {op : JniOp}
    {x : JniAnswer} (ho : P op) (hx : op.run b t = .ok (c, x)) : ByCallsOf t P a c := by
  obtain ⟨ops, as, ht, hr⟩ := h
  refine ⟨ops ++ [(t, op)], as ++ [x], fun y hy => ?_, ?_⟩
  · rcases List.mem_append.1 hy with hy | hy
    · exact ht y hy
    · cases List.mem_singleton.1 hy; exact ⟨rfl, ho⟩
  · rw [runJni_append, hr]
    simp only [Res.bind_ok, runJni, hx]

theorem _root_.Spec.ByCallsOf.inv {t : Nat} {P : JniOp → Prop} {a b : Vm} (h : ByCallsOf t P a b) (ha : JniInv a) : JniInv b := by
  obtain ⟨ops, as, _, hr⟩ := h
  exact (runJni_grows ha hr).inv

theorem _root_.Spec.ByCallsOf.reachable {t : Nat} {P : JniOp → Prop} {a b : Vm} (h : ByCallsOf t P a b) (ha : JniReachable a) : JniReachable b := by
  obtain ⟨ops, as, _, hr⟩ := h
  obtain ⟨p, bs, hp⟩ := ha
  exact ⟨p ++ ops, bs ++ as, by rw [runJni_append, hp]; simp only [Res.bind_ok, hr]⟩

/-- A call of the heap that makes no class. -/
theorem _root_.Spec.ByCallsOf.quiet {t : Nat} {P : JniOp → Prop} {a b : Vm} (ha : JniInv a) (h : ByCallsOf t P a b)
    {op : HeapOp} {h1 : Heap} {out : Out} (ho : P (.heap op)) (hx : op.run b.heap t = .ok (h1, out)) (hc : h1.classes = b.heap.classes) :
    ByCallsOf t P a { b with heap := h1 } := by
  have inv := h.inv ha
  refine h.call (op := .heap op) (x := .out out) ho ?_
  have hcall : b.heapCall t op = .ok ({ b with heap := h1 }, out) := by
    simp only [Vm.heapCall, hx, Res.bind_ok, sync_eq]
    rw [found_known _ (by rw [hc]; exact inv.known)]
  have hne : (op.needsEnv && (b.heap.envs t).isNone) = false := by
    obtain ⟨h2, hx1, _⟩ := Heap.run_ok hx
    obtain ⟨_, hne⟩ := Heap.exec_ok hx1
    cases hn : op.needsEnv with
    | false => rfl
    | true => obtain ⟨e, he⟩ := hne hn; rw [he]; rfl
  simp only [JniOp.run, JniOp.needsEnv, hne, Bool.false_eq_true, if_false, JniOp.body, hcall, Res.bind_ok]

theorem raise_classes {h h' : Heap} {t : Nat} {e : Exn} {out : Out} (hx : (HeapOp.raise e).run h t = .ok (h', out)) :
    h'.classes = h.classes := by
  obtain ⟨h1, hx1, rfl⟩ := Heap.run_ok hx
  obtain ⟨hb, -⟩ := Heap.exec_ok hx1
  obtain ⟨h2, rfl⟩ := outUnit_ok hb
  obtain ⟨env, _, hb⟩ := Res.bind_eq_ok.1 h2
  cases hb
  rw [collect_classes]
  rfl

theorem returnObject_classes {h h' : Heap} {t : Nat} {r : Option Nat} {ty : Option Str} {out : Out}
    (hx : (HeapOp.returnObject r ty).run h t = .ok (h', out)) : h'.classes = h.classes := by
  obtain ⟨h1, hx1, rfl⟩ := Heap.run_ok hx
  obtain ⟨hb, -⟩ := Heap.exec_ok hx1
  obtain ⟨c, hb1, rfl⟩ := outRef_ok hb
  obtain ⟨k, _, hb1⟩ := Res.bind_eq_ok.1 hb1
  rw [collect_classes]
  exact toJNI?_classes hb1

theorem classOf_self {vm v : Vm} (inv : JniInv vm) {k c : Option Nat} (h : vm.classOf k = .ok (v, c)) : v = vm := by
  cases k with
  | none => cases h; rfl
  | some k =>
    simp only [Vm.classOf] at h
    split at h
    · cases h
    · rename_i o ho
      split at h
      · rename_i n hn
        obtain ⟨d, hd⟩ := inv.known (n, k) (lookup_mem (inv.heap.classTable k o n ho hn))
        rw [find_names_known hd] at h
        cases h
        rfl
      · cases h

/-- Asking for the class of an object is a call. -/
theorem objectClass_calls {t : Nat} {P : JniOp → Prop} (hP : ∀ o, P (.heap (.getObjectClass o))) {a b v : Vm}
    (ha : JniInv a) (h : ByCallsOf t P a b) {o c : Option Nat} (hx : b.objectClass t o = .ok (v, c)) :
    ByCallsOf t P a v := by
  obtain ⟨⟨h1, out⟩, hx, hy⟩ := Res.bind_eq_ok.1 hx
  have inv := h.inv ha
  have hx0 := hx
  obtain ⟨h2, hx1, rfl⟩ := Heap.run_ok hx
  obtain ⟨hb0, hne⟩ := Heap.exec_ok hx1
  obtain ⟨k, hb, rfl⟩ := outRef_ok hb0
  have hy : Vm.classOf { b with heap := h2.collect } k = .ok (v, c) := hy
  have same : h2.collect.classes = b.heap.classes → ByCallsOf t P a v := by
    intro hc
    have q := h.quiet ha (hP _) hx0 hc
    rw [classOf_self (q.inv ha) hy]
    exact q
  cases o with
  | some r =>
    refine same ?_
    obtain ⟨i, _, hb⟩ := Res.bind_eq_ok.1 hb
    rw [collect_classes]
    cases i with
    | none => cases hb
    | some i =>
      dsimp only at hb
      split at hb
      · cases hb
      · exact toJNI?_classes hb
  | none =>
    obtain ⟨h3, hb3, hb4⟩ := Res.bind_eq_ok.1 (show (((b.heap.intern "Invalid".toList).1.toJNI t
      ((b.heap.intern "Invalid".toList).1.typeClass "java/lang/Class".toList)
      (b.heap.intern "Invalid".toList).2).bind fun h => Res.ok (h, some (b.heap.intern "Invalid".toList).2)) = _
      from hb)
    cases hb4
    have hcl : h2.classes = (b.heap.intern "Invalid".toList).1.classes :=
      toJNI?_classes (t := t) (s := (b.heap.intern "Invalid".toList).1.typeClass "java/lang/Class".toList)
        (i := some (b.heap.intern "Invalid".toList).2) hb
    cases hl : b.heap.classes.lookup "Invalid".toList with
    | some d =>
      refine same ?_
      rw [collect_classes, hcl]
      simp only [Heap.intern, hl]
    | none =>
      have hcl2 : h2.collect.classes = ("Invalid".toList, b.heap.next) :: b.heap.classes := by
        rw [collect_classes, hcl]
        simp only [Heap.intern, hl]
        rfl
      have hk : (b.heap.intern "Invalid".toList).2 = b.heap.next := by
        simp only [Heap.intern, hl]
        rfl
      obtain ⟨_, o', ho', hk'⟩ := (inv.heap.step hx0).inv.toPre.classes "Invalid".toList b.heap.next
        (by rw [hcl2]; exact List.mem_cons_self ..)
      rw [hk] at hy hx0
      simp only [Vm.classOf, ho', hk'] at hy
      obtain ⟨e, he⟩ := hne rfl
      refine h.call (op := .heap (.getObjectClass none)) (x := .out (.ref (some b.heap.next))) (hP _) ?_
      rw [run_attached he]
      have hs : Vm.sync { b with heap := h2.collect } = v := by
        rw [sync_eq]
        dsimp only
        rw [hcl2, found_cons, found_known _ inv.known]
        cases hy
        rfl
      simp only [JniOp.body, Vm.heapCall, hx0, Res.bind_ok, hs]

theorem kept_calls {vm : Vm} (hr : JniInv vm) (t : Nat) {P Q : JniOp → Prop} (hP : ∀ op, P op → Q op)
    (hQ : ∀ op, CallsOwn op → Q op) : Kept t P (ByCallsOf t Q vm) where
  jni := fun ho h hx => h.call (hP _ ho) hx
  cls := fun h hx => objectClass_calls (fun _ => hQ _ trivial) hr h hx
  cast := fun h hx => by rw [castClass_self (h.inv hr) hx]; exact h
  raise := fun {_ e _ _} h hx => h.quiet hr (hQ (.heap (.raise e)) trivial) hx (raise_classes hx)
  ret := fun {_ o tr _ _} h hx => h.quiet hr (hQ (.heap (.returnObject o tr)) trivial) hx (returnObject_classes hx)

theorem only_true (s : Script) : s.Only fun _ => True := by
  induction s with
  | ret => trivial
  | raise => trivial
  | jni op k ih => exact ⟨trivial, ih⟩
  | callA ty form id args k ih => exact ih
  | callV ty form id va k ih => exact ih
  | getField ty owner id k ih => exact ih
  | setField ty owner id v k ih => exact ih
  | invoke target id args k ih => exact ih
  | attempt body handler k ihb ihh ihk => exact ⟨ihb, ihh, ihk⟩

theorem natives_only_true (fs : Natives) : fs.Only fun _ => True :=
  ⟨fun _ _ _ => only_true _, fun _ _ _ _ => only_true _⟩

/-! ### The depth that is followed -/

theorem refines_refl {σ α : Type} (o : Outcome σ α) : Refines o o := .inr rfl

theorem refines_trans {σ α : Type} {a b c : Outcome σ α} (h : Refines a b) (h' : Refines b c) : Refines a c := by
  rcases h with h | h
  · exact .inl h
  · subst h; exact h'

theorem refines_lift {α β : Type} (vm : Vm) (r : Res α) {f g : α → Outcome Vm β} (h : ∀ a, Refines (f a) (g a)) :
    Refines (Outcome.lift vm r f) (Outcome.lift vm r g) := by
  cases r with
  | ok a => exact h a
  | _ => exact refines_refl _

theorem refines_andThen {α β : Type} {o o' : Outcome Vm α} (h : Refines o o') {f g : Vm → α → Outcome Vm β}
    (hf : ∀ vm a, Refines (f vm a) (g vm a)) : Refines (o.andThen f) (o'.andThen g) := by
  rcases h with rfl | rfl
  · exact .inl rfl
  · cases o' with
    | returns vm a => exact hf vm a
    | _ => exact refines_refl _

theorem refines_orElse {α : Type} {o o' : Outcome Vm α} (h : Refines o o') {f g : Vm → Exn → Outcome Vm α}
    (hf : ∀ vm a, Refines (f vm a) (g vm a)) : Refines (o.orElse f) (o'.orElse g) := by
  rcases h with rfl | rfl
  · exact .inl rfl
  · cases o' with
    | raises vm e => exact hf vm e
    | _ => exact refines_refl _

theorem refines_attached {α : Type} (vm : Vm) (t : Nat) {o o' : Outcome Vm α} (h : Refines o o') :
    Refines (vm.attached t o) (vm.attached t o') := by
  unfold Vm.attached
  split
  · exact refines_refl _
  · exact h

/-- The same functions, followed for longer. -/
structure Longer (code code' : Code) : Prop where
  kind : ∀ f, (code'.hooks f).kind = (code.hooks f).kind
  type : ∀ f, (code'.hooks f).type = (code.hooks f).type
  hooks : ∀ f vm self args, Refines ((code.hooks f).run vm self args) ((code'.hooks f).run vm self args)
  natives : ∀ p ty vm target args, Refines (code.natives p ty vm target args) (code'.natives p ty vm target args)

theorem longer_invoke {code code' : Code} (hl : Longer code code') (t : Nat) (ty : JType) (a : Access) (self : Self)
    (args : List (BitVec 64)) (vm : Vm) (m : Option MethodRec) :
    Refines (Vm.invoke code.hooks t ty a self args vm m) (Vm.invoke code'.hooks t ty a self args vm m) := by
  unfold Vm.invoke
  split
  · exact refines_refl _
  · split
    · exact refines_refl _
    · rename_i f _
      have hi : Refines ((code.hooks f).invoke a ty vm self args) ((code'.hooks f).invoke a ty vm self args) := by
        simp only [Hook.invoke, hl.kind, hl.type]
        split
        · split <;> first | exact hl.hooks f vm self args | exact refines_refl _
        · exact refines_refl _
      rcases hi with hi | hi
      · exact .inl (by rw [hi]; rfl)
      · exact .inr (by rw [hi])

theorem longer_withMethod {vm : Vm} {id : Option Nat} {f g : MethodRec → Outcome Vm (BitVec 64)}
    (h : ∀ m, Refines (f m) (g m)) : Refines (vm.withMethod id f) (vm.withMethod id g) := by
  unfold Vm.withMethod
  split
  · exact refines_refl _
  · split
    · exact refines_refl _
    · split
      · exact h _
      · exact refines_refl _

theorem longer_callA {code code' : Code} (hl : Longer code code') (t : Nat) (vm : Vm) (ty : JType) (form : Form)
    (id : Option Nat) (args : List (BitVec 64)) :
    Refines (vm.callA code.hooks t ty form id args) (vm.callA code'.hooks t ty form id args) := by
  cases form with
  | virtual obj => exact longer_withMethod fun m => refines_lift _ _ fun _ => longer_invoke hl ..
  | nonVirtual obj cl => exact longer_withMethod fun m => refines_lift _ _ fun _ => longer_invoke hl ..
  | static cl => exact refines_lift _ _ fun _ => longer_withMethod fun m => longer_invoke hl ..

theorem longer_access {code code' : Code} (hl : Longer code code') (f : Nat) (st : Bool) (ty : JType) (vm : Vm)
    (self : Self) (args : List (BitVec 64)) :
    Refines ((code.hooks f).access st ty vm self args) ((code'.hooks f).access st ty vm self args) := by
  simp only [Hook.access, hl.kind, hl.type]
  split
  · exact hl.hooks f vm self args
  · exact refines_refl _

theorem longer_getField {code code' : Code} (hl : Longer code code') (vm : Vm) (ty : JType) (o : Owner)
    (id : Option Nat) : Refines (vm.getField code.hooks ty o id) (vm.getField code'.hooks ty o id) := by
  unfold Vm.getField
  split
  · exact refines_refl _
  · split
    · exact refines_refl _
    · split
      · exact refines_refl _
      · split
        · exact refines_lift _ _ fun _ => longer_access hl ..
        · exact refines_refl _

theorem longer_setField {code code' : Code} (hl : Longer code code') (vm : Vm) (ty : JType) (o : Owner)
    (id : Option Nat) (x : BitVec 64) :
    Refines (vm.setField code.hooks ty o id x) (vm.setField code'.hooks ty o id x) := by
  unfold Vm.setField
  split
  · exact refines_refl _
  · split
    · exact refines_refl _
    · split
      · exact refines_refl _
      · split
        · exact refines_refl _
        · split
          · exact refines_lift _ _ fun _ => longer_access hl ..
          · exact refines_refl _

theorem longer_invokeMethod {code code' : Code} (hl : Longer code code') (t : Nat) (vm : Vm) (target : Recipient)
    (id : Nat) (args : List (BitVec 64)) :
    Refines (vm.invokeMethod code.natives code.hooks t target id args)
      (vm.invokeMethod code'.natives code'.hooks t target id args) := by
  unfold Vm.invokeMethod
  split
  · exact refines_refl _
  · refine refines_lift _ _ fun _ => ?_
    dsimp only
    split
    · exact refines_lift _ _ fun k => refines_andThen (hl.natives ..) fun _ _ => refines_refl _
    · exact refines_lift _ _ fun k => refines_andThen (longer_callA hl ..) fun _ _ => refines_refl _

theorem longer_script {code code' : Code} (hl : Longer code code') (d2f : BitVec 64 → BitVec 32) (t : Nat)
    (s : Script) : ∀ vm, Refines (s.run d2f code t vm) (s.run d2f code' t vm) := by
  induction s with
  | ret v => intro vm; exact refines_refl _
  | raise e => intro vm; exact refines_refl _
  | jni op k ih => intro vm; exact refines_lift _ _ fun p => ih _ _
  | callA ty form id args k ih =>
    intro vm; exact refines_attached _ _ (refines_andThen (longer_callA hl ..) fun v x => ih _ _)
  | callV ty form id va k ih =>
    intro vm
    refine refines_attached _ _ (refines_andThen ?_ fun v x => ih _ _)
    unfold Vm.callV
    split
    · exact refines_refl _
    · split
      · exact refines_refl _
      · exact refines_lift _ _ fun _ => longer_callA hl ..
  | getField ty owner id k ih =>
    intro vm; exact refines_attached _ _ (refines_andThen (longer_getField hl ..) fun v x => ih _ _)
  | setField ty owner id x k ih =>
    intro vm; exact refines_attached _ _ (refines_andThen (longer_setField hl ..) fun v x => ih _)
  | invoke target id args k ih =>
    intro vm; exact refines_attached _ _ (refines_andThen (longer_invokeMethod hl ..) fun v x => ih _ _)
  | attempt body handler k ihb ihh ihk =>
    intro vm
    exact refines_andThen (refines_orElse (ihb vm) fun v e => ihh e v) fun v x => ihk _ _

theorem longer_code (d2f : BitVec 64 → BitVec 32) (fs : Natives) (t : Nat) :
    ∀ depth, Longer (fs.code d2f t depth) (fs.code d2f t (depth + 1))
  | 0 => ⟨fun _ => rfl, fun _ => rfl, fun _ _ _ _ => .inl rfl, fun _ _ _ _ _ => .inl rfl⟩
  | depth + 1 => ⟨fun _ => rfl, fun _ => rfl,
      fun _ vm _ _ => longer_script (longer_code d2f fs t depth) d2f t _ vm,
      fun _ _ vm _ _ => longer_script (longer_code d2f fs t depth) d2f t _ vm⟩

/-! ### Other threads -/

theorem runHeap_others {t : Nat} {ops : List (Nat × HeapOp)} : ∀ {h h' : Heap}, HeapReachable h →
    (∀ x ∈ ops, x.1 = t) → runHeap h ops = .ok h' → ∀ u, u ≠ t → h'.envs u = h.envs u := by
  induction ops with
  | nil => intro h h' _ _ hx u _; cases hx; rfl
  | cons x ops ih =>
    intro h h' hr ht hx u hu
    obtain ⟨v, op⟩ := x
    cases ht (v, op) (List.mem_cons_self ..)
    obtain ⟨⟨h1, out⟩, h2, h3⟩ := Res.bind_eq_ok.1 hx
    rw [ih (hr.step h2) (fun y hy => ht y (List.mem_cons_of_mem _ hy)) h3 u hu]
    obtain ⟨h4, hx1, rfl⟩ := Heap.run_ok h2
    rw [collect_envs]
    exact (Heap.step_exec hr.inv.toPre hx1).others u hu

/-- A condition that all calls meet in every state. -/
theorem along_of_all {P : Heap → Nat → HeapOp → Prop} {ops : List (Nat × HeapOp)} (hp : ∀ x ∈ ops, ∀ h, P h x.1 x.2) :
    ∀ h, Along P h ops := by
  induction ops with
  | nil => exact fun _ => trivial
  | cons x ops ih =>
    exact fun h => ⟨hp x (List.mem_cons_self ..) h,
      fun h' _ _ => ih (fun y hy => hp y (List.mem_cons_of_mem _ hy)) h'⟩

theorem _root_.Spec.ByCallsOf.trans {t : Nat} {P : JniOp → Prop} {a b c : Vm} (h : ByCallsOf t P a b)
    (h' : ByCallsOf t P b c) : ByCallsOf t P a c := by
  obtain ⟨p, as, hp, hpr⟩ := h
  obtain ⟨q, bs, hq, hqr⟩ := h'
  refine ⟨p ++ q, as ++ bs, fun x hx => (List.mem_append.1 hx).elim (hp x) (hq x), ?_⟩
  rw [runJni_append, hpr]
  simp only [Res.bind_ok, hqr]

theorem _root_.Spec.ActByCalls.keeps {t : Nat} {P : JniOp → Prop} {code : Code} (h : ActByCalls t P code) {vm : Vm}
    (hr : JniReachable vm) : CodeKeeps (ByCallsOf t P vm) code :=
  ⟨fun f v self args hv => (h.1 f v self args (hv.reachable hr)).mono fun _ hw => hv.trans hw,
    fun p ty v target args hv => (h.2 p ty v target args (hv.reachable hr)).mono fun _ hw => hv.trans hw⟩

/-! ### A sample -/

/-- A class "A" with the static functions "count" (3) and "fail" (4), a static field "f" (5, 6) and a native
function "n" (2), and a second thread. -/
def sampleNestedOps : List (Nat × JniOp) :=
  [(0, .cpp (.bindType 0 "A".toList [])), (0, .cpp (.hookMethod "A".toList true "count".toList "(I)I".toList 3)),
    (0, .cpp (.hookMethod "A".toList true "fail".toList "()V".toList 4)), (1, .heap .attach),
    (0, .cpp (.hookField "A".toList true true "f".toList "I".toList 5)),
    (0, .cpp (.hookField "A".toList false true "f".toList "I".toList 6)),
    (0, .registerNatives (some 9) [⟨"n".toList, "(I)I".toList, some 2⟩])]

/-- Some conversion of `double` to `float`. -/
def toFloat (v : BitVec 64) : BitVec 32 := v.truncate 32

/-- "count" calls itself; "fail" finds a new class, calls "count" and throws; the getter of "f" and "n" call "count",
its setter finds a class. -/
def sampleNatives : Natives where
  kind := fun _ => .static
  type := fun f => if f = 4 then .void else .int
  hooked := fun f _ args =>
    if f = 3 then countdown (some 9) 0 args
    else if f = 5 then .callA .int (.static (some 9)) (some 0) [4] .ret
    else if f = 6 then .jni (.heap (.findClass "New".toList)) fun _ => .ret 0
    else .jni (.heap (.findClass "New".toList)) fun _ =>
      .callA .int (.static (some 9)) (some 0) [3] fun _ => .raise (.user 7)
  registered := fun _ _ _ args => countdown (some 9) 0 args

/-- Calls "fail" and asks whether there is a pending exception. -/
def sampleScript : Script :=
  .callA .void (.static (some 9)) (some 1) [] fun _ => .jni (.heap .exceptionCheck) fun a =>
    .ret (if a = .out (.bool true) then 1 else 0)

structure SampleNested (vm : Vm) : Prop where
  reach : JniReachable vm
  envs : ∀ t, t < 2 → ∃ e, vm.heap.envs t = some e
  obj : ∃ o, vm.heap.objs 9 = some o ∧ o.kind = .cls "A".toList
  cls : ∃ c, vm.world.IsClass "A".toList c ∧ (vm.world.mem c).methods =
    [⟨0, "count".toList, "(I)I".toList, true, none, some 3⟩, ⟨1, "fail".toList, "()V".toList, true, none, some 4⟩,
      ⟨3, "n".toList, "(I)I".toList, false, some 2, none⟩] ∧
    (vm.world.mem c).fields = [⟨2, "f".toList, "I".toList, true, some 5, some 6⟩]

theorem sample_nested : ∃ vm as, runJni Vm.initial sampleNestedOps = .ok (vm, as) ∧ SampleNested vm := by
  obtain ⟨vm, as, hx, hr, hp⟩ := jniReachable_of (ops := sampleNestedOps) (p := fun vm _ =>
    (vm.heap.envs 0).isSome && (vm.heap.envs 1).isSome &&
    (vm.heap.objs 9).any (fun (o : Obj) => decide (o.kind = .cls "A".toList)) &&
    (findClass true vm.world.reg "A".toList).2.any (fun (c : Nat) => decide ((vm.world.mem c).methods =
      [⟨0, "count".toList, "(I)I".toList, true, none, some 3⟩,
        ⟨1, "fail".toList, "()V".toList, true, none, some 4⟩, ⟨3, "n".toList, "(I)I".toList, false, some 2, none⟩] ∧
      (vm.world.mem c).fields = [⟨2, "f".toList, "I".toList, true, some 5, some 6⟩]))) (by decide +kernel)
  simp only [Bool.and_eq_true, Option.any_eq_true, decide_eq_true_eq] at hp
  obtain ⟨⟨⟨h0, h1⟩, h2⟩, h3⟩ := hp
  refine ⟨vm, as, hx, hr, fun t ht => ?_, h2, h3⟩
  match t, ht with
  | 0, _ => exact Option.isSome_iff_exists.1 h0
  | 1, _ => exact Option.isSome_iff_exists.1 h1

theorem SampleNested.names {vm : Vm} (S : SampleNested vm) : ∃ c, IsClassRef vm (some 9) c ∧
    Names vm.world 0 ⟨0, "count".toList, "(I)I".toList, true, none, some 3⟩ ∧
    Names vm.world 1 ⟨1, "fail".toList, "()V".toList, true, none, some 4⟩ ∧
    Names vm.world 3 ⟨3, "n".toList, "(I)I".toList, false, some 2, none⟩ ∧
    NamesField vm.world 2 ⟨2, "f".toList, "I".toList, true, some 5, some 6⟩ := by
  obtain ⟨o, ho, hk⟩ := S.obj
  obtain ⟨c, hc, hm, hf⟩ := S.cls
  exact ⟨c, ⟨9, o, _, .direct ho (by rw [hk]; exact fun _ => ⟨nofun, nofun⟩), ho, hk, hc⟩,
    ⟨_, c, hc, by rw [hm]; exact List.mem_cons_self .., rfl⟩,
    ⟨_, c, hc, by rw [hm]; exact List.mem_cons_of_mem _ (List.mem_cons_self ..), rfl⟩,
    ⟨_, c, hc, by rw [hm]; exact List.mem_cons_of_mem _ (List.mem_cons_of_mem _ (List.mem_cons_self ..)), rfl⟩,
    ⟨_, c, hc, by rw [hf]; exact List.mem_cons_self .., rfl⟩⟩

/-- How a piece of code ended. -/
def Outcome.is {σ α : Type} (ret : σ → α → Bool) (exn : σ → Exn → Bool) : Outcome σ α → Bool
  | .returns s a => ret s a
  | .raises s e => exn s e
  | _ => false

theorem sample_script {vm : Vm} {as : List JniAnswer} (hx : runJni Vm.initial sampleNestedOps = .ok (vm, as)) :
    ∃ vm', sampleScript.run toFloat (sampleNatives.code toFloat 0 5) 0 vm = .returns vm' 1 ∧
      (findClass true vm.world.reg "New".toList).2 = none ∧ ∃ c, vm'.world.IsClass "New".toList c := by
  have h : (runJni Vm.initial sampleNestedOps).holds (fun (x : Vm × List JniAnswer) =>
      (findClass true x.1.world.reg "New".toList).2.isNone &&
      (sampleScript.run toFloat (sampleNatives.code toFloat 0 5) 0 x.1).is
        (fun v a => decide (a = 1) && (findClass true v.world.reg "New".toList).2.isSome) (fun _ _ => false)) = true := by
    decide +kernel
  obtain ⟨⟨v, as'⟩, h1, h2⟩ := Res.holds_iff.1 h
  rw [hx] at h1
  cases h1
  simp only [Bool.and_eq_true] at h2
  obtain ⟨h2, h3⟩ := h2
  cases ho : sampleScript.run toFloat (sampleNatives.code toFloat 0 5) 0 vm with
  | returns v a =>
    rw [ho] at h3
    simp only [Outcome.is, Bool.and_eq_true, decide_eq_true_eq] at h3
    obtain ⟨c, hc⟩ := Option.isSome_iff_exists.1 h3.2
    exact ⟨v, by rw [h3.1], Option.isNone_iff_eq_none.1 h2, c, hc⟩
  | _ => rw [ho] at h3; cases h3

theorem sample_fail {vm : Vm} {as : List JniAnswer} (hx : runJni Vm.initial sampleNestedOps = .ok (vm, as))
    (self : Self) : ∃ vm', (sampleNatives.hooked 4 self []).run toFloat (sampleNatives.code toFloat 0 4) 0 vm =
      .raises vm' (.user 7) ∧ (vm'.heap.envs 0).isSome := by
  have h : (runJni Vm.initial sampleNestedOps).holds (fun (x : Vm × List JniAnswer) =>
      ((sampleNatives.hooked 4 (.cls none) []).run toFloat (sampleNatives.code toFloat 0 4) 0 x.1).is
        (fun _ _ => false) (fun v e => decide (e = .user 7) && (v.heap.envs 0).isSome)) = true := by
    decide +kernel
  obtain ⟨⟨v, as'⟩, h1, h2⟩ := Res.holds_iff.1 h
  rw [hx] at h1
  cases h1
  have hself : sampleNatives.hooked 4 self [] = sampleNatives.hooked 4 (.cls none) [] := rfl
  rw [hself]
  cases ho : (sampleNatives.hooked 4 (.cls none) []).run toFloat (sampleNatives.code toFloat 0 4) 0 vm with
  | raises v e =>
    dsimp only at h2
    rw [ho] at h2
    simp only [Outcome.is, Bool.and_eq_true, decide_eq_true_eq] at h2
    exact ⟨v, by rw [h2.1], h2.2⟩
  | _ => dsimp only at h2; rw [ho] at h2; cases h2

end Jnivm
