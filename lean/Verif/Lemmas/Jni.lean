import Verif.Lemmas.ClassTable
import Verif.Lemmas.Calls
import Verif.Lemmas.HookSig
import Verif.Lemmas.Defaults
import Verif.Spec.Jni
import Verif.Props.Refs
import Verif.Lemmas.Destroy
import Verif.Lemmas.HeapObjs
/-! Histories of JNI calls on the joined state. -/
namespace Jnivm
open Spec
open Heap hiding Live

/-! ### The registry learns of the classes of the heap -/

theorem find_names_known {w : World} {n : Str} {c : Nat} (h : w.IsClass n c) :
    findClass false w.reg n = (w.reg, some c) := findClass_existing h

/-- Each class of a list is found once. -/
def found (l : List (Str × Nat)) (w : World) : World :=
  { w with reg := l.foldr (fun x r => (findClass false r x.1).1) w.reg }

theorem found_nil (w : World) : found [] w = w := rfl

theorem found_cons (x : Str × Nat) (l : List (Str × Nat)) (w : World) :
    found (x :: l) w = { found l w with reg := (findClass false (found l w).reg x.1).1 } := rfl

theorem found_spec (l : List (Str × Nat)) {w : World} (hr : MemReachable w) :
    MemReachable (found l w) ∧ (∀ n c, w.IsClass n c → (found l w).IsClass n c) ∧
      ∀ x ∈ l, ∃ c, (found l w).IsClass x.1 c := by
  induction l with
  | nil => exact ⟨hr, fun _ _ h => h, fun _ hx => nomatch hx⟩
  | cons x l ih =>
    obtain ⟨h1, h2, h3⟩ := ih
    obtain ⟨r, c, e, hr1, hc, hk⟩ := find_create h1 x.1
    have e1 : found (x :: l) w = { found l w with reg := r } := by
      rw [found_cons, e]
    rw [e1]
    refine ⟨hr1, fun n d hd => hk n d (h2 n d hd), fun y hy => ?_⟩
    rcases List.mem_cons.1 hy with rfl | hy
    · exact ⟨c, hc⟩
    · obtain ⟨d, hd⟩ := h3 y hy
      exact ⟨d, hk _ _ hd⟩

theorem found_known (l : List (Str × Nat)) {w : World} (h : ∀ x ∈ l, ∃ c, w.IsClass x.1 c) : found l w = w := by
  induction l with
  | nil => rfl
  | cons x l ih =>
    have hl := ih fun y hy => h y (List.mem_cons_of_mem _ hy)
    obtain ⟨c, hc⟩ := h x (List.mem_cons_self ..)
    rw [found_cons, hl, find_names_known hc]

theorem run_append (b : Build) (p q : List ClientOp) (w : World) :
    b.run w (p ++ q) = (b.run w p).bind fun x => (b.run x.1 q).bind fun y => .ok (y.1, x.2 ++ y.2) := by
  induction p generalizing w with
  | nil =>
    simp only [List.nil_append, Build.run, Res.bind_ok]
    cases b.run w q <;> rfl
  | cons op p ih =>
    simp only [List.cons_append, Build.run]
    cases op.run b w with
    | ok x =>
      simp only [Res.bind_ok, ih]
      cases b.run x.1 p with
      | ok y =>
        simp only [Res.bind_ok]
        cases b.run y.1 q with
        | ok z => rfl
        | throws e => rfl
        | ub u => rfl
        | diverges => rfl
      | throws e => rfl
      | ub u => rfl
      | diverges => rfl
    | throws e => rfl
    | ub u => rfl
    | diverges => rfl

theorem found_run (l : List (Str × Nat)) (w : World) :
    ∃ as, Build.debug.run w (l.reverse.map fun x => .findClass x.1) = .ok (found l w, as) := by
  induction l with
  | nil => exact ⟨[], rfl⟩
  | cons x l ih =>
    obtain ⟨as, h⟩ := ih
    rw [List.reverse_cons, List.map_append, run_append, h]
    exact ⟨_, rfl⟩

/-! ### Operations by name -/

theorem resolve_mem {w : World} (hr : MemReachable w) (n : Option Str) :
    MemReachable (Build.debug.resolve w n).1 ∧
      ∀ m c, w.IsClass m c → (Build.debug.resolve w n).1.IsClass m c := by
  cases n with
  | none => exact ⟨hr, fun _ _ h => h⟩
  | some n =>
    obtain ⟨r, c, e, hr1, _, hk⟩ := find_create hr n
    have e1 : (Build.debug.resolve w (some n)).1 = { w with reg := r } := by
      simp only [Build.resolve, Build.debug, e]
    rw [e1]
    exact ⟨hr1, hk⟩

theorem grow_step {w w' : World} (hr : MemReachable w) {op : MemOp} (h : op.run w = .ok w') :
    MemReachable w' ∧ ∀ m c, w.IsClass m c → w'.IsClass m c :=
  ⟨hr.step h, fun _ _ hc => isClass_step hr.inv h hc⟩

theorem onClass_inv {α : Type} {c : Option Nat} {f : Nat → Res α} {y : α} (h : onClass c f = .ok y) :
    ∃ d, c = some d ∧ f d = .ok y := by
  cases c with
  | none => cases h
  | some d => exact ⟨d, rfl, h⟩

theorem client_step {w w' : World} (hr : MemReachable w) {op : ClientOp} {a : ClientAnswer}
    (h : op.run .debug w = .ok (w', a)) : MemReachable w' ∧ ∀ m c, w.IsClass m c → w'.IsClass m c := by
  have go : ∀ {v : World} {mop : MemOp}, (MemReachable v ∧ ∀ m c, w.IsClass m c → v.IsClass m c) →
      mop.run v = .ok w' → MemReachable w' ∧ ∀ m c, w.IsClass m c → w'.IsClass m c := by
    intro v mop h1 h2
    obtain ⟨h3, h4⟩ := grow_step h1.1 h2
    exact ⟨h3, fun m c hc => h4 m c (h1.2 m c hc)⟩
  cases op with
  | findClass n => cases h; exact resolve_mem hr _
  | getMethodID d s r an cl n sig =>
    obtain ⟨⟨w1, id⟩, h1, h2⟩ := Res.bind_eq_ok.1 h
    cases h2
    refine go (resolve_mem hr cl) (mop := .getMethodID d s r an (Build.debug.resolve w cl).2 n sig) ?_
    simp only [MemOp.run]
    rw [show World.getMethodID _ _ _ _ _ _ _ _ = _ from h1]
    rfl
  | getFieldID d s r cl n ty =>
    obtain ⟨⟨w1, id⟩, h1, h2⟩ := Res.bind_eq_ok.1 h
    cases h2
    refine go (resolve_mem hr cl) (mop := .getFieldID d s r (Build.debug.resolve w cl).2 n ty) ?_
    simp only [MemOp.run]
    rw [show World.getFieldID _ _ _ _ _ _ _ = _ from h1]
    rfl
  | hookMethod cl s n sig fn =>
    obtain ⟨c, hc, h2⟩ := onClass_inv h
    cases h2
    exact go (resolve_mem hr (some cl)) (mop := .hookMethod c s n sig fn) rfl
  | hookField cl g s n ty fn =>
    obtain ⟨c, hc, h2⟩ := onClass_inv h
    cases h2
    exact go (resolve_mem hr (some cl)) (mop := .hookField c g s n ty fn) rfl
  | registerNatives cl l =>
    cases h
    exact go (resolve_mem hr cl) (mop := .registerNatives (Build.debug.resolve w cl).2 l) rfl
  | unregisterNatives cl =>
    cases h
    exact go (resolve_mem hr cl) (mop := .unregisterNatives (Build.debug.resolve w cl).2) rfl
  | bindType t n bs =>
    cases h
    exact go ⟨hr, fun _ _ hc => hc⟩ (mop := .bindType t n bs) rfl
  | isAssignableFrom d c1 c2 =>
    obtain ⟨x, h1, h2⟩ := Res.bind_eq_ok.1 h
    cases h2
    obtain ⟨a1, a2⟩ := resolve_mem hr c1
    obtain ⟨b1, b2⟩ := resolve_mem a1 c2
    exact ⟨b1, fun m c hc => b2 m c (a2 m c hc)⟩
  | getSuperclass cl =>
    obtain ⟨c, hc, h2⟩ := onClass_inv h
    obtain ⟨x, h1, h2⟩ := Res.bind_eq_ok.1 h2
    cases h2
    exact resolve_mem hr _

/-- A class that C++ code gets hold of is known afterwards. -/
theorem client_makes {w w' : World} (hr : MemReachable w) {op : ClientOp} {a : ClientAnswer} {n : Str}
    (h : op.run .debug w = .ok (w', a)) (hm : op.makes = some n) : ∃ c, w'.IsClass n c := by
  cases op <;> simp only [ClientOp.makes, reduceCtorEq, Option.some.injEq] at hm
  case findClass m =>
    subst hm
    cases h
    obtain ⟨r, c, e, hr1, hc, hk⟩ := find_create hr m
    refine ⟨c, ?_⟩
    simp only [Build.resolve, Build.debug, e]
    exact hc
  case bindType t m bs =>
    subst hm
    cases h
    obtain ⟨r, c, e, hr1, hc, hk⟩ := find_create hr m
    refine ⟨c, ?_⟩
    show World.IsClass (World.bindType w t m bs).1 m c
    simp only [World.bindType, e]
    exact hc

/-! ### The joined state -/

/-- The two halves are reachable, and the registry knows every class that has an object. -/
structure JniInv (vm : Vm) : Prop where
  world : MemReachable vm.world
  heap : HeapReachable vm.heap
  known : ∀ x ∈ vm.heap.classes, ∃ c, vm.world.IsClass x.1 c

theorem JniInv.vm {vm : Vm} (h : JniInv vm) : VmReachable vm := ⟨h.world, h.heap⟩

theorem jniInv_initial : JniInv Vm.initial := by
  refine ⟨⟨[], rfl⟩, HeapReachable.initial, ?_⟩
  have : ∀ x ∈ Heap.initial.classes, (findClass true World.initial.reg x.1).2.isSome = true := by
    decide +kernel
  intro x hx
  exact Option.isSome_iff_exists.1 (this x hx)

theorem sync_eq (vm : Vm) : vm.sync = { vm with world := found vm.heap.classes vm.world } := rfl

/-- What a client keeps: classes by name, and the history of the heap. -/
structure Grows (vm vm' : Vm) (P : Nat × HeapOp → Prop) : Prop where
  inv : JniInv vm'
  names : ∀ n c, vm.world.IsClass n c → vm'.world.IsClass n c
  heap : ∃ hops, runHeap vm.heap hops = .ok vm'.heap ∧ ∀ x ∈ hops, P x

theorem Grows.trans {a b c : Vm} {P Q R : Nat × HeapOp → Prop} (x : Grows a b P) (y : Grows b c Q)
    (h1 : ∀ z, P z → R z) (h2 : ∀ z, Q z → R z) : Grows a c R := by
  obtain ⟨p, hp, hP⟩ := x.heap
  obtain ⟨q, hq, hQ⟩ := y.heap
  refine ⟨y.inv, fun n k hk => y.names n k (x.names n k hk), p ++ q, ?_, fun z hz => ?_⟩
  · rw [runHeap_append, hp]; exact hq
  · rcases List.mem_append.1 hz with hz | hz
    · exact h1 z (hP z hz)
    · exact h2 z (hQ z hz)

theorem heapCall_ok {vm vm' : Vm} {t : Nat} {op : HeapOp} {out : Out} (h : vm.heapCall t op = .ok (vm', out)) :
    op.run vm.heap t = .ok (vm'.heap, out) ∧ vm'.world = found vm'.heap.classes vm.world := by
  obtain ⟨⟨h1, o⟩, hx, h2⟩ := Res.bind_eq_ok.1 h
  cases h2
  exact ⟨hx, rfl⟩

theorem heapCall_grows {vm vm' : Vm} (inv : JniInv vm) {t : Nat} {op : HeapOp} {out : Out}
    (h : vm.heapCall t op = .ok (vm', out)) : Grows vm vm' (· = (t, op)) := by
  obtain ⟨h1, h2⟩ := heapCall_ok h
  obtain ⟨a, b, c⟩ := found_spec vm'.heap.classes inv.world
  rw [← h2] at a b c
  refine ⟨⟨a, inv.heap.step h1, c⟩, b, [(t, op)], ?_, fun x hx => by simpa using hx⟩
  simp only [runHeap, h1, Res.bind_ok]

theorem world_grows {vm : Vm} (inv : JniInv vm) {w : World}
    (h : MemReachable w ∧ ∀ m c, vm.world.IsClass m c → w.IsClass m c) (P : Nat × HeapOp → Prop) :
    Grows vm { vm with world := w } P :=
  ⟨⟨h.1, inv.heap, fun x hx => (inv.known x hx).imp fun _ hc => h.2 _ _ hc⟩, h.2, [], rfl, fun _ hx => nomatch hx⟩

/-- The class object behind a reference has an entry in the registry. -/
theorem refersTo_class {vm : Vm} (inv : JniInv vm) {r : Option Nat} {n : Str} (h : RefersTo vm.heap r (some n)) :
    ∃ c, vm.world.IsClass n c ∧ IsClassRef vm r c := by
  obtain ⟨k, o, hd, ho, hk⟩ := h
  obtain ⟨c, hc⟩ := inv.known (n, k) (lookup_mem (inv.heap.classTable k o n ho hk))
  exact ⟨c, hc, k, o, n, hd, ho, hk, hc⟩

/-- Converting a class reference is finding the class by its name. -/
theorem castClass_name {vm : Vm} (inv : JniInv vm) {cl : Option Nat} {n : Option Str}
    (h : RefersTo vm.heap cl n) :
    vm.castClass cl = .ok (vm, (Build.debug.resolve vm.world n).2) ∧ (Build.debug.resolve vm.world n).1 = vm.world := by
  cases n with
  | none =>
    refine ⟨?_, rfl⟩
    simp only [Vm.castClass, Heap.cast, (denote_iff inv.heap.inv.toPre).2 h, Res.bind_ok]
    rfl
  | some n =>
    obtain ⟨c, hc, href⟩ := refersTo_class inv h
    have e := find_names_known hc
    refine ⟨?_, ?_⟩
    · rw [castClass_ref inv.vm href]
      simp only [Build.resolve, Build.debug, e]
    · simp only [Build.resolve, Build.debug, e]

/-- A conversion that succeeds was of a reference to a class or null. -/
theorem castClass_ok {vm vm' : Vm} (inv : JniInv vm) {cl : Option Nat} {c : Option Nat}
    (h : vm.castClass cl = .ok (vm', c)) : ∃ n, RefersTo vm.heap cl n := by
  obtain ⟨x, hx, h2⟩ := Res.bind_eq_ok.1 h
  obtain ⟨y, hy, hx⟩ := Res.bind_eq_ok.1 hx
  have hd := (denote_iff inv.heap.inv.toPre).1 hy
  cases y with
  | none => exact ⟨none, hd⟩
  | some i =>
    simp only at hx
    cases ho : vm.heap.objs i with
    | none => simp [ho] at hx
    | some o =>
      simp only [ho] at hx
      cases hk : o.kind <;> simp [hk] at hx
      case cls n => exact ⟨some n, i, o, hd, ho, hk⟩

theorem run_attached {vm : Vm} {t : Nat} {e : Env} (he : vm.heap.envs t = some e) (op : JniOp) :
    op.run vm t = op.body vm t := by
  simp only [JniOp.run, he, Option.isNone_some, Bool.and_false, Bool.false_eq_true, if_false]

theorem run_body {vm : Vm} {t : Nat} {op : JniOp} {x : Vm × JniAnswer} (h : op.run vm t = .ok x) :
    op.body vm t = .ok x ∧ (op.needsEnv = true → ∃ e, vm.heap.envs t = some e) := by
  simp only [JniOp.run] at h
  split at h
  · cases h
  · rename_i hc
    refine ⟨h, fun hn => ?_⟩
    simp only [hn, Bool.true_and, Bool.not_eq_true, Option.isNone_eq_false_iff] at hc
    exact Option.isSome_iff_exists.1 hc

/-- Getting hold of the object of a known class. -/
theorem classObject_known {vm : Vm} (inv : JniInv vm) {t : Nat} {e : Env} (he : vm.heap.envs t = some e)
    {n : Str} {c : Nat} (hc : vm.world.IsClass n c) :
    ∃ vm' k, vm.heapCall t (.classObject n) = .ok (vm', .ref (some k)) ∧ vm'.world = vm.world ∧
      vm'.heap.envs = vm.heap.envs ∧ ∃ o, vm'.heap.objs k = some o ∧ o.kind = .cls n := by
  have hx : (HeapOp.classObject n).run vm.heap t = .ok ((vm.heap.intern n).1.collect, .ref (some (vm.heap.intern n).2)) := by
    simp only [HeapOp.run, HeapOp.exec, HeapOp.needsEnv, he, Option.isNone_some, Bool.and_false,
      Bool.false_eq_true, if_false, HeapOp.body, Res.bind_ok]
  have hcall : vm.heapCall t (.classObject n) =
      .ok (Vm.sync { vm with heap := (vm.heap.intern n).1.collect }, .ref (some (vm.heap.intern n).2)) := by
    simp only [Vm.heapCall, hx, Res.bind_ok]
  obtain ⟨s, hl, hlook⟩ := inv.heap.inv.toPre.intern t n
  have hclasses : ∀ x ∈ (vm.heap.intern n).1.classes, ∃ c, vm.world.IsClass x.1 c := by
    intro x hx
    simp only [Heap.intern] at hx
    split at hx
    · exact inv.known x hx
    · simp only [List.mem_cons, alloc_classes] at hx
      rcases hx with rfl | hx
      · exact ⟨c, hc⟩
      · exact inv.known x hx
  refine ⟨_, _, hcall, ?_, ?_, ?_⟩
  · rw [sync_eq]
    exact found_known _ (by simpa using hclasses)
  · rw [sync_eq]
    simp only [collect_envs, intern_envs]
  · have hr' := inv.heap.step hx
    have := hr'.inv.toPre.classes n _ (lookup_mem (by rw [collect_classes]; exact hlook))
    exact this.2

/-! ### What becomes of references -/

/-- Objects and their kinds are kept, and no id is used again. -/
structure HeapKeeps (h h' : Heap) : Prop where
  kinds : ∀ i o, h.objs i = some o → ∃ o', h'.objs i = some o' ∧ o'.kind = o.kind
  gone : ∀ i, i < h.next → h.objs i = none → h'.objs i = none

theorem HeapKeeps.denotes {h h' : Heap} (x : HeapKeeps h h') (hp : h.Pre) {r k : Option Nat} (hd : Denotes h r k) :
    Denotes h' r k := by
  induction hd with
  | null => exact .null
  | direct ho hk =>
    obtain ⟨o', ho', hk'⟩ := x.kinds _ _ ho
    exact .direct ho' (by rw [hk']; exact hk)
  | global ho hk _ ih =>
    obtain ⟨o', ho', hk'⟩ := x.kinds _ _ ho
    exact .global ho' (hk'.trans hk) ih
  | weak ho hk _ ih =>
    obtain ⟨o', ho', hk'⟩ := x.kinds _ _ ho
    exact .weak ho' (hk'.trans hk) ih
  | @cleared w o t ho hk hl =>
    obtain ⟨o', ho', hk'⟩ := x.kinds _ _ ho
    refine .cleared ho' (hk'.trans hk) fun ⟨ot, hot⟩ => ?_
    have hlt : t < h.next := Nat.lt_trans (hp.target _ _ _ ho (.inl hk)).1 (hp.bound _ _ ho)
    cases e : h.objs t with
    | some o => exact hl ⟨o, e⟩
    | none => rw [x.gone t hlt e] at hot; cases hot

theorem HeapKeeps.refersTo {h h' : Heap} (x : HeapKeeps h h') (hp : h.Pre) {r : Option Nat} {n : Option Str}
    (hd : RefersTo h r n) : RefersTo h' r n := by
  cases n with
  | none => exact x.denotes hp hd
  | some n =>
    obtain ⟨k, o, hd, ho, hk⟩ := hd
    obtain ⟨o', ho', hk'⟩ := x.kinds _ _ ho
    exact ⟨k, o', x.denotes hp hd, ho', hk'.trans hk⟩

/-- `GetObjectClass` releases nothing. -/
theorem getObjectClass_keeps {h h' : Heap} (hr : HeapReachable h) {t : Nat} {r : Option Nat} {out : Out}
    (hx : (HeapOp.getObjectClass r).run h t = .ok (h', out)) : (∃ c, out = .ref c) ∧ HeapKeeps h h' := by
  have hp := hr.inv.toPre
  obtain ⟨h1, hx1, rfl⟩ := Heap.run_ok hx
  have s := Heap.step_exec hp hx1
  obtain ⟨hb, hne⟩ := Heap.exec_ok hx1
  obtain ⟨e, he⟩ := hne rfl
  obtain ⟨c, hb1, rfl⟩ := outRef_ok hb
  have q : Quiet False h h1 := quiet_getObjectClass hb1
  have p := pushed_getObjectClass hb1
  have kinds : ∀ i o, h.objs i = some o → ∃ o', h1.objs i = some o' ∧ o'.kind = o.kind := by
    intro i o ho
    obtain ⟨o', ho', _⟩ := s.live i o ho
    rcases q.kinds i o' ho' with ⟨o2, ho2, hk2⟩ | ⟨hn, _⟩
    · rw [ho] at ho2; cases ho2; exact ⟨o', ho', hk2⟩
    · exact absurd (hp.bound i o ho) (by omega)
  have roots : ∀ i, i ∈ h.roots → i ∈ h1.roots := by
    intro i hi
    rcases Heap.mem_roots.1 hi with hg | hg | ⟨u, eu, _, hu, hin⟩
    · exact Heap.mem_roots.2 (.inl (by rw [p.globals]; exact hg))
    · exact Heap.mem_roots.2 (.inr (.inl (s.pinned.subset hg)))
    · have : ∃ e1, h1.envs u = some e1 ∧ ((∃ f ∈ e1.frames, i ∈ f) ∨ e1.pending = some i) := by
        by_cases hut : u = t
        · subst hut
          rw [he] at hu; cases hu
          refine ⟨_, p.env e he, ?_⟩
          rcases hin with ⟨f, hf, hin⟩ | hin
          · left
            cases hfs : e.frames with
            | nil => rw [hfs] at hf; cases hf
            | cons f1 fs =>
              rw [hfs] at hf
              rcases List.mem_cons.1 hf with rfl | hf
              · exact ⟨_, List.mem_cons_self .., List.mem_append_left _ hin⟩
              · exact ⟨f, List.mem_cons_of_mem _ hf, hin⟩
          · exact .inr hin
        · exact ⟨eu, by rw [s.others u hut]; exact hu, hin⟩
      obtain ⟨e1, he1, hin1⟩ := this
      exact Heap.mem_roots.2 (.inr (.inr ⟨u, e1, s.pre.thread u e1 he1, he1, hin1⟩))
  refine ⟨⟨c, rfl⟩, fun i o ho => ?_, fun i hi ho => ?_⟩
  · obtain ⟨o', ho', hk'⟩ := kinds i o ho
    refine ⟨o', collectN_closed (S := h.Live) s.pre.bound ?_ i o' ⟨o, ho⟩ ho' ?_, hk'⟩
    · rintro j ⟨oj, hoj⟩
      rcases (held_iff hp.bound).1 (hr.inv.held j oj hoj) with hj | ⟨k, ok, hok, hj⟩
      · exact .inl (roots j hj)
      · obtain ⟨ok', hok', hkk⟩ := kinds k ok hok
        exact .inr ⟨k, ⟨ok, hok⟩, ok', hok', by rw [hkk]; exact hj⟩
    · rintro j ⟨oj, hoj⟩
      obtain ⟨oj', h1, _⟩ := kinds j oj hoj
      exact ⟨oj', h1⟩
  · cases e : h1.collect.objs i with
    | none => rfl
    | some o' => exact absurd ((s.fresh i hi ho).symm.trans (Heap.collect_sub e)) (by simp)

theorem runHeap_classes {ops : List (Nat × HeapOp)} : ∀ {h h' : Heap}, HeapReachable h → runHeap h ops = .ok h' →
    (∀ n c, h.classes.lookup n = some c → h'.classes.lookup n = some c) ∧ h.next ≤ h'.next ∧
    ∀ i o', i < h.next → h'.objs i = some o' → ∃ o, h.objs i = some o ∧ o.kind.Same o'.kind := by
  induction ops with
  | nil =>
    intro h h' hr hx
    cases hx
    exact ⟨fun _ _ h => h, Nat.le_refl _, fun i o _ ho => ⟨o, ho, .refl _⟩⟩
  | cons x ops ih =>
    intro h h' hr hx
    obtain ⟨⟨h1, out⟩, h2, h3⟩ := Res.bind_eq_ok.1 hx
    have s := runStep hr.inv.toPre h2
    obtain ⟨a, b, c⟩ := ih (hr.step h2) h3
    refine ⟨fun n k hk => a n k (s.classes n k hk), Nat.le_trans s.next b, fun i o' hi ho' => ?_⟩
    obtain ⟨o1, ho1, hs1⟩ := c i o' (Nat.lt_of_lt_of_le hi s.next) ho'
    obtain ⟨o, ho, hs, _⟩ := s.old i o1 hi ho1
    exact ⟨o, ho, hs.trans hs1⟩

/-- The object of a class is never released. -/
theorem classObject_kept {h h' : Heap} (hr : HeapReachable h) {ops : List (Nat × HeapOp)}
    (hx : runHeap h ops = .ok h') {k : Nat} {o : Obj} {n : Str} (ho : h.objs k = some o) (hk : o.kind = .cls n) :
    ∃ o', h'.objs k = some o' ∧ o'.kind = .cls n :=
  ((hr.steps hx).inv.toPre.classes n k
    (lookup_mem ((runHeap_classes hr hx).1 n k (hr.classTable k o n ho hk)))).2

/-- What a wrapper refers to is no wrapper. -/
theorem denotes_target {h : Heap} (hp : h.Pre) {i t k : Nat} {o : Obj} (ho : h.objs i = some o)
    (hk : o.kind = .weak t ∨ o.kind = .global t) (hd : Denotes h (some t) (some k)) : t = k := by
  have hw := (hp.target i o t ho hk).2
  cases hd with
  | direct => rfl
  | global h1 h2 => have := hw _ h1; rw [h2] at this; cases this
  | weak h1 h2 => have := hw _ h1; rw [h2] at this; cases this

/-- A reference to a class means that class as long as the reference itself is not released. -/
theorem refersTo_kept {h h' : Heap} (hr : HeapReachable h) {ops : List (Nat × HeapOp)}
    (hx : runHeap h ops = .ok h') {r : Nat} {n : Str} (hd : RefersTo h (some r) (some n)) (hl : Live h' r) :
    RefersTo h' (some r) (some n) := by
  obtain ⟨k, o, hd, ho, hk⟩ := hd
  obtain ⟨o', ho', hk'⟩ := classObject_kept hr hx ho hk
  have hdk : Denotes h' (some k) (some k) := .direct ho' (by simp [hk'])
  have hp := hr.inv.toPre
  have old := (runHeap_classes hr hx).2.2
  refine ⟨k, o', ?_, ho', hk'⟩
  obtain ⟨or, hor⟩ := hl
  cases hd with
  | direct => exact hdk
  | @global _ og t _ h1 h2 h3 =>
    cases denotes_target hp h1 (.inr h2) h3
    obtain ⟨o1, ho1, hs⟩ := old r or (hp.bound _ _ h1) hor
    rw [h1] at ho1; cases ho1
    rw [h2] at hs
    exact .global hor hs.global hdk
  | @weak _ og t _ h1 h2 h3 =>
    cases denotes_target hp h1 (.inl h2) h3
    obtain ⟨o1, ho1, hs⟩ := old r or (hp.bound _ _ h1) hor
    rw [h1] at ho1; cases ho1
    rw [h2] at hs
    exact .weak hor hs.weak hdk

/-! ### The calls -/

theorem base_class {w : World} (hr : MemReachable w) {c b : Nat} {bs : List (Option Nat)}
    (h : w.bases c = some bs) (hb : some b ∈ bs) : ∃ n, w.IsClass n b := by
  simp only [World.bases] at h
  obtain ⟨l, _, rfl⟩ := Option.map_eq_some_iff.1 h
  obtain ⟨x, _, hx⟩ := List.mem_map.1 hb
  cases x with
  | none => cases hx
  | some t => exact hr.typesBound t b hx

theorem isClass_nameOf {w : World} (hr : MemReachable w) {n : Str} {c : Nat} (h : w.IsClass n c) :
    w.nameOf (some c) = some n := by
  obtain ⟨cd, h1, h2⟩ := isClass_record hr.inv h
  simp only [World.nameOf, Option.bind_some, h1, Option.map_some, h2]

theorem getSuperclass_names {w : World} (hr : MemReachable w) {c : Nat} {b : Option Nat}
    (h : w.getSuperclass c = .ok b) : b = none ∨ ∃ d n, b = some d ∧ w.IsClass n d := by
  simp only [World.getSuperclass] at h
  cases hb : w.bases c with
  | none => rw [hb] at h; cases h; exact .inl rfl
  | some bs =>
    rw [hb] at h
    cases bs with
    | nil => cases h
    | cons x bs =>
      cases h
      cases b with
      | none => exact .inl rfl
      | some d =>
        obtain ⟨n, hn⟩ := base_class hr hb (List.mem_cons_self ..)
        exact .inr ⟨d, n, rfl, hn⟩

/-- A call by reference is the call by name. -/
theorem byName_body {vm : Vm} (inv : JniInv vm) {t : Nat} {e : Env} (he : vm.heap.envs t = some e)
    {op : JniOp} {c : ClientOp} (h : ByName vm.heap op c) : SameResult (op.body vm t) (c.run .debug vm.world) := by
  cases h with
  | @getMethodID d s r a cl n name sig h =>
    obtain ⟨h1, h2⟩ := castClass_name inv h
    simp only [JniOp.body, h1, Res.bind_ok, ClientOp.run, h2]
    simp only [Build.debug]
    generalize vm.world.getMethodID d s (r || a) a _ name sig = y
    cases y with
    | ok y => exact .ok rfl
    | throws => exact .throws
    | ub => exact .ub
    | diverges => exact .diverges
  | @getFieldID d s r cl n name ty h =>
    obtain ⟨h1, h2⟩ := castClass_name inv h
    simp only [JniOp.body, h1, Res.bind_ok, ClientOp.run, h2]
    simp only [Build.debug]
    generalize vm.world.getFieldID d s r _ name ty = y
    cases y with
    | ok y => exact .ok rfl
    | throws => exact .throws
    | ub => exact .ub
    | diverges => exact .diverges
  | registerNatives h =>
    obtain ⟨h1, h2⟩ := castClass_name inv h
    simp only [JniOp.body, h1, Res.bind_ok, ClientOp.run, h2]
    exact .ok rfl
  | unregisterNatives h =>
    obtain ⟨h1, h2⟩ := castClass_name inv h
    simp only [JniOp.body, h1, Res.bind_ok, ClientOp.run, h2]
    exact .ok rfl
  | @isAssignableFrom d c1 c2 n1 n2 ha hb =>
    obtain ⟨h1, h2⟩ := castClass_name inv ha
    obtain ⟨h3, h4⟩ := castClass_name inv hb
    simp only [JniOp.body, Vm.assignable, h1, h3, Res.bind_ok, ClientOp.run, h2, h4]
    generalize vm.world.isAssignableFrom d _ _ = y
    cases y with
    | ok y => exact .ok rfl
    | throws => exact .throws
    | ub => exact .ub
    | diverges => exact .diverges
  | @getSuperclass cl n h =>
    obtain ⟨h1, h2⟩ := castClass_name inv h
    simp only [JniOp.body, h1, Res.bind_ok, ClientOp.run, h2]
    generalize (Build.debug.resolve vm.world (some n)).2 = x
    cases x with
    | none => exact .ub
    | some k =>
      simp only [onClass]
      cases hs : vm.world.getSuperclass k with
      | throws => exact .throws
      | ub => exact .ub
      | diverges => exact .diverges
      | ok b =>
        simp only [Res.bind_ok]
        rcases getSuperclass_names inv.world hs with rfl | ⟨d, m, rfl, hm⟩
        · exact .ok (show RefersTo _ none none from .null)
        · rw [isClass_nameOf inv.world hm]
          obtain ⟨vm', k', hcall, hw, _, o, ho, hk⟩ := classObject_known inv he hm
          simp only [hcall, Res.bind_ok]
          rw [← hw]
          exact .ok (show RefersTo _ (some k') (some m) from ⟨k', o, .direct ho (by simp [hk]), ho, hk⟩)
  | cpp =>
    simp only [JniOp.body]
    cases hx : c.run .debug vm.world with
    | throws => exact .throws
    | ub => exact .ub
    | diverges => exact .diverges
    | ok y =>
      obtain ⟨w, a⟩ := y
      simp only [Res.bind_ok]
      cases hm : c.makes with
      | none => exact .ok rfl
      | some n =>
        have g := world_grows inv (client_step inv.world hx) (fun _ => True)
        obtain ⟨d, hd⟩ := client_makes inv.world hx hm
        obtain ⟨vm', k', hcall, hw, _⟩ := classObject_known (vm := { vm with world := w }) g.inv he hd
        simp only [hcall, Res.bind_ok]
        have hw : vm'.world = w := hw
        rw [← hw]
        exact .ok rfl

/-- Calls of the heap that a call by a client makes. -/
def ByCall (t : Nat) (op : JniOp) (x : Nat × HeapOp) : Prop :=
  x.1 = t ∧ (op = .heap x.2 ∨ (∃ n, x.2 = .classObject n) ∨ ∃ r, x.2 = .getObjectClass r)

theorem castClass_self {vm vm' : Vm} (inv : JniInv vm) {cl : Option Nat} {c : Option Nat}
    (h : vm.castClass cl = .ok (vm', c)) : vm' = vm := by
  obtain ⟨n, hn⟩ := castClass_ok inv h
  rw [(castClass_name inv hn).1] at h
  cases h; rfl

theorem assignable_self {vm vm' : Vm} (inv : JniInv vm) {d : Nat} {c1 c2 : Option Nat} {a : JniAnswer}
    (h : vm.assignable d c1 c2 = .ok (vm', a)) : vm' = vm := by
  obtain ⟨⟨v1, x1⟩, h1, h2⟩ := Res.bind_eq_ok.1 h
  obtain ⟨⟨v2, x2⟩, h3, h4⟩ := Res.bind_eq_ok.1 h2
  obtain ⟨b, h5, h6⟩ := Res.bind_eq_ok.1 h4
  cases castClass_self inv h1
  cases castClass_self inv h3
  cases h6; rfl

theorem grows_refl {vm : Vm} (inv : JniInv vm) (P : Nat × HeapOp → Prop) : Grows vm vm P :=
  ⟨inv, fun _ _ h => h, [], rfl, fun _ hx => nomatch hx⟩

/-- Every call keeps the state in order. -/
theorem jni_grows {vm vm' : Vm} (inv : JniInv vm) {t : Nat} {op : JniOp} {a : JniAnswer}
    (h : op.run vm t = .ok (vm', a)) : Grows vm vm' (ByCall t op) := by
  obtain ⟨hb, hne⟩ := run_body h
  have memStep : ∀ {mop : MemOp} {w : World}, mop.run vm.world = .ok w →
      Grows vm { vm with world := w } (ByCall t op) := fun hm =>
    world_grows inv (grow_step inv.world hm) _
  cases op with
  | heap op =>
    obtain ⟨⟨v, o⟩, h1, h2⟩ := Res.bind_eq_ok.1 hb
    cases h2
    exact (heapCall_grows inv h1).trans (grows_refl (heapCall_grows inv h1).inv (ByCall t (.heap op)))
      (fun z hz => by subst hz; exact ⟨rfl, .inl rfl⟩) (fun _ hz => hz)
  | getMethodID d s r an cl n sig =>
    obtain ⟨⟨v, c⟩, h1, h2⟩ := Res.bind_eq_ok.1 hb
    cases castClass_self inv h1
    obtain ⟨⟨w, id⟩, h3, h4⟩ := Res.bind_eq_ok.1 h2
    cases h4
    refine memStep (mop := .getMethodID d s r an c n sig) ?_
    simp only [MemOp.run]
    rw [show World.getMethodID _ _ _ _ _ _ _ _ = _ from h3]
    rfl
  | getFieldID d s r cl n ty =>
    obtain ⟨⟨v, c⟩, h1, h2⟩ := Res.bind_eq_ok.1 hb
    cases castClass_self inv h1
    obtain ⟨⟨w, id⟩, h3, h4⟩ := Res.bind_eq_ok.1 h2
    cases h4
    refine memStep (mop := .getFieldID d s r c n ty) ?_
    simp only [MemOp.run]
    rw [show World.getFieldID _ _ _ _ _ _ _ = _ from h3]
    rfl
  | registerNatives cl l =>
    obtain ⟨⟨v, c⟩, h1, h2⟩ := Res.bind_eq_ok.1 hb
    cases castClass_self inv h1
    cases h2
    exact memStep (mop := .registerNatives c l) rfl
  | unregisterNatives cl =>
    obtain ⟨⟨v, c⟩, h1, h2⟩ := Res.bind_eq_ok.1 hb
    cases castClass_self inv h1
    cases h2
    exact memStep (mop := .unregisterNatives c) rfl
  | isAssignableFrom d c1 c2 =>
    cases assignable_self inv hb
    exact grows_refl inv _
  | isInstanceOf d obj cl =>
    cases obj with
    | none => cases hb; exact grows_refl inv _
    | some o =>
      obtain ⟨⟨v, out⟩, h1, h2⟩ := Res.bind_eq_ok.1 hb
      have g := heapCall_grows inv h1
      cases out with
      | ref c =>
        cases assignable_self g.inv h2
        exact g.trans (grows_refl g.inv (fun _ => False))
          (fun z hz => by subst hz; exact ⟨rfl, .inr (.inr ⟨_, rfl⟩)⟩) (fun _ hz => hz.elim)
      | _ => cases h2
  | getSuperclass cl =>
    obtain ⟨⟨v, c⟩, h1, h2⟩ := Res.bind_eq_ok.1 hb
    cases castClass_self inv h1
    obtain ⟨d, rfl, h2⟩ := onClass_inv h2
    obtain ⟨b, h3, h4⟩ := Res.bind_eq_ok.1 h2
    cases hn : vm.world.nameOf b with
    | none =>
      simp only [hn] at h4
      cases h4
      exact grows_refl inv _
    | some n =>
      simp only [hn] at h4
      obtain ⟨⟨v, o⟩, h5, h6⟩ := Res.bind_eq_ok.1 h4
      cases h6
      have g := heapCall_grows inv h5
      exact g.trans (grows_refl g.inv (fun _ => False))
        (fun z hz => by subst hz; exact ⟨rfl, .inr (.inl ⟨_, rfl⟩)⟩) (fun _ hz => hz.elim)
  | cpp op =>
    obtain ⟨⟨w, x⟩, h1, h2⟩ := Res.bind_eq_ok.1 hb
    have g := world_grows inv (client_step inv.world h1) (fun _ => False)
    cases hm : op.makes with
    | none =>
      simp only [hm] at h2
      cases h2
      exact world_grows inv (client_step inv.world h1) _
    | some n =>
      simp only [hm] at h2
      obtain ⟨⟨v, o⟩, h5, h6⟩ := Res.bind_eq_ok.1 h2
      cases h6
      have g2 := heapCall_grows g.inv h5
      exact g.trans g2 (fun _ hz => hz.elim) (fun z hz => by subst hz; exact ⟨rfl, .inr (.inl ⟨_, rfl⟩)⟩)

/-- Every history keeps the state in order. -/
theorem runJni_grows {ops : List (Nat × JniOp)} : ∀ {vm vm' : Vm} {as : List JniAnswer}, JniInv vm →
    runJni vm ops = .ok (vm', as) → Grows vm vm' fun x => ∃ y ∈ ops, ByCall y.1 y.2 x := by
  induction ops with
  | nil => intro vm vm' as inv h; cases h; exact grows_refl inv _
  | cons x ops ih =>
    intro vm vm' as inv h
    obtain ⟨t, op⟩ := x
    obtain ⟨⟨v, a⟩, h1, h2⟩ := Res.bind_eq_ok.1 h
    obtain ⟨⟨v', as'⟩, h3, h4⟩ := Res.bind_eq_ok.1 h2
    cases h4
    have g := jni_grows inv h1
    exact g.trans (ih g.inv h3) (fun z hz => ⟨_, List.mem_cons_self .., hz⟩)
      (fun z ⟨y, hy, hz⟩ => ⟨y, List.mem_cons_of_mem _ hy, hz⟩)

theorem _root_.Spec.JniReachable.jniInv {vm : Vm} (h : JniReachable vm) : JniInv vm := by
  obtain ⟨ops, as, h⟩ := h
  exact (runJni_grows jniInv_initial h).inv

/-! ### Translation -/

theorem found_answers (l : List (Str × Nat)) {w : World} (hr : MemReachable w) :
    Build.debug.run w (l.reverse.map fun x => .findClass x.1) =
      .ok (found l w, l.reverse.map fun x => .cls (some x.1)) := by
  induction l with
  | nil => rfl
  | cons x l ih =>
    rw [List.reverse_cons, List.map_append, run_append, ih]
    obtain ⟨h1, _, _⟩ := found_spec l hr
    obtain ⟨r, c, e, hr1, hc, hk⟩ := find_create h1 x.1
    have e1 : found (x :: l) w = { found l w with reg := r } := by rw [found_cons, e]
    have hn := isClass_nameOf hr1 hc
    simp only [List.map_cons, List.map_nil, Build.run, ClientOp.run, Build.resolve, Build.debug, e,
      Res.bind_ok, e1, List.map_append]
    rw [hn]

theorem toJNI?_classes {h h' : Heap} {t : Nat} {s i r : Option Nat} (hx : h.toJNI? t s i = .ok (h', r)) :
    h'.classes = h.classes := by
  cases i with
  | none => cases hx; rfl
  | some i =>
    obtain ⟨h1, hx1, hx2⟩ := Res.bind_eq_ok.1 hx
    cases hx2
    simp only [toJNI] at hx1
    cases ho : h.objs i with
    | none => simp [ho] at hx1
    | some o =>
      simp only [ho] at hx1
      obtain ⟨e, f, fs, _, _, rfl⟩ := pushLocal_ok hx1
      split <;> rfl

theorem toJNI?_objs {h h' : Heap} {t : Nat} {s i r : Option Nat} (hx : h.toJNI? t s i = .ok (h', r)) {j : Nat}
    {o' : Obj} (hj : h'.objs j = some o') : ∃ o, h.objs j = some o ∧ o'.kind = o.kind := by
  cases i with
  | none => cases hx; exact ⟨o', hj, rfl⟩
  | some i =>
    obtain ⟨h1, hx1, hx2⟩ := Res.bind_eq_ok.1 hx
    cases hx2
    simp only [toJNI] at hx1
    cases ho : h.objs i with
    | none => simp [ho] at hx1
    | some o =>
      simp only [ho] at hx1
      obtain ⟨e, f, fs, _, _, rfl⟩ := pushLocal_ok hx1
      split at hj
      · simp only [setEnv, setObj] at hj
        split at hj
        · rename_i hji
          subst hji
          cases hj
          exact ⟨o, ho, rfl⟩
        · exact ⟨o', hj, rfl⟩
      · exact ⟨o', hj, rfl⟩

/-- The call of `GetObjectClass` in `IsInstanceOf`. -/
theorem heapCall_getObjectClass {vm : Vm} (inv : JniInv vm) {t : Nat} {e : Env} (he : vm.heap.envs t = some e)
    {r i : Nat} {o : Obj} (hd : Denotes vm.heap (some r) (some i)) (ho : vm.heap.objs i = some o) :
    ∃ vm', vm.heapCall t (.getObjectClass (some r)) = .ok (vm', .ref o.cls) ∧ AfterGetClass t (some r) vm vm' ∧
      HeapKeeps vm.heap vm'.heap ∧ HeapKeeps vm'.heap vm.heap ∧ JniInv vm' := by
  have hp := inv.heap.inv.toPre
  obtain ⟨h1, hx⟩ := Heap.toJNI?_exists hp (s := vm.heap.typeClass "java/lang/Class".toList) he
    (i := o.cls) (fun j hj => by
      obtain ⟨n, hn⟩ := hp.cls i o j ho hj
      obtain ⟨_, o', ho', _⟩ := hp.classes n j hn
      exact ⟨o', ho'⟩) (fun c hc => hp.typeClass hc)
  have hb : vm.heap.getObjectClass t (some r) = .ok (h1, o.cls) := by
    simp only [Heap.getObjectClass, (Heap.denote_iff hp).2 hd, Res.bind_ok, ho, hx]
  have hrun : (HeapOp.getObjectClass (some r)).run vm.heap t = .ok (h1.collect, .ref o.cls) := by
    rw [HeapOp.run, Heap.exec_of_body he]
    simp only [HeapOp.body, outRef, hb, Res.bind_ok]
  have hcall : vm.heapCall t (.getObjectClass (some r)) =
      .ok (Vm.sync { vm with heap := h1.collect }, .ref o.cls) := by
    simp only [Vm.heapCall, hrun, Res.bind_ok]
  have hw : (Vm.sync { vm with heap := h1.collect }).world = vm.world := by
    rw [sync_eq]
    refine found_known _ fun x hx' => inv.known x ?_
    simpa [toJNI?_classes hx] using hx'
  have hk := (getObjectClass_keeps inv.heap hrun).2
  refine ⟨_, hcall, ⟨hw, _, hrun⟩, hk, ⟨fun j oj hj => ?_, fun j _ hj => ?_⟩, (heapCall_grows inv hcall).inv⟩
  · obtain ⟨o', ho', hk'⟩ := toJNI?_objs hx (Heap.collect_sub hj)
    exact ⟨o', ho', hk'.symm⟩
  · cases e : vm.heap.objs j with
    | none => rfl
    | some o =>
      obtain ⟨o', ho', _⟩ := hk.kinds j o e
      rw [show h1.collect.objs j = none from hj] at ho'
      cases ho'

/-- The class of an object. -/
theorem class_refersTo {vm : Vm} (inv : JniInv vm) {i : Nat} {o : Obj} (ho : vm.heap.objs i = some o) :
    ∃ n, RefersTo vm.heap o.cls n := by
  have hp := inv.heap.inv.toPre
  cases hc : o.cls with
  | none => exact ⟨none, .null⟩
  | some k =>
    obtain ⟨n, hn⟩ := hp.cls i o k ho hc
    obtain ⟨_, o', ho', hk⟩ := hp.classes n k hn
    exact ⟨some n, k, o', .direct ho' (by simp [hk]), ho', hk⟩

theorem isInstanceOf_body {vm : Vm} (inv : JniInv vm) {t : Nat} {e : Env} (he : vm.heap.envs t = some e)
    {d r i : Nat} {o : Obj} {cl : Option Nat} {n1 n2 : Option Str} (hd : Denotes vm.heap (some r) (some i))
    (ho : vm.heap.objs i = some o) (h1 : RefersTo vm.heap o.cls n1) (h2 : RefersTo vm.heap cl n2) :
    SameResult ((JniOp.isInstanceOf d (some r) cl).body vm t)
      ((ClientOp.isAssignableFrom d n1 n2).run .debug vm.world) := by
  obtain ⟨vm', hcall, hafter, hk, _, inv'⟩ := heapCall_getObjectClass inv he hd ho
  have hp := inv.heap.inv.toPre
  have := castClass_name inv' (hk.refersTo hp h1)
  have := castClass_name inv' (hk.refersTo hp h2)
  have hb : (JniOp.isInstanceOf d (some r) cl).body vm t = (JniOp.isAssignableFrom d o.cls cl).body vm' t := by
    simp only [JniOp.body, hcall, Res.bind_ok]
  rw [hb, ← hafter.1]
  obtain ⟨a1, a2⟩ := castClass_name inv' (hk.refersTo hp h1)
  obtain ⟨a3, a4⟩ := castClass_name inv' (hk.refersTo hp h2)
  simp only [JniOp.body, Vm.assignable, a1, a3, Res.bind_ok, ClientOp.run, a2, a4]
  generalize vm'.world.isAssignableFrom d _ _ = y
  cases y with
  | ok y => exact .ok rfl
  | throws => exact .throws
  | ub => exact .ub
  | diverges => exact .diverges

theorem sameResult_ok {x : Res (Vm × JniAnswer)} {y : Res (World × ClientAnswer)} (h : SameResult x y) {vm : Vm}
    {a : JniAnswer} (hx : x = .ok (vm, a)) : ∃ b, y = .ok (vm.world, b) ∧ SameAnswer vm.heap a b := by
  cases h with
  | ok h => cases hx; exact ⟨_, rfl, h⟩
  | _ => cases hx

/-- A call that succeeds was given classes. -/
theorem ok_byName {vm vm' : Vm} (inv : JniInv vm) {t : Nat} {op : JniOp} {a : JniAnswer}
    (h : op.run vm t = .ok (vm', a)) : (∃ x, op = .heap x) ∨ (∃ d o cl, op = .isInstanceOf d o cl) ∨
      ∃ c, ByName vm.heap op c := by
  obtain ⟨hb, _⟩ := run_body h
  cases op with
  | heap op => exact .inl ⟨_, rfl⟩
  | getMethodID d s r an cl n sig =>
    obtain ⟨⟨v, c⟩, h1, _⟩ := Res.bind_eq_ok.1 hb
    obtain ⟨m, hm⟩ := castClass_ok inv h1
    exact .inr (.inr ⟨_, .getMethodID hm⟩)
  | getFieldID d s r cl n ty =>
    obtain ⟨⟨v, c⟩, h1, _⟩ := Res.bind_eq_ok.1 hb
    obtain ⟨m, hm⟩ := castClass_ok inv h1
    exact .inr (.inr ⟨_, .getFieldID hm⟩)
  | registerNatives cl l =>
    obtain ⟨⟨v, c⟩, h1, _⟩ := Res.bind_eq_ok.1 hb
    obtain ⟨m, hm⟩ := castClass_ok inv h1
    exact .inr (.inr ⟨_, .registerNatives hm⟩)
  | unregisterNatives cl =>
    obtain ⟨⟨v, c⟩, h1, _⟩ := Res.bind_eq_ok.1 hb
    obtain ⟨m, hm⟩ := castClass_ok inv h1
    exact .inr (.inr ⟨_, .unregisterNatives hm⟩)
  | isAssignableFrom d c1 c2 =>
    obtain ⟨⟨v, c⟩, h1, h2⟩ := Res.bind_eq_ok.1 hb
    cases castClass_self inv h1
    obtain ⟨⟨v, c'⟩, h3, _⟩ := Res.bind_eq_ok.1 h2
    obtain ⟨m, hm⟩ := castClass_ok inv h1
    obtain ⟨m', hm'⟩ := castClass_ok inv h3
    exact .inr (.inr ⟨_, .isAssignableFrom hm hm'⟩)
  | isInstanceOf d o cl => exact .inr (.inl ⟨_, _, _, rfl⟩)
  | getSuperclass cl =>
    obtain ⟨⟨v, c⟩, h1, h2⟩ := Res.bind_eq_ok.1 hb
    obtain ⟨m, hm⟩ := castClass_ok inv h1
    cases m with
    | some m => exact .inr (.inr ⟨_, .getSuperclass hm⟩)
    | none =>
      rw [(castClass_name inv hm).1] at h1
      cases h1
      cases h2
  | cpp op => exact .inr (.inr ⟨op, .cpp⟩)

/-- An `IsInstanceOf` that succeeds was given null, or an object and a class. -/
theorem ok_instance {vm vm' : Vm} (inv : JniInv vm) {t d : Nat} {obj cl : Option Nat} {a : JniAnswer}
    (h : (JniOp.isInstanceOf d obj cl).run vm t = .ok (vm', a)) :
    (obj = none ∧ vm' = vm ∧ a = .client (.bool false)) ∨
      ∃ r i o n1 n2, obj = some r ∧ Denotes vm.heap (some r) (some i) ∧ vm.heap.objs i = some o ∧
        RefersTo vm.heap o.cls n1 ∧ RefersTo vm.heap cl n2 := by
  obtain ⟨hb, hne⟩ := run_body h
  obtain ⟨e, he⟩ := hne rfl
  cases obj with
  | none => cases hb; exact .inl ⟨rfl, rfl, rfl⟩
  | some r =>
    have hp := inv.heap.inv.toPre
    obtain ⟨⟨v, out⟩, h1, h2⟩ := Res.bind_eq_ok.1 hb
    obtain ⟨h3, _⟩ := heapCall_ok h1
    obtain ⟨h4, hx1, h4e⟩ := Heap.run_ok h3
    obtain ⟨hb1, _⟩ := Heap.exec_ok hx1
    obtain ⟨c, hb2, rfl⟩ := outRef_ok hb1
    obtain ⟨x, hx, hy⟩ := Res.bind_eq_ok.1 hb2
    have hd := (denote_iff hp).1 hx
    cases x with
    | none => cases hy
    | some i =>
      simp only at hy
      cases ho : vm.heap.objs i with
      | none => rw [ho] at hy; cases hy
      | some o =>
        obtain ⟨n1, hn1⟩ := class_refersTo inv ho
        obtain ⟨vm1, hcall, hafter, _, hk, inv1⟩ := heapCall_getObjectClass inv he hd ho
        rw [hcall] at h1
        cases h1
        obtain ⟨⟨v1, c1⟩, h5, h6⟩ := Res.bind_eq_ok.1 h2
        cases castClass_self inv1 h5
        obtain ⟨⟨v2, c2⟩, h7, h8⟩ := Res.bind_eq_ok.1 h6
        obtain ⟨n2, hn2⟩ := castClass_ok inv1 h7
        refine .inr ⟨r, i, o, n1, n2, rfl, hd, ho, hn1, ?_⟩
        exact hk.refersTo inv1.heap.inv.toPre hn2

theorem findClass_run {h : Heap} (hr : HeapReachable h) {t : Nat} {e : Env} (he : h.envs t = some e) (n : Str) :
    ∃ h' k, (HeapOp.findClass n).run h t = .ok (h', .ref (some k)) ∧ h'.classes.lookup n = some k := by
  obtain ⟨s, hl, hlook⟩ := hr.inv.toPre.intern t n
  obtain ⟨h1, hx⟩ := Heap.toJNI?_exists s.pre (s := (h.intern n).1.typeClass "java/lang/Class".toList)
    (show (h.intern n).1.envs t = some e by rw [intern_envs]; exact he)
    (i := some (h.intern n).2) (fun j hj => by cases hj; exact hl) (fun c hc => s.pre.typeClass hc)
  have hx2 := hx
  obtain ⟨h2, hx1, hx3⟩ := Res.bind_eq_ok.1 hx
  cases hx3
  refine ⟨h1.collect, (h.intern n).2, ?_, ?_⟩
  · rw [HeapOp.run, Heap.exec_of_body he]
    simp only [HeapOp.body, outRef, Heap.findClass, hx1, Res.bind_ok]
  · rw [collect_classes, toJNI?_classes hx2]
    exact hlook

theorem wrapper_stays {ops : List (Nat × HeapOp)} : ∀ {h h' : Heap}, HeapReachable h → ∀ {g : Nat} {k : Kind},
    k.isWrapper = true → g ∈ h.globals → (∃ o, h.objs g = some o ∧ o.kind = k) →
    (∀ x ∈ ops, x.2 ≠ .deleteGlobalRef (some g) ∧ x.2 ≠ .deleteWeakGlobalRef (some g)) →
    runHeap h ops = .ok h' → Live h' g := by
  induction ops with
  | nil =>
    intro h h' _ g k _ _ ⟨o, ho, _⟩ _ hx
    cases hx
    exact ⟨o, ho⟩
  | cons x ops ih =>
    intro h h' hr g k hk hg ho hd hx
    obtain ⟨⟨h1, out⟩, h2, h3⟩ := Res.bind_eq_ok.1 hx
    obtain ⟨a, b⟩ := global_kept hr.inv hk h2 hg ho (hd x (List.mem_cons_self ..)).1 (hd x (List.mem_cons_self ..)).2
    exact ih (hr.step h2) hk a b (fun y hy => hd y (List.mem_cons_of_mem _ hy)) h3

/-! ### A sample -/

theorem jniReachable_of {ops : List (Nat × JniOp)} {p : Vm → List JniAnswer → Bool}
    (hx : (runJni Vm.initial ops).holds (fun x => p x.1 x.2) = true) :
    ∃ vm as, runJni Vm.initial ops = .ok (vm, as) ∧ JniReachable vm ∧ p vm as = true := by
  obtain ⟨⟨vm, as⟩, h1, h2⟩ := Res.holds_iff.1 hx
  exact ⟨vm, as, h1, ⟨ops, as, h1⟩, h2⟩

/-- A C++ type "A" with a hooked method and a derived type "B"; "B" (10) has a global (11) and a weak global (12)
reference but no local one; there is an object of "B" (13), and a second thread. -/
def sampleJni : List (Nat × JniOp) :=
  [(0, .cpp (.bindType 0 "A".toList [])), (0, .cpp (.bindType 1 "B".toList [some 0])),
    (0, .cpp (.hookMethod "A".toList false "m".toList "()V".toList 7)), (0, .heap (.findClass "B".toList)),
    (0, .heap (.newGlobalRef (some 10))), (0, .heap (.newWeakGlobalRef (some 10))),
    (0, .heap (.deleteLocalRef (some 10))), (0, .heap (.newObject (some "B".toList))), (1, .heap .attach)]

/-- What there is after `sampleJni`. -/
structure SampleJni (vm : Vm) : Prop where
  reach : JniReachable vm
  envs : ∀ t, t < 2 → ∃ e, vm.heap.envs t = some e
  a : ∃ o, vm.heap.objs 9 = some o ∧ o.kind = .cls "A".toList
  b : ∃ o, vm.heap.objs 10 = some o ∧ o.kind = .cls "B".toList
  global : 11 ∈ vm.heap.globals ∧ ∃ o, vm.heap.objs 11 = some o ∧ o.kind = .global 10
  weak : 12 ∈ vm.heap.globals ∧ ∃ o, vm.heap.objs 12 = some o ∧ o.kind = .weak 10
  obj : ∃ o, vm.heap.objs 13 = some o ∧ o.kind = .plain ∧ o.cls = some 10

theorem sample_jni : ∃ vm as, runJni Vm.initial sampleJni = .ok (vm, as) ∧ SampleJni vm := by
  obtain ⟨vm, as, hx, hr, hp⟩ := jniReachable_of (ops := sampleJni) (p := fun vm _ =>
    (vm.heap.envs 0).isSome && (vm.heap.envs 1).isSome &&
    (vm.heap.objs 9).any (fun (o : Obj) => decide (o.kind = .cls "A".toList)) &&
    (vm.heap.objs 10).any (fun (o : Obj) => decide (o.kind = .cls "B".toList)) &&
    (decide (11 ∈ vm.heap.globals) && (vm.heap.objs 11).any (fun (o : Obj) => decide (o.kind = .global 10))) &&
    (decide (12 ∈ vm.heap.globals) && (vm.heap.objs 12).any (fun (o : Obj) => decide (o.kind = .weak 10))) &&
    (vm.heap.objs 13).any (fun (o : Obj) => decide (o.kind = .plain ∧ o.cls = some 10))) (by decide +kernel)
  simp only [Bool.and_eq_true, Option.any_eq_true, decide_eq_true_eq] at hp
  obtain ⟨⟨⟨⟨⟨⟨h0, h1⟩, h2⟩, h3⟩, h4⟩, h5⟩, h6⟩ := hp
  refine ⟨vm, as, hx, hr, fun t ht => ?_, h2, h3, h4, h5, h6⟩
  match t, ht with
  | 0, _ => exact Option.isSome_iff_exists.1 h0
  | 1, _ => exact Option.isSome_iff_exists.1 h1

theorem SampleJni.refersA {vm : Vm} (S : SampleJni vm) : RefersTo vm.heap (some 9) (some "A".toList) := by
  obtain ⟨o, ho, hk⟩ := S.a
  exact ⟨9, o, .direct ho (by rw [hk]; exact fun _ => ⟨nofun, nofun⟩), ho, hk⟩

theorem SampleJni.refersB {vm : Vm} (S : SampleJni vm) {r : Nat} (hr : r = 10 ∨ r = 11 ∨ r = 12) :
    RefersTo vm.heap (some r) (some "B".toList) := by
  obtain ⟨o, ho, hk⟩ := S.b
  have hd : Denotes vm.heap (some 10) (some 10) := .direct ho (by rw [hk]; exact fun _ => ⟨nofun, nofun⟩)
  rcases hr with rfl | rfl | rfl
  · exact ⟨10, o, hd, ho, hk⟩
  · obtain ⟨_, o1, h1, h2⟩ := S.global
    exact ⟨10, o, .global h1 h2 hd, ho, hk⟩
  · obtain ⟨_, o1, h1, h2⟩ := S.weak
    exact ⟨10, o, .weak h1 h2 hd, ho, hk⟩

end Jnivm
