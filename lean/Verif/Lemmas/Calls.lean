import Verif.Lemmas.Hooks
import Verif.Lemmas.RefTypes
import Verif.Spec.Calls
/-!
Lemmas about calls: the class of a receiver, the method behind an id, uniqueness of implementations.
-/
namespace Jnivm
open Spec

/-! ### A creating lookup of an existing class -/

theorem nsLoop_existing {r : Registry} {x : Nat × Str × Str} (rest : Str) : ∀ (cur : Nat) (done : Str),
    (nsLoop true r cur done rest).2 = some x → nsLoop false r cur done rest = (r, some x) := by
  induction rest using (measure List.length).wf.induction with
  | _ rest ih =>
    intro cur done h
    unfold nsLoop at h ⊢
    split at h
    · cases h; rfl
    · rename_i rest' hc
      cases hk : r.nsChild cur (cutAt '/' rest).1 with
      | none => simp [hk] at h
      | some k =>
        simp only [hk] at h
        exact ih rest' (cutAt_length hc) k _ h

theorem clsLoop_existing {r : Registry} {x : Nat} (rest : Str) : ∀ (cur : Nat) (done : Str),
    (clsLoop true r cur done rest).2 = some x → clsLoop false r cur done rest = (r, some x) := by
  induction rest using (measure List.length).wf.induction with
  | _ rest ih =>
    intro cur done h
    unfold clsLoop at h ⊢
    cases hk : r.clsClass cur (cutAt '$' rest).1 with
    | none => simp [hk] at h
    | some k =>
      simp only [hk] at h ⊢
      split at h
      · cases h; rfl
      · rename_i rest' hc
        exact ih rest' (cutAt_length hc) k _ h

theorem firstClass_existing {r : Registry} {x : Nat} {rest : Str} {cur : Nat} {done : Str}
    (h : (firstClass true r cur done rest).2 = some x) : firstClass false r cur done rest = (r, some x) := by
  unfold firstClass at h ⊢
  cases hk : r.nsClass cur (cutAt '$' rest).1 with
  | none => simp [hk] at h
  | some k =>
    simp only [hk] at h ⊢
    cases hc : (cutAt '$' rest).2 with
    | none => simp only [hc] at h ⊢; cases h; rfl
    | some rest' => simp only [hc] at h ⊢; exact clsLoop_existing rest' k _ h

/-- A creating lookup of a class that exists finds it and changes nothing. -/
theorem findClass_existing {r : Registry} {n : Str} {c : Nat} (h : (findClass true r n).2 = some c) :
    findClass false r n = (r, some c) := by
  unfold findClass at h ⊢
  by_cases hn : n.head? = some '['
  · rw [if_neg (by simpa using hn)] at h ⊢
    cases hl : r.byName.lookup n with
    | none => simp [hl] at h
    | some d => simp only [hl] at h ⊢; cases h; rfl
  · rw [if_pos hn] at h ⊢
    cases hx : nsLoop true r 0 [] n with
    | mk r' y =>
      cases y with
      | none => simp [hx] at h
      | some y =>
        obtain ⟨cur, done, rest⟩ := y
        have hr := nsLoop_existing (r := r) n 0 [] (by rw [hx])
        rw [hr]
        simp only [hx] at h ⊢
        have : r' = r := by
          have h2 : ∀ (rest : Str) (cur : Nat) (done : Str), (nsLoop true r cur done rest).1 = r := by
            intro rest
            induction rest using (measure List.length).wf.induction with
            | _ rest ih =>
              intro cur done
              unfold nsLoop
              split
              · rfl
              · rename_i rest' hc
                split
                · exact ih rest' (cutAt_length hc) _ _
                · rfl
          have h3 := h2 n 0 []
          rw [hx] at h3; exact h3
        subst this
        exact firstClass_existing h

/-! ### A class has at most one implementation of a method -/

/-- Only the first method of its name and signature can be hooked. -/
def HookedFirst (w : World) : Prop :=
  ∀ c m, m ∈ (w.mem c).methods → m.handle.isSome →
    (w.mem c).methods.find? (hookHits m.static m.name m.signature) = some m

theorem find_updateFirst_other {α : Type} {p q : α → Bool} {f : α → α} {l : List α}
    (h1 : ∀ a, p a = true → q a = false) (h2 : ∀ a, p a = true → q (f a) = false) :
    (updateFirst p f l).find? q = l.find? q := by
  induction l with
  | nil => rfl
  | cons a l ih =>
    cases hp : p a with
    | true =>
      simp only [updateFirst, hp, if_true]
      rw [List.find?_cons_of_neg (by simp [h2 a hp]), List.find?_cons_of_neg (by simp [h1 a hp])]
    | false =>
      simp only [updateFirst, hp, Bool.false_eq_true, if_false, List.find?_cons]
      rw [ih]

theorem find_filter_first {α : Type} {p q : α → Bool} {l : List α} {x : α} (h : l.find? p = some x)
    (hq : q x = true) : (l.filter q).find? p = some x := by
  induction l with
  | nil => cases h
  | cons a l ih =>
    cases hp : p a with
    | true =>
      rw [List.find?_cons_of_pos hp] at h
      cases h
      rw [List.filter_cons_of_pos hq, List.find?_cons_of_pos hp]
    | false =>
      rw [List.find?_cons_of_neg (by simp [hp])] at h
      cases hqa : q a with
      | true => rw [List.filter_cons_of_pos hqa, List.find?_cons_of_neg (by simp [hp]), ih h]
      | false => rw [List.filter_cons_of_neg (by simp [hqa]), ih h]

/-- Appending a method that is not hooked. -/
theorem HookedFirst.append {w w' : World} (hw : HookedFirst w) {c : Nat} {m0 : MethodRec}
    (h0 : m0.handle = none ∨ (w.mem c).methods.find? (hookHits m0.static m0.name m0.signature) = none)
    (h1 : (w'.mem c).methods = (w.mem c).methods ++ [m0])
    (h2 : ∀ d, d ≠ c → (w'.mem d).methods = (w.mem d).methods) : HookedFirst w' := by
  intro d m hm hs
  by_cases hd : d = c
  · subst hd
    rw [h1] at hm ⊢
    rw [List.find?_append]
    rcases List.mem_append.1 hm with hm | hm
    · rw [hw d m hm hs]; rfl
    · simp only [List.mem_singleton] at hm
      subst hm
      rcases h0 with h0 | h0
      · rw [h0] at hs; cases hs
      · rw [h0]; simp [hookHits]
  · rw [h2 d hd] at hm ⊢; exact hw d m hm hs

theorem HookedFirst.same {w w' : World} (hw : HookedFirst w)
    (h : ∀ d, (w'.mem d).methods = (w.mem d).methods) : HookedFirst w' := by
  intro d m hm hs
  rw [h d] at hm ⊢; exact hw d m hm hs

theorem HookedFirst.step {w w' : World} {op : MemOp} (hw : HookedFirst w) (inv : MemInv w)
    (hrun : op.run w = .ok w') : HookedFirst w' := by
  have inv' := step_memInv inv hrun
  cases op with
  | findClass z n => simp [MemOp.run] at hrun; subst hrun; exact hw.same fun _ => rfl
  | getMethodID depth st rn nat cl n s =>
    simp only [MemOp.run] at hrun
    obtain ⟨⟨w1, r⟩, h1, h2⟩ := Res.bind_eq_ok.1 hrun
    cases h2
    rcases getMethodID_ok h1 with ⟨_, _, e, _⟩ | ⟨_, _, _, reg, _, e⟩ | ⟨d, cd, _, _, h3⟩
    · subst e; exact hw
    · subst e; exact hw.same fun _ => rfl
    rcases methodOf_ok h3 with ⟨e, _⟩ | ⟨_, _, _, reg, _, e⟩
    · subst e; exact hw
    · subst e
      exact hw.append (c := d) (.inl rfl) (by simp [World.addMethod]; rfl) fun c hc => by simp [World.addMethod, hc]
  | getFieldID depth st rn cl n s =>
    simp only [MemOp.run] at hrun
    obtain ⟨⟨w1, r⟩, h1, h2⟩ := Res.bind_eq_ok.1 hrun
    cases h2
    obtain ⟨d, cd, _, _, ⟨e, _⟩ | ⟨_, _, _, reg, _, e⟩⟩ := getFieldID_ok h1
    · subst e; exact hw
    · subst e
      refine hw.same fun c => ?_
      by_cases hc : c = d
      · subst hc; simp [World.addField]
      · simp [World.addField, hc]
  | hookMethod d st n s fn =>
    simp [MemOp.run] at hrun; subst hrun
    cases hf : (w.mem d).methods.find? (hookHits st n s) with
    | none =>
      rw [hookMethod_new hf]
      exact hw.append (c := d) (m0 := ⟨w.next, n, s, st, none, some fn⟩) (.inr hf) (by simp) fun c hc => by simp [hc]
    | some x =>
      rw [hookMethod_found hf]
      obtain ⟨rfl, rfl, rfl⟩ := hookHits_iff.1 (List.find?_some hf)
      intro c m hm hs
      by_cases hc : c = d
      · subst hc
        simp only [setMem_mem, if_true] at hm ⊢
        rcases mem_updateFirst hf hm with e | e
        · subst e
          exact find_updateFirst (f := fun m => { m with handle := some fn }) (fun a ha => ha) hf (by simp [hookHits])
        · have hfm := hw c m e hs
          by_cases hk : m.static = x.static ∧ m.name = x.name ∧ m.signature = x.signature
          · obtain ⟨k1, k2, k3⟩ := hk
            rw [k1, k2, k3, hf] at hfm
            cases hfm
            have hfind := find_updateFirst (f := fun m => { m with handle := some fn }) (fun a ha => ha) hf
              (by simp [hookHits])
            rw [hfind]
            rw [hookMethod_found hf] at inv'
            refine congrArg some (method_unique inv' (c := c) (d := c) (m := { x with handle := some fn }) (m' := x)
              ?_ ?_ rfl).2
            · simp only [setMem_mem, if_true]; exact List.mem_of_find?_eq_some hfind
            · simp only [setMem_mem, if_true]; exact hm
          · rw [find_updateFirst_other, hfm]
            · intro a ha
              obtain ⟨k1, k2, k3⟩ := hookHits_iff.1 ha
              rw [Bool.eq_false_iff]
              intro hb
              obtain ⟨j1, j2, j3⟩ := hookHits_iff.1 hb
              exact hk ⟨j1.symm.trans k1, j2.symm.trans k2, j3.symm.trans k3⟩
            · intro a ha
              obtain ⟨k1, k2, k3⟩ := hookHits_iff.1 ha
              rw [Bool.eq_false_iff]
              intro hb
              obtain ⟨j1, j2, j3⟩ := hookHits_iff.1 hb
              exact hk ⟨j1.symm.trans k1, j2.symm.trans k2, j3.symm.trans k3⟩
      · simp only [setMem_mem, if_neg hc] at hm ⊢
        exact hw c m hm hs
  | hookField d g st n t fn =>
    simp [MemOp.run] at hrun; subst hrun
    refine hw.same fun c => ?_
    cases hf : (w.mem d).fields.find? (FieldKey.hits ⟨st, n, t⟩) with
    | none =>
      rw [hookField_new hf]
      by_cases hc : c = d
      · subst hc; simp
      · simp [hc]
    | some x =>
      rw [hookField_found hf]
      by_cases hc : c = d
      · subst hc; simp
      · simp [hc]
  | registerNatives cl l =>
    simp [MemOp.run] at hrun; subst hrun
    cases cl with
    | none => exact hw
    | some d =>
      clear inv' inv
      simp only [World.registerNatives]
      induction l generalizing w with
      | nil => exact hw
      | cons n l ih =>
        simp only [List.foldl_cons]
        refine ih (hw.append (c := d) (m0 := ⟨w.next, n.name, n.signature, false, n.fnPtr, none⟩) (.inl rfl) ?_ ?_)
        · simp [World.registerOne]
        · intro c hc; simp [World.registerOne, hc]
  | unregisterNatives cl =>
    simp [MemOp.run] at hrun; subst hrun
    cases cl with
    | none => exact hw
    | some d =>
      intro c m hm hs
      unfold World.unregisterNatives at hm ⊢
      by_cases hc : c = d
      · subst hc
        simp only [setMem_mem, if_true] at hm ⊢
        obtain ⟨h1, h2⟩ := List.mem_filter.1 hm
        exact find_filter_first (hw c m h1 hs) h2
      · simp only [setMem_mem, if_neg hc] at hm ⊢
        exact hw c m hm hs
  | bindType t n bs =>
    simp [MemOp.run] at hrun; subst hrun
    refine hw.same fun c => ?_
    unfold World.bindType
    split
    · rename_i reg d h
      by_cases hc : c = d
      · subst hc; simp
      · simp [hc]
    · rfl

theorem HookedFirst.run {ops : List MemOp} : ∀ {w w' : World}, HookedFirst w → MemInv w →
    runMem w ops = .ok w' → HookedFirst w' := by
  induction ops with
  | nil => intro w w' hw _ h; cases h; exact hw
  | cons op ops ih =>
    intro w w' hw inv h
    obtain ⟨w1, h1, h2⟩ := Res.bind_eq_ok.1 h
    exact ih (hw.step inv h1) (step_memInv inv h1) h2

theorem MemReachable.hookedFirst {w : World} (h : MemReachable w) : HookedFirst w := by
  obtain ⟨ops, h⟩ := h
  refine HookedFirst.run ?_ initial_memInv h
  intro c m hm
  simp [World.initial, Members.empty] at hm

/-- A class has at most one implementation of a method. -/
theorem implements_unique {w : World} (hr : MemReachable w) {c : Nat} {name sig : Str} {f g : Nat}
    (hf : Implements w c name sig f) (hg : Implements w c name sig g) : f = g := by
  obtain ⟨m, hm, j1, j2, j3, hh⟩ := hf
  obtain ⟨m', hm', k1, k2, k3, hh'⟩ := hg
  have e := hr.hookedFirst c m hm (by simp [hh])
  have e' := hr.hookedFirst c m' hm' (by simp [hh'])
  rw [j1, j2, j3] at e
  rw [k1, k2, k3, e] at e'
  cases e'
  rw [hh] at hh'
  cases hh'; rfl

/-! ### Methods and fields behind ids -/

theorem isClass_lt {w : World} (inv : MemInv w) {n : Str} {c : Nat} (h : w.IsClass n c) :
    c < w.reg.cls.length := by
  obtain ⟨cd, h1, _⟩ := isClass_record inv h
  exact (List.getElem?_eq_some_iff.1 h1).1

theorem method?_names {w : World} (hr : MemReachable w) {id : Nat} {m : MethodRec} (h : Names w id m) :
    w.method? id = some m := by
  obtain ⟨n, c, hc, hm, rfl⟩ := h
  have hlt := isClass_lt hr.inv hc
  unfold World.method?
  rw [List.find?_append]
  cases hf : ((List.range w.reg.cls.length).flatMap fun c => (w.mem c).methods).find? (·.id == m.id) with
  | none =>
    have := List.find?_eq_none.1 hf m (List.mem_flatMap.2 ⟨c, List.mem_range.2 hlt, hm⟩)
    simp at this
  | some m' =>
    obtain ⟨d, _, hd⟩ := List.mem_flatMap.1 (List.mem_of_find?_eq_some hf)
    have hid := List.find?_some hf
    simp only [beq_iff_eq] at hid
    rw [(method_unique hr.inv hm hd hid.symm).2]
    rfl

/-! ### The class of the receiver -/

theorem classOf_ref {vm : Vm} {k c : Nat} {o : Obj} {n : Str} (ho : vm.heap.objs k = some o)
    (hk : o.kind = .cls n) (hc : vm.world.IsClass n c) : vm.classOf (some k) = .ok (vm, some c) := by
  simp only [Vm.classOf, ho, hk, findClass_existing hc]

theorem castClass_ref {vm : Vm} (hr : VmReachable vm) {cl : Option Nat} {c : Nat} (h : IsClassRef vm cl c) :
    vm.castClass cl = .ok (vm, some c) := by
  obtain ⟨k, o, n, hd, ho, hk, hc⟩ := h
  have hd := (Heap.denote_iff hr.2.inv.toPre).2 hd
  simp only [Vm.castClass, Heap.cast, hd, Res.bind_ok, ho, hk, if_true]
  exact classOf_ref ho hk hc

theorem castClass_null (vm : Vm) : vm.castClass none = .ok (vm, none) := rfl

/-- `GetObjectClass` leaves the class objects alone. -/
theorem getObjectClass_run {h : Heap} (hr : HeapReachable h) {t : Nat} {e : Env} (he : h.envs t = some e)
    {r : Option Nat} {i k : Nat} {o ok : Obj} {n : Str} (hd : Denotes h r (some i)) (ho : h.objs i = some o)
    (hc : o.cls = some k) (hok : h.objs k = some ok) (hk : ok.kind = .cls n) :
    ∃ h' ok', (HeapOp.getObjectClass r).run h t = .ok (h', .ref (some k)) ∧ h'.objs k = some ok' ∧
      ok'.kind = .cls n := by
  have hp := hr.inv.toPre
  have hlive : h.Live k := ⟨ok, hok⟩
  obtain ⟨h1, hx⟩ := Heap.toJNI?_exists hp (s := h.typeClass "java/lang/Class".toList) he
    (i := some k) (fun j hj => by cases hj; exact hlive) (fun c hc => hp.typeClass hc)
  have hb : h.getObjectClass t r = .ok (h1, some k) := by
    cases r with
    | none => cases hd
    | some r =>
      simp only [Heap.getObjectClass, (Heap.denote_iff hp).2 hd, Res.bind_ok, ho, hc, hx]
  have hrun : (HeapOp.getObjectClass r).run h t = .ok (h1.collect, .ref (some k)) := by
    rw [HeapOp.run, Heap.exec_of_body he]
    simp only [HeapOp.body, outRef, hb, Res.bind_ok]
  obtain ⟨n', hn'⟩ := hp.cls i o k ho hc
  have hpin := (hp.classes n' k hn').1
  have s := Heap.step_exec hp (by rw [Heap.exec_of_body he]; simp only [HeapOp.body, outRef, hb, Res.bind_ok] :
    (HeapOp.getObjectClass r).exec h t = .ok (h1, .ref (some k)))
  obtain ⟨o1, ho1, hs, _⟩ := s.live k ok hok
  refine ⟨h1.collect, o1, hrun, ?_, ?_⟩
  · exact Heap.collect_keep s.pre.bound (.root (Heap.mem_roots.2 (.inr (.inl (s.pinned.subset hpin))))) ho1
  · rw [hk] at hs
    cases h3 : o1.kind <;> simp_all [Kind.Same]

theorem objectClass_ref {vm : Vm} (hr : VmReachable vm) {t : Nat} {e : Env}
    (he : vm.heap.envs t = some e) {obj : Option Nat} {c : Nat} (hc : ClassIs vm obj c) :
    ∃ vm1, AfterGetClass t obj vm vm1 ∧ vm.objectClass t obj = .ok (vm1, some c) := by
  obtain ⟨i, o, k, hd, ho, hk, k', ok, n, hd2, hok, hkind, hcls⟩ := hc
  have : k' = k := by
    have hcl := hr.2.inv.toPre.cls i o k ho hk
    obtain ⟨n', hn'⟩ := hcl
    obtain ⟨_, ok2, hok2, hk2⟩ := hr.2.inv.toPre.classes n' k hn'
    have hdk : Denotes vm.heap (some k) (some k) := .direct hok2 (by simp [hk2])
    have := Heap.denotes_fun hd2 hdk
    cases this; rfl
  subst this
  obtain ⟨h1, ok1, hrun, hok1, hk1⟩ := getObjectClass_run hr.2 he hd ho hk hok hkind
  refine ⟨{ vm with heap := h1 }, ⟨rfl, _, hrun⟩, ?_⟩
  simp only [Vm.objectClass, hrun, Res.bind_ok]
  exact classOf_ref (vm := { vm with heap := h1 }) hok1 hk1 hcls

/-- An object without a class. -/
theorem objectClass_none {vm : Vm} (hr : VmReachable vm) {t : Nat} {e : Env}
    (he : vm.heap.envs t = some e) {obj : Option Nat} {i : Nat} {o : Obj}
    (hd : Denotes vm.heap obj (some i)) (ho : vm.heap.objs i = some o) (hc : o.cls = none) :
    AfterGetClass t obj vm vm ∧ vm.objectClass t obj = .ok (vm, none) := by
  have hp := hr.2.inv.toPre
  have hb : vm.heap.getObjectClass t obj = .ok (vm.heap, none) := by
    cases obj with
    | none => cases hd
    | some r =>
      simp only [Heap.getObjectClass, (Heap.denote_iff hp).2 hd, Res.bind_ok, ho, hc, Heap.toJNI?]
  have hrun : (HeapOp.getObjectClass obj).run vm.heap t = .ok (vm.heap, .ref none) := by
    rw [HeapOp.run, Heap.exec_of_body he]
    simp only [HeapOp.body, outRef, hb, Res.bind_ok, Heap.collect_of_allHeld hr.2.inv.held]
  refine ⟨⟨rfl, _, hrun⟩, ?_⟩
  simp only [Vm.objectClass, hrun, Res.bind_ok, Vm.classOf]

theorem AfterGetClass.reachable {t : Nat} {obj : Option Nat} {vm vm1 : Vm} (h : AfterGetClass t obj vm vm1)
    (hr : VmReachable vm) : VmReachable vm1 := by
  obtain ⟨hw, r, hx⟩ := h
  exact ⟨hw ▸ hr.1, hr.2.step hx⟩

/-! ### Overloads -/

theorem nonVirtual_own {w : World} (hr : MemReachable w) {c : Nat} {mid : MethodRec} {g : Nat}
    (hg : Implements w c mid.name mid.signature g) :
    ∃ m, findNonVirtualOverload w (some c) mid = some m ∧ m.handle = some g := by
  have hg0 := hg
  obtain ⟨m, hm, j1, j2, j3, hh⟩ := hg
  cases hf : findNonVirtualOverload w (some c) mid with
  | none =>
    have := List.find?_eq_none.1 hf m hm
    simp [j1, j2, j3, hh] at this
  | some m' =>
    refine ⟨m', rfl, ?_⟩
    have hm' := List.mem_of_find?_eq_some hf
    have hp := List.find?_some hf
    simp only [Bool.and_eq_true, Bool.not_eq_true', beq_iff_eq] at hp
    obtain ⟨⟨⟨k1, k2⟩, k3⟩, k4⟩ := hp
    obtain ⟨g', hg'⟩ := Option.isSome_iff_exists.1 k4
    rw [hg', implements_unique hr ⟨m', hm', k1, k2.symm, k3.symm, hg'⟩ hg0]

theorem nonVirtual_none {w : World} {c : Nat} {mid : MethodRec}
    (hg : ∀ g, ¬ Implements w c mid.name mid.signature g) : findNonVirtualOverload w (some c) mid = none := by
  refine List.find?_eq_none.2 fun m hm hp => ?_
  simp only [Bool.and_eq_true, Bool.not_eq_true', beq_iff_eq] at hp
  obtain ⟨⟨⟨k1, k2⟩, k3⟩, k4⟩ := hp
  obtain ⟨g, hg'⟩ := Option.isSome_iff_exists.1 k4
  exact hg g ⟨m, hm, k1, k2.symm, k3.symm, hg'⟩

theorem virtual_own {w : World} (hr : MemReachable w) {c : Nat} {mid : MethodRec} {g : Nat}
    (hg : Implements w c mid.name mid.signature g) :
    (findVirtualOverload w (some c) mid).handle = some g := by
  obtain ⟨m, h1, h2⟩ := nonVirtual_own hr hg
  simp only [findVirtualOverload, h1, h2]

theorem virtual_none {w : World} {c : Nat} {mid : MethodRec}
    (hg : ∀ g, ¬ Implements w c mid.name mid.signature g) : findVirtualOverload w (some c) mid = mid := by
  simp only [findVirtualOverload, nonVirtual_none hg]
  rfl

theorem virtual_null (w : World) (mid : MethodRec) : findVirtualOverload w none mid = mid := rfl

theorem virtual_handle {w : World} {cl : Option Nat} {mid : MethodRec} (h : mid.handle.isSome) :
    (findVirtualOverload w cl mid).handle.isSome := by
  unfold findVirtualOverload
  cases hf : findNonVirtualOverload w cl mid with
  | none => exact h
  | some m =>
    cases cl with
    | none => cases hf; exact h
    | some c =>
      have hp := List.find?_some hf
      simp only [Bool.and_eq_true] at hp
      exact hp.2

/-! ### The catch block -/

theorem raise_run {h : Heap} (hr : HeapReachable h) {t : Nat} {env : Env} (he : h.envs t = some env) (e : Exn) :
    ∃ h' o, (HeapOp.raise e).run h t = .ok (h', .unit) ∧
      h'.envs t = some { env with pending := some h.next } ∧ h'.objs h.next = some o ∧ o.kind = .throwable (some e) ∧
      ∀ u, u ≠ t → h'.envs u = h.envs u := by
  have hx : (HeapOp.raise e).exec h t = .ok (((h.alloc ⟨.throwable (some e), none⟩).1).setEnv t
      { env with pending := some h.next }, .unit) := by
    rw [Heap.exec_of_body he]
    simp only [HeapOp.body, outUnit, Heap.raise]
    simp [Heap.env, Heap.alloc, Heap.setObj, he, Res.bind]
  have s := Heap.step_exec hr.inv.toPre hx
  have hroot : h.next ∈ (((h.alloc ⟨.throwable (some e), none⟩).1).setEnv t
      { env with pending := some h.next }).roots :=
    Heap.mem_roots.2 (.inr (.inr ⟨t, _, s.pre.thread t { env with pending := some h.next } (by simp),
      Heap.setEnv_self _ _ _, by simp⟩))
  refine ⟨_, _, by rw [HeapOp.run, hx]; rfl, by simp, Heap.collect_keep s.pre.bound (.root hroot)
    (o := ⟨.throwable (some e), none⟩) (by simp), rfl, ?_⟩
  intro u hu
  simp [hu]

theorem catchAll_handled {t : Nat} {o : Outcome Vm (BitVec 64)} (ho : EndsIn VmReachable o) :
    Handled t o (Vm.catchAll t o) := by
  cases o with
  | returns vm v => exact .returns
  | ub u => exact .ub
  | aborts => exact .aborts
  | diverges => exact .diverges
  | raises vm e =>
    cases he : vm.heap.envs t with
    | none =>
      have : (HeapOp.raise e).run vm.heap t = .ub .dangling := by
        simp [HeapOp.run, HeapOp.exec, HeapOp.needsEnv, he, Res.bind]
      simp only [Vm.catchAll, this, Outcome.lift]
      exact .detached he
    | some env =>
      obtain ⟨h', o, hx, h1, h2, h3, h4⟩ := raise_run ho.2 he e
      simp only [Vm.catchAll, hx, Outcome.lift]
      exact .raises rfl he h1 (Nat.le_refl _) h2 h3 h4

theorem catchAll_noEscape (t : Nat) (o : Outcome Vm (BitVec 64)) : NoEscape (Vm.catchAll t o) := by
  cases o with
  | raises vm e =>
    simp only [Vm.catchAll]
    have : ∀ p, (HeapOp.raise e).run vm.heap t ≠ .throws p := by
      intro p
      simp only [HeapOp.run, HeapOp.exec]
      cases he : vm.heap.envs t with
      | none => simp [HeapOp.needsEnv, Res.bind]
      | some env =>
        simp [HeapOp.needsEnv, HeapOp.body, outUnit, Heap.raise, Heap.env, Heap.alloc, Heap.setObj, he, Res.bind]
    cases hx : (HeapOp.raise e).run vm.heap t with
    | ok a => trivial
    | throws p => exact absurd hx (this p)
    | ub u => trivial
    | diverges => trivial
  | _ => trivial

theorem invoke_run {code : Nat → Hook} {t : Nat} {ty : JType} {a : Access} {self : Self}
    {args : List (BitVec 64)} {vm : Vm} {m : MethodRec} {f : Nat} (hf : m.handle = some f) :
    Vm.invoke code t ty a self args vm (some m) = Vm.catchAll t ((code f).invoke a ty vm self args) := by
  simp only [Vm.invoke, hf]

theorem hook_endsIn {code : Nat → Hook} (hb : WellBehaved code) {vm : Vm} (hr : VmReachable vm) (f : Nat)
    (a : Access) (ty : JType) (self : Self) (args : List (BitVec 64)) :
    EndsIn VmReachable ((code f).invoke a ty vm self args) := by
  have := hb f vm self args hr
  unfold Hook.invoke
  split
  · split <;> first | exact this | exact hr
  · exact hr

end Jnivm
