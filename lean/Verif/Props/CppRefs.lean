import Verif.Lemmas.CppRefs
/-!
C69: C++ code that uses fake-jni can turn references into objects and objects into references, and its variables
keep their objects alive.
-/
namespace Jnivm
open Spec
open Heap hiding Live

/-- Steps keep reachable states. -/
theorem _root_.Spec.PtrsReachable.steps {s s' : CppState} (hr : PtrsReachable s) {ops : List (Nat × CppOp)}
    (hh : AlongCpp (fun s _ op => Honest s op) s ops) (hx : runCpp s ops = .ok s') : PtrsReachable s' := by
  induction ops generalizing s with
  | nil => injection hx with hx; exact hx ▸ hr
  | cons a ops ih =>
    obtain ⟨⟨s1, out⟩, hx1, hx2⟩ := Res.bind_eq_ok.1 hx
    exact ih (hr.step hh.1 hx1) (hh.2 s1 out hx1) hx2

/-! ## Variables -/

/-- Whatever is called, by whatever thread: a variable that is not assigned to holds its object, and the object
is alive. -/
theorem cpp_var_keeps {s s' : CppState} (hr : PtrsReachable s) {x : Nat} {o : Option Nat} (hx : CppHolds s x o)
    {ops : List (Nat × CppOp)} (ha : AlongCpp (fun s _ op => Honest s op ∧ ¬ AssignsTo x op) s ops)
    (hrun : runCpp s ops = .ok s') : CppHolds s' x o ∧ ∀ i, o = some i → Live s'.heap i := by
  induction ops generalizing s with
  | nil =>
    injection hrun with hrun; subst hrun
    refine ⟨hx, fun i hi => ?_⟩
    subst hi
    obtain ⟨ob, hob, _⟩ := denotes_ok hr.inv.heap.inv.toPre hx
    exact ⟨ob, hob⟩
  | cons a ops ih =>
    obtain ⟨⟨s1, out⟩, hx1, hx2⟩ := Res.bind_eq_ok.1 hrun
    exact ih (hr.step ha.1.1 hx1) ((hr.inv.step ha.1.1 hx1).2 x o ha.1.2 hx) (ha.2 s1 out hx1) hx2

/-- A new object is put into variable 0; then its local reference is deleted and the thread detaches. -/
def sampleCpp : List (Nat × CppOp) :=
  [(0, .jni (.newObject none)), (0, .resolve 0 (some 9)), (0, .assign 1 0)]

def sampleCppRest : List (Nat × CppOp) :=
  [(0, .jni (.deleteLocalRef (some 9))), (0, .reset 1), (1, .jni .attach), (0, .jni .detach)]

theorem sampleCpp_reachable {s : CppState} (hx : runCpp CppState.initial sampleCpp = .ok s) : PtrsReachable s :=
  PtrsReachable.steps (ops := sampleCpp) .start
    ⟨trivial, fun _ _ _ => ⟨trivial, fun _ _ _ => ⟨trivial, fun _ _ _ => trivial⟩⟩⟩ hx

theorem _root_.Jnivm.Heap.denotes_of {h : Heap} (hr : HeapReachable h) {r x : Option Nat}
    (hb : ((h.denote r).holds fun y => y == x) = true) : Denotes h r x := by
  simp only [Res.holds_iff, beq_iff_eq] at hb
  obtain ⟨y, hy, rfl⟩ := hb
  exact (denote_iff hr.inv.toPre).1 hy

example : ∃ s s', PtrsReachable s ∧ CppHolds s 0 (some 9) ∧
    AlongCpp (fun s _ op => Honest s op ∧ ¬ AssignsTo 0 op) s sampleCppRest ∧
    runCpp s sampleCppRest = .ok s' ∧ s'.heap.envs 0 = none := by
  have hp : ((runCpp CppState.initial sampleCpp).holds fun s =>
      ((s.heap.denote (s.vars 0)).holds fun y => y == some 9) &&
      (runCpp s sampleCppRest).holds fun s' => (s'.heap.envs 0).isNone) = true := by decide +kernel
  rw [Res.holds_iff] at hp
  obtain ⟨s, hs, hp⟩ := hp
  simp only [Bool.and_eq_true] at hp
  rw [Res.holds_iff (p := fun s' : CppState => (s'.heap.envs 0).isNone)] at hp
  obtain ⟨hd, s', hs', he⟩ := hp
  have hr := sampleCpp_reachable hs
  refine ⟨s, s', hr, Heap.denotes_of hr.inv.heap hd, ?_, hs', Option.isNone_iff_eq_none.1 he⟩
  refine ⟨⟨trivial, id⟩, fun _ _ _ => ⟨⟨trivial, ?_⟩, fun _ _ _ => ⟨⟨trivial, id⟩, fun _ _ _ =>
    ⟨⟨trivial, id⟩, fun _ _ _ => trivial⟩⟩⟩⟩
  exact fun h => absurd h (by decide : ¬ (1 = 0))

/-- An assignment gives the variable what it says. -/
theorem store_correct {s : CppState} (hr : PtrsReachable s) {t : Nat} {e : Env} (he : s.heap.envs t = some e)
    (x : Nat) {r o : Option Nat} (hd : Denotes s.heap r o) :
    ∃ s', s.store t x r = .ok s' ∧ CppHolds s' x o := by
  have hi := hr.inv
  obtain ⟨h1, g, hx1⟩ := newGlobal_ok hi.heap he (denotes_valid hd)
  obtain ⟨hi1, _⟩ := hi.call hx1 (fun _ _ _ h => (nomatch h))
  obtain ⟨e1, he1, _⟩ := Heap.effect_run hi.heap.inv.toPre he hx1 (by simp)
  obtain ⟨h2, hx2⟩ : ∃ h2, (HeapOp.deleteGlobalRef (s.vars x)).run h1 t = .ok (h2, .unit) := by
    rw [HeapOp.run, exec_of_body he1, HeapOp.body, Heap.deleteGlobalRef]
    cases hv : s.vars x with
    | none => exact ⟨_, rfl⟩
    | some k =>
      obtain ⟨_, i, ob, hob, hk⟩ := hi1.own x k hv
      simp only [Heap.castWrapper]
      rw [show h1.objs k = some ob from hob]
      simp only [hk, if_true, Res.bind_ok, outUnit]
      exact ⟨_, rfl⟩
  have hs : s.store t x r = .ok ⟨h2, fun y => if y = x then g else s.vars y⟩ := by
    rw [CppState.store]
    simp only [hx1, Res.bind_ok, hx2]
  obtain ⟨_, ⟨o', hd', hh⟩, _⟩ := hi.store hs
  rw [denotes_fun hd hd']
  exact ⟨_, hs, hh⟩

/-- `resolveReference` gives the object that the reference denotes: null for null and for a weak reference to an
object that is gone, and never fails for a reference that has not been deleted. -/
theorem resolve_correct {s : CppState} (hr : PtrsReachable s) {t : Nat} {e : Env} (he : s.heap.envs t = some e)
    (x : Nat) {r : Option Nat} (hv : Valid s.heap r) :
    ∃ s' o, (CppOp.resolve x r).run s t = .ok (s', .unit) ∧ Denotes s.heap r o ∧ CppHolds s' x o := by
  obtain ⟨o, _, hd⟩ := denote_total hr.inv.heap.inv.toPre hv
  obtain ⟨s', hs, hh⟩ := store_correct hr he x hd
  exact ⟨s', o, by rw [CppOp.run, hs]; rfl, hd, hh⟩

/-- So do assignments between variables. -/
theorem assign_correct {s : CppState} (hr : PtrsReachable s) {t : Nat} {e : Env} (he : s.heap.envs t = some e)
    (x y : Nat) {o : Option Nat} (hy : CppHolds s y o) :
    (∃ s', (CppOp.assign x y).run s t = .ok (s', .unit) ∧ CppHolds s' x o) ∧
    ∃ s', (CppOp.reset x).run s t = .ok (s', .unit) ∧ CppHolds s' x none := by
  obtain ⟨s1, hs1, hh1⟩ := store_correct hr he x hy
  obtain ⟨s2, hs2, hh2⟩ := store_correct hr he x .null
  exact ⟨⟨s1, by rw [CppOp.run, hs1]; rfl, hh1⟩, s2, by rw [CppOp.run, hs2]; rfl, hh2⟩

example : ∃ s, PtrsReachable s ∧ (∃ e, s.heap.envs 0 = some e) ∧ CppHolds s 0 (some 9) ∧
    Denotes s.heap (some 9) (some 9) := by
  have hp : ((runCpp CppState.initial sampleCpp).holds fun s =>
      (((s.heap.denote (s.vars 0)).holds fun y => y == some 9) && (s.heap.envs 0).isSome) &&
        (s.heap.denote (some 9)).holds fun y => y == some 9) = true := by decide +kernel
  rw [Res.holds_iff] at hp
  obtain ⟨s, hs, hp⟩ := hp
  simp only [Bool.and_eq_true] at hp
  obtain ⟨⟨hd, he⟩, h9⟩ := hp
  have hr := sampleCpp_reachable hs
  exact ⟨s, hr, Option.isSome_iff_exists.1 he, Heap.denotes_of hr.inv.heap hd, Heap.denotes_of hr.inv.heap h9⟩

/-! ## References made from objects -/

/-- `createGlobalReference` on an attached thread makes a global reference to the object, or null for null. -/
theorem toGlobal_correct {s : CppState} (hr : PtrsReachable s) {t : Nat} {e : Env} (he : s.heap.envs t = some e)
    {x : Nat} {o : Option Nat} (hx : CppHolds s x o) :
    ∃ s' g, (CppOp.toGlobal x).run s t = .ok (s', .ref g) ∧ Denotes s'.heap g o ∧ s'.vars = s.vars ∧
      ∀ k, g = some k → k ∈ s'.heap.globals ∧ (∀ y, s'.vars y ≠ some k) ∧
        ∃ i ob, o = some i ∧ s'.heap.objs k = some ob ∧ ob.kind = .global i := by
  have hi := hr.inv
  obtain ⟨h1, g, hx1⟩ := newGlobal_ok hi.heap he (denotes_valid hx)
  obtain ⟨o', g', hd, hg', hm⟩ := newGlobal_run hi.heap hx1
  injection hg' with hg'; subst hg'
  have := denotes_fun hx hd
  subst this
  refine ⟨{ s with heap := h1 }, g, by rw [CppOp.run, he]; simp only [hx1, Res.bind_ok], ?_, rfl, fun k hk => ?_⟩
  · cases o with
    | none => dsimp only at hm; subst hm; exact .null
    | some i =>
      obtain ⟨k, rfl, _, hmem, hob⟩ := hm
      exact (global_ref_keeps_alive (hi.heap.step hx1) hmem hob (ops := []) (by simp) rfl).2.1
  · subst hk
    cases o with
    | none => exact nomatch hm
    | some i =>
      obtain ⟨k', hk', hle, hmem, ob, hob, hkind⟩ := hm
      injection hk' with hk'; subst hk'
      refine ⟨hmem, fun y hy => ?_, i, ob, rfl, hob, hkind⟩
      obtain ⟨_, _, ob', hob', _⟩ := hi.own y k hy
      have := hi.heap.inv.bound k ob' hob'
      omega

/-- The object is then alive until the reference is deleted, whatever becomes of the variable. -/
theorem toGlobal_outlives {s s' : CppState} (hr : PtrsReachable s) {g i : Nat} (hg : g ∈ s.heap.globals)
    (ho : ∃ o, s.heap.objs g = some o ∧ o.kind = .global i) (hn : ∀ y, s.vars y ≠ some g)
    {ops : List (Nat × CppOp)}
    (ha : AlongCpp (fun s _ op => Honest s op ∧ ∀ o, op = .jni o → o ≠ .deleteGlobalRef (some g)) s ops)
    (hrun : runCpp s ops = .ok s') : Denotes s'.heap (some g) (some i) ∧ Live s'.heap i := by
  have key : ∀ {h h' : Heap} {t : Nat} {op : HeapOp} {out : Out}, HeapReachable h → g ∈ h.globals →
      (∃ o, h.objs g = some o ∧ o.kind = .global i) → op.run h t = .ok (h', out) →
      op ≠ .deleteGlobalRef (some g) → g ∈ h'.globals ∧ ∃ o, h'.objs g = some o ∧ o.kind = .global i :=
    fun hr hg ho hx hn => owner_kept hr hx hg ho hn
  have lt : ∀ {h : Heap}, HeapReachable h → (∃ o, h.objs g = some o ∧ o.kind = .global i) → g < h.next :=
    fun hr ho => hr.inv.bound g _ ho.choose_spec.1
  induction ops generalizing s with
  | nil =>
    injection hrun with hrun; subst hrun
    exact (global_ref_keeps_alive hr.inv.heap hg ho (ops := []) (by simp) rfl).2
  | cons a ops ih =>
    obtain ⟨t, op⟩ := a
    obtain ⟨⟨s1, out⟩, hx1, hx2⟩ := Res.bind_eq_ok.1 hrun
    have hi := hr.inv
    have storeCase : ∀ {x : Nat} {r : Option Nat} {s2 : CppState}, s.store t x r = .ok s2 →
        g ∈ s2.heap.globals ∧ (∃ o, s2.heap.objs g = some o ∧ o.kind = .global i) ∧ ∀ y, s2.vars y ≠ some g := by
      intro x r s2 hs
      unfold CppState.store at hs
      obtain ⟨⟨h1, o1⟩, hy1, hy2⟩ := Res.bind_eq_ok.1 hs
      obtain ⟨⟨h2, o2⟩, hy3, hy4⟩ := Res.bind_eq_ok.1 hy2
      injection hy4 with hy4; subst hy4
      obtain ⟨hg1, ho1⟩ := key hi.heap hg ho hy1 (fun h => (nomatch h))
      obtain ⟨hg2, ho2⟩ := key (hi.heap.step hy1) hg1 ho1 hy3 (fun h => by injection h with h; exact hn x h)
      refine ⟨hg2, ho2, fun y hy => ?_⟩
      obtain ⟨z, k, _, rfl, hm⟩ := newGlobal_run hi.heap hy1
      dsimp only at hy
      by_cases hyx : y = x
      · rw [if_pos hyx] at hy
        subst hy
        cases z with
        | none => exact nomatch hm
        | some j =>
          obtain ⟨k', hk', hle, _⟩ := hm
          injection hk' with hk'; subst hk'
          exact absurd (lt hi.heap ho) (by omega)
      · rw [if_neg hyx] at hy; exact hn y hy
    have callCase : ∀ {o : HeapOp} {s2 : CppState} {out2 : Out}, o ≠ .deleteGlobalRef (some g) →
        ((o.run s.heap t).bind fun x => Res.ok (({ s with heap := x.1 } : CppState), x.2)) = .ok (s2, out2) →
        g ∈ s2.heap.globals ∧ (∃ o, s2.heap.objs g = some o ∧ o.kind = .global i) ∧ ∀ y, s2.vars y ≠ some g := by
      intro o s2 out2 hne hs
      obtain ⟨⟨h1, o1⟩, hy1, hy2⟩ := Res.bind_eq_ok.1 hs
      injection hy2 with hy2; injection hy2 with hy2 _; subst hy2
      obtain ⟨hg1, ho1⟩ := key hi.heap hg ho hy1 hne
      exact ⟨hg1, ho1, hn⟩
    have next : g ∈ s1.heap.globals ∧ (∃ o, s1.heap.objs g = some o ∧ o.kind = .global i) ∧
        ∀ y, s1.vars y ≠ some g := by
      cases op with
      | jni o => exact callCase (ha.1.2 o rfl) hx1
      | resolve x r =>
        obtain ⟨s2, hy, hy2⟩ := Res.bind_eq_ok.1 hx1
        injection hy2 with hy2; injection hy2 with hy2 _; subst hy2
        exact storeCase hy
      | assign x r =>
        obtain ⟨s2, hy, hy2⟩ := Res.bind_eq_ok.1 hx1
        injection hy2 with hy2; injection hy2 with hy2 _; subst hy2
        exact storeCase hy
      | reset x =>
        obtain ⟨s2, hy, hy2⟩ := Res.bind_eq_ok.1 hx1
        injection hy2 with hy2; injection hy2 with hy2 _; subst hy2
        exact storeCase hy
      | toGlobal x =>
        rw [CppOp.run] at hx1
        split at hx1
        · exact nomatch hx1
        · exact callCase (o := .newGlobalRef (s.vars x)) (fun h => (nomatch h)) hx1
      | toLocal x => exact callCase (o := .returnObject (s.vars x) _) (fun h => (nomatch h)) hx1
      | getClass x =>
        obtain ⟨c, _, hy2⟩ := Res.bind_eq_ok.1 hx1
        injection hy2 with hy2; injection hy2 with hy2 _; subst hy2
        exact ⟨hg, ho, hn⟩
    exact ih (hr.step ha.1.1 hx1) next.1 next.2.1 next.2.2 (ha.2 s1 out hx1) hx2

/-- The variables are reset and the thread detaches; only the reference made by `createGlobalReference` is left. -/
example : ∃ s s' g, PtrsReachable s ∧ (CppOp.toGlobal 0).run s 0 = .ok (s', .ref (some g)) ∧
    (runCpp s' [(0, .reset 0), (0, .reset 1), (0, .jni .detach)]).holds (fun s => (s.heap.objs 9).isSome) = true := by
  have hp : ((runCpp CppState.initial sampleCpp).holds fun s =>
      ((CppOp.toGlobal 0).run s 0).holds fun y => (match y.2 with | .ref (some _) => true | _ => false) &&
        (runCpp y.1 [(0, .reset 0), (0, .reset 1), (0, .jni .detach)]).holds (fun s => (s.heap.objs 9).isSome)) =
      true := by decide +kernel
  rw [Res.holds_iff] at hp
  obtain ⟨s, hs, hp⟩ := hp
  rw [Res.holds_iff] at hp
  obtain ⟨⟨s', out⟩, hs', hp⟩ := hp
  simp only [Bool.and_eq_true] at hp
  obtain ⟨ho, hp⟩ := hp
  split at ho
  · rename_i g
    exact ⟨s, s', g, sampleCpp_reachable hs, hs', hp⟩
  · exact nomatch ho

/-- `createLocalReference` makes a local reference to the object in the innermost frame of the thread, or null for
null. -/
theorem toLocal_correct {s : CppState} (hr : PtrsReachable s) {t : Nat} {e : Env} (he : s.heap.envs t = some e)
    {x : Nat} {o : Option Nat} (hx : CppHolds s x o) :
    ∃ s' e', (CppOp.toLocal x).run s t = .ok (s', .ref o) ∧ s'.vars = s.vars ∧ CppHolds s' x o ∧
      s'.heap.envs t = some e' ∧ e'.frames = addFront o.toList e.frames ∧ ∀ i, o = some i → HasLocal s'.heap t i := by
  have hi := hr.inv
  have hp := hi.heap.inv.toPre
  have hd := (denote_iff hp).2 hx
  obtain ⟨h1, hx1⟩ : ∃ h1, (HeapOp.returnObject (s.vars x) (some "java/lang/Object".toList)).run s.heap t =
      .ok (h1, .ref o) := by
    rw [HeapOp.run, exec_of_body he, HeapOp.body, Heap.returnObject, hd, Res.bind_ok]
    obtain ⟨h2, hx2⟩ := toJNI?_exists (s := (some "java/lang/Object".toList).bind s.heap.typeClass) (i := o)
      hp he (fun j hj => by
        subst hj; obtain ⟨ob, hob, _⟩ := denotes_ok hp hx; exact ⟨ob, hob⟩)
      (fun c hc => ⟨_, lookup_mem hc⟩)
    rw [hx2]
    exact ⟨_, rfl⟩
  obtain ⟨hi1, hk1⟩ := hi.call hx1 (fun _ _ _ h => (nomatch h))
  obtain ⟨e1, he1, _, heff⟩ := Heap.effect_run hp he hx1 (by simp)
  have hfr : e1.frames = addFront o.toList e.frames := by
    have : e1.frames = addFront (match Out.ref o with | .ref (some i) => [i] | _ => []) e.frames := heff
    rw [this]
    cases o <;> rfl
  refine ⟨{ s with heap := h1 }, e1, by rw [CppOp.run, hx1]; rfl, rfl, hk1 x o hx, he1, hfr, fun i ho => ?_⟩
  subst ho
  obtain ⟨f, fs, hf⟩ := List.exists_cons_of_ne_nil (frames_nonempty hi.heap he)
  exact ⟨e1, he1, f ++ [i], by rw [hfr, hf]; simp [addFront], by simp⟩

/-- Resolving gives the object back. -/
theorem toLocal_resolve {s s' : CppState} (hr : PtrsReachable s) {t : Nat} {e : Env} (he : s.heap.envs t = some e)
    {x : Nat} {o r : Option Nat} (hx : CppHolds s x o) (hl : (CppOp.toLocal x).run s t = .ok (s', .ref r)) (y : Nat) :
    ∃ s2, (CppOp.resolve y r).run s' t = .ok (s2, .unit) ∧ CppHolds s2 y o := by
  obtain ⟨s1, e1, hl1, _, hh, he1, _⟩ := toLocal_correct hr he hx
  rw [hl] at hl1; injection hl1 with hl1; injection hl1 with h1 h2; injection h2 with h2; subst h1; subst h2
  have hr' : PtrsReachable s' := hr.step (op := .toLocal x) trivial hl
  have hd : Denotes s'.heap r r := by
    cases r with
    | none => exact .null
    | some i =>
      obtain ⟨ob, hob, hk⟩ := denotes_ok hr'.inv.heap.inv.toPre hh
      exact .direct hob hk
  obtain ⟨s2, hs2, hh2⟩ := store_correct hr' he1 y hd
  exact ⟨s2, by rw [CppOp.run, hs2]; rfl, hh2⟩

/-! ## Classes of objects -/

/-- `getClass` gives the class of the object if it has one and throws otherwise. -/
theorem getClass_correct {s : CppState} (hr : PtrsReachable s) {t : Nat} {e : Env} (he : s.heap.envs t = some e)
    {x i : Nat} {ob : Obj} (hx : CppHolds s x (some i)) (ho : s.heap.objs i = some ob) :
    (CppOp.getClass x).run s t = match ob.cls with
      | some c => .ok (s, .ref (some c))
      | none => .throws .runtimeError := by
  have hd := (denote_iff hr.inv.heap.inv.toPre).2 hx
  rw [CppOp.run, CppState.classOf]
  cases hv : s.vars x with
  | none => unfold CppHolds at hx; rw [hv] at hx; exact nomatch hx
  | some g =>
    rw [hv] at hd
    simp only [he, hd, Res.bind_ok, ho]
    cases ob.cls <;> rfl

example : ∃ s, PtrsReachable s ∧ CppHolds s 0 (some 9) ∧ (s.heap.objs 9).any (fun o => o.cls == some 0) = true := by
  have hp : ((runCpp CppState.initial [(0, .jni (.newObject (some "java/lang/Object".toList))),
      (0, .resolve 0 (some 9))]).holds fun s =>
      ((s.heap.denote (s.vars 0)).holds fun y => y == some 9) && (s.heap.objs 9).any fun o => o.cls == some 0) =
      true := by decide +kernel
  rw [Res.holds_iff] at hp
  obtain ⟨s, hs, hp⟩ := hp
  simp only [Bool.and_eq_true] at hp
  have hr : PtrsReachable s :=
    PtrsReachable.steps (ops := [(0, .jni (.newObject (some _))), (0, .resolve 0 (some 9))]) .start
      ⟨trivial, fun _ _ _ => ⟨trivial, fun _ _ _ => trivial⟩⟩ hs
  exact ⟨s, hr, Heap.denotes_of hr.inv.heap hp.1, hp.2⟩

/-! ## Threads that are not attached -/

/-- `createGlobalReference` dereferences null on a thread that is not attached, `getClass` throws there. -/
theorem cpp_detached {s : CppState} {t : Nat} (he : s.heap.envs t = none) (x : Nat) :
    (CppOp.toGlobal x).run s t = .ub .nullDeref ∧
    (s.vars x ≠ none → (CppOp.getClass x).run s t = .throws .runtimeError) := by
  refine ⟨by rw [CppOp.run, he], fun hv => ?_⟩
  rw [CppOp.run, CppState.classOf]
  cases hx : s.vars x with
  | none => exact absurd hx hv
  | some g => simp only [he]; rfl

/-- So making a global reference is not always possible. -/
theorem toGlobal_not_total : ¬ ∀ (s : CppState) (t x : Nat), PtrsReachable s → ((CppOp.toGlobal x).run s t).Safe := by
  intro hall
  have h := hall CppState.initial 1 0 .start
  rw [(cpp_detached (s := CppState.initial) (t := 1) rfl 0).1] at h
  exact h

end Jnivm
