import Verif.Lemmas.HeapObjs
/-! Every class object is in the table of classes, under its name. -/
namespace Jnivm
open Spec
namespace Heap

/-- The table of classes only grows, and every new class object is in it. -/
structure Listed (h h' : Heap) : Prop where
  grows : ∀ n c, h.classes.lookup n = some c → h'.classes.lookup n = some c
  cls : ∀ k o n, h'.objs k = some o → o.kind = .cls n →
    (∃ o0, h.objs k = some o0 ∧ o0.kind = .cls n) ∨ h'.classes.lookup n = some k

theorem Listed.refl (h : Heap) : Listed h h := ⟨fun _ _ hc => hc, fun _ o _ ho hk => .inl ⟨o, ho, hk⟩⟩

theorem Listed.trans {a b c : Heap} (x : Listed a b) (y : Listed b c) : Listed a c where
  grows n k hk := y.grows n k (x.grows n k hk)
  cls k o n ho hk := by
    rcases y.cls k o n ho hk with ⟨o1, h1, k1⟩ | h1
    · rcases x.cls k o1 n h1 k1 with h2 | h2
      · exact .inl h2
      · exact .inr (y.grows n k h2)
    · exact .inr h1

theorem Listed.of_objs {h h' : Heap} (h1 : h'.objs = h.objs) (h2 : h'.classes = h.classes) : Listed h h' :=
  ⟨fun _ _ hc => h2 ▸ hc, fun _ o _ ho hk => .inl ⟨o, h1 ▸ ho, hk⟩⟩

theorem listed_setEnv (h : Heap) (t : Nat) (e : Env) : Listed h (h.setEnv t e) := .of_objs rfl rfl

theorem listed_alloc (h : Heap) {o : Obj} (ho : ∀ n, o.kind ≠ .cls n) : Listed h (h.alloc o).1 where
  grows _ _ hc := hc
  cls k o' n h1 hk := by
    simp only [alloc, setObj_objs] at h1
    split at h1
    · cases h1; exact absurd hk (ho n)
    · exact .inl ⟨o', h1, hk⟩

theorem listed_setObj {h : Heap} {i : Nat} {o o' : Obj} (ho : h.objs i = some o)
    (hk : ∀ n, o'.kind = .cls n → o.kind = .cls n) : Listed h (h.setObj i o') where
  grows _ _ hc := hc
  cls k ok n h1 hkn := by
    simp only [setObj_objs] at h1
    split at h1
    · rename_i hki
      cases h1
      exact .inl ⟨o, hki ▸ ho, hk n hkn⟩
    · exact .inl ⟨ok, h1, hkn⟩

theorem listed_pushLocal {h h' : Heap} {t i : Nat} (hx : h.pushLocal t i = .ok h') : Listed h h' := by
  obtain ⟨e, f, fs, _, _, rfl⟩ := pushLocal_ok hx
  exact listed_setEnv ..

theorem listed_intern (h : Heap) (n : Str) : Listed h (h.intern n).1 := by
  simp only [intern]
  split
  · exact .refl h
  · rename_i hn
    refine ⟨fun m c hc => ?_, fun k o m ho hk => ?_⟩
    · simp only [List.lookup_cons, alloc_classes]
      split
      · rename_i hmn
        simp only [beq_iff_eq] at hmn
        subst hmn
        rw [hn] at hc; cases hc
      · exact hc
    · simp only [alloc, setObj_objs] at ho
      split at ho
      · rename_i hki
        cases ho
        cases hk
        refine .inr ?_
        simp [alloc, hki]
      · exact .inl ⟨o, ho, hk⟩

theorem listed_toJNI {h h' : Heap} {t i : Nat} {s : Option Nat} (hx : h.toJNI t s i = .ok h') :
    Listed h h' := by
  simp only [toJNI] at hx
  cases ho : h.objs i with
  | none => simp [ho] at hx
  | some o =>
    simp only [ho] at hx
    by_cases hc : o.cls.isNone = true
    · rw [if_pos hc] at hx
      exact (listed_setObj ho (o' := { o with cls := s }) fun _ hk => hk).trans (listed_pushLocal hx)
    · rw [if_neg hc] at hx
      exact listed_pushLocal hx

theorem listed_toJNI? {h h' : Heap} {t : Nat} {s i r : Option Nat}
    (hx : h.toJNI? t s i = .ok (h', r)) : Listed h h' := by
  cases i with
  | none => cases hx; exact .refl h
  | some i =>
    obtain ⟨h1, hx1, hx2⟩ := Res.bind_eq_ok.1 hx
    cases hx2
    exact listed_toJNI hx1

theorem listed_findClass {h h' : Heap} {t : Nat} {n : Str} {r : Option Nat}
    (hx : h.findClass t n = .ok (h', r)) : Listed h h' := by
  obtain ⟨h1, hx1, hx2⟩ := Res.bind_eq_ok.1 hx
  cases hx2
  exact (listed_intern h n).trans (listed_toJNI hx1)

theorem listed_newLocalRef {h h' : Heap} {t : Nat} {o r : Option Nat}
    (hx : h.newLocalRef t o = .ok (h', r)) : Listed h h' := by
  obtain ⟨x, _, hx⟩ := Res.bind_eq_ok.1 hx
  cases x with
  | none => cases hx; exact .refl h
  | some i =>
    obtain ⟨h1, hx1, hx2⟩ := Res.bind_eq_ok.1 hx
    cases hx2
    exact listed_pushLocal hx1

theorem listed_getObjectClass {h h' : Heap} {t : Nat} {o r : Option Nat}
    (hx : h.getObjectClass t o = .ok (h', r)) : Listed h h' := by
  cases o with
  | none => exact listed_findClass hx
  | some i =>
    obtain ⟨x, _, hx⟩ := Res.bind_eq_ok.1 hx
    cases x with
    | none => cases hx
    | some j =>
      cases hj : h.objs j with
      | none => simp [hj] at hx
      | some oj => simp only [hj] at hx; exact listed_toJNI? hx

theorem listed_addWrapper (h : Heap) (n : Str) {k : Kind} (hk : ∀ m, k ≠ .cls m) :
    Listed h (h.addWrapper n k) :=
  ((listed_intern h n).trans (listed_alloc _ (o := ⟨k, some (h.intern n).2⟩) hk)).trans (.of_objs rfl rfl)

theorem listed_exec {h h' : Heap} {t : Nat} {op : HeapOp} {out : Out}
    (hx : op.exec h t = .ok (h', out)) : Listed h h' := by
  have hx := (exec_ok hx).1
  cases op with
  | newObject ty =>
    obtain ⟨r, hx, _⟩ := outRef_ok hx
    obtain ⟨h3, hx1, hx2⟩ := Res.bind_eq_ok.1 hx
    cases hx2
    refine (listed_alloc h (o := ⟨.made ty, none⟩) ?_).trans (listed_toJNI hx1)
    rcases made_cases ty with hk | ⟨_, hk⟩ <;> simp [hk]
  | returnObject o ty =>
    obtain ⟨r, hx, _⟩ := outRef_ok hx
    obtain ⟨x, _, hx⟩ := Res.bind_eq_ok.1 hx
    exact listed_toJNI? hx
  | findClass n => exact listed_findClass (outRef_ok hx).choose_spec.1
  | newMember m s =>
    injection hx with hx; injection hx with hx _
    subst hx
    exact (listed_alloc h (o := ⟨if m then .method s else .field s, none⟩)
      (by cases m <;> simp)).trans (.of_objs rfl rfl)
  | pushLocalFrame =>
    obtain ⟨e, _, hx⟩ := Res.bind_eq_ok.1 (outUnit_ok hx).1
    split at hx <;> (injection hx with hx; subst hx; exact listed_setEnv ..)
  | popLocalFrame r =>
    obtain ⟨r', hx, _⟩ := outRef_ok hx
    obtain ⟨e, _, hx⟩ := Res.bind_eq_ok.1 hx
    obtain ⟨x, _, hx⟩ := Res.bind_eq_ok.1 hx
    cases hf : e.frames with
    | nil => simp [hf] at hx
    | cons f fs =>
      simp only [hf] at hx
      cases x with
      | none => cases hx; exact listed_setEnv ..
      | some i =>
        obtain ⟨h3, hx1, hx2⟩ := Res.bind_eq_ok.1 hx
        injection hx2 with hx2; injection hx2 with hx2 _
        subst hx2
        exact (listed_setEnv ..).trans (listed_toJNI hx1)
  | newGlobalRef r =>
    obtain ⟨r', hx, _⟩ := outRef_ok hx
    obtain ⟨x, hd, hx'⟩ := Res.bind_eq_ok.1 hx
    cases x with
    | none => cases hx'; exact .refl h
    | some i =>
      rw [newGlobalRef_some hd] at hx
      injection hx with hx; injection hx with hx _
      subst hx
      exact listed_addWrapper h _ (by simp)
  | newWeakGlobalRef r =>
    obtain ⟨r', hx, _⟩ := outRef_ok hx
    obtain ⟨x, hd, hx'⟩ := Res.bind_eq_ok.1 hx
    cases x with
    | none => cases hx'; exact .refl h
    | some i =>
      rw [newWeakGlobalRef_some hd] at hx
      injection hx with hx; injection hx with hx _
      subst hx
      exact listed_addWrapper h _ (by simp)
  | deleteGlobalRef r =>
    obtain ⟨x, _, hx⟩ := Res.bind_eq_ok.1 (outUnit_ok hx).1
    cases x <;> (cases hx; exact .of_objs rfl rfl)
  | deleteWeakGlobalRef r =>
    obtain ⟨x, _, hx⟩ := Res.bind_eq_ok.1 (outUnit_ok hx).1
    cases x <;> (cases hx; exact .of_objs rfl rfl)
  | deleteLocalRef r =>
    obtain ⟨e, _, hx⟩ := Res.bind_eq_ok.1 (outUnit_ok hx).1
    obtain ⟨x, _, hx⟩ := Res.bind_eq_ok.1 hx
    cases x <;> (cases hx; exact .of_objs rfl rfl)
  | newLocalRef r => exact listed_newLocalRef (outRef_ok hx).choose_spec.1
  | isSameObject a b => rw [(outBool_ok hx).choose_spec.2.1]; exact .refl h
  | getObjectRefType r =>
    obtain ⟨k, _, hx⟩ := Res.bind_eq_ok.1 hx
    cases hx; exact .refl h
  | getObjectClass r => exact listed_getObjectClass (outRef_ok hx).choose_spec.1
  | newObjectArray n c i =>
    obtain ⟨r, hx, _⟩ := outRef_ok hx
    simp only [newObjectArray] at hx
    by_cases hl : n < 0
    · rw [if_pos hl] at hx; cases hx
    · rw [if_neg hl] at hx
      generalize hb : (decide (0 < n) && i.any fun i => ((h.intern c).1.objs i).isNone) = b at hx
      cases b with
      | true => simp at hx
      | false =>
        simp only [Bool.false_eq_true, if_false] at hx
        obtain ⟨h1, hx1, hx2⟩ := Res.bind_eq_ok.1 hx
        injection hx2 with hx2; injection hx2 with hx2 _
        subst hx2
        exact ((listed_intern h c).trans (listed_alloc _
          (o := ⟨.array (List.replicate n.toNat i), some (h.intern c).2⟩) (by simp))).trans (listed_toJNI hx1)
  | getObjectArrayElement a i =>
    obtain ⟨r', hx, _⟩ := outRef_ok hx
    obtain ⟨x, _, hx⟩ := Res.bind_eq_ok.1 hx
    obtain ⟨n, _, hx⟩ := Res.bind_eq_ok.1 hx
    exact listed_toJNI? hx
  | setObjectArrayElement a i v =>
    obtain ⟨x, o, slots, y, _, ho, hk, _, _, _, rfl⟩ := setObjectArrayElement_ok (outUnit_ok hx).1
    exact listed_setObj ho (fun n => by simp [hk])
  | newRecord n ty =>
    obtain ⟨r, hx, _⟩ := outRef_ok hx
    obtain ⟨h1, hx1, hx2⟩ := Res.bind_eq_ok.1 hx
    injection hx2 with hx2; injection hx2 with hx2 _
    subst hx2
    exact (listed_alloc h (o := ⟨.record (List.replicate n none), none⟩) (by simp)).trans (listed_toJNI hx1)
  | newCopy k ty =>
    obtain ⟨r, hx, _⟩ := outRef_ok hx
    obtain ⟨_, _, hx1⟩ := newCopy_ok hx
    exact (listed_alloc h (o := ⟨.plain, k⟩) (by simp)).trans (listed_toJNI hx1)
  | newStatics n =>
    injection hx with hx; injection hx with hx _
    subst hx
    exact (listed_alloc h (o := ⟨.record (List.replicate n none), none⟩) (by simp)).trans (.of_objs rfl rfl)
  | classObject n => cases hx; exact listed_intern h n
  | getVar a i c =>
    obtain ⟨r', hx, _⟩ := outRef_ok hx
    obtain ⟨x, _, hx⟩ := Res.bind_eq_ok.1 hx
    exact listed_toJNI? hx
  | setVar a i v =>
    rcases setVar_ok (outUnit_ok hx).1 with ⟨_, rfl⟩ | ⟨x, o, vars, y, _, ho, hk, _, _, rfl⟩
    · exact .refl _
    · exact listed_setObj ho (fun n => by simp [hk])
  | throw r =>
    obtain ⟨e, _, hx⟩ := Res.bind_eq_ok.1 (outUnit_ok hx).1
    obtain ⟨x, _, hx⟩ := Res.bind_eq_ok.1 hx
    cases hx; exact listed_setEnv ..
  | raise p =>
    obtain ⟨e, _, hx⟩ := Res.bind_eq_ok.1 (outUnit_ok hx).1
    cases hx
    exact (listed_alloc h (o := ⟨.throwable (some p), none⟩) (by simp)).trans (listed_setEnv ..)
  | exceptionOccurred =>
    obtain ⟨r', hx, _⟩ := outRef_ok hx
    obtain ⟨x, _, hx⟩ := Res.bind_eq_ok.1 hx
    exact listed_toJNI? hx
  | exceptionClear =>
    obtain ⟨e, _, hx⟩ := Res.bind_eq_ok.1 (outUnit_ok hx).1
    cases hx; exact listed_setEnv ..
  | exceptionCheck => rw [(outBool_ok hx).choose_spec.2.1]; exact .refl h
  | toReflected m c i s =>
    obtain ⟨r', hx, _⟩ := outRef_ok hx
    cases c with
    | none => simp only [toReflected] at hx; cases hx; exact .refl h
    | some c =>
      cases i with
      | none => simp only [toReflected] at hx; cases hx; exact .refl h
      | some i =>
        simp only [toReflected] at hx
        cases ho : h.objs i with
        | none => simp [ho] at hx
        | some o =>
          simp only [ho] at hx
          generalize hk : (if m = true then Kind.method s else Kind.field s) = k at hx
          by_cases hok : o.kind = k
          · rw [if_pos hok] at hx; exact listed_newLocalRef hx
          · rw [if_neg hok] at hx; cases hx; exact .refl h
  | fromReflected m r =>
    obtain ⟨r', hx, _⟩ := outRef_ok hx
    cases r with
    | none => cases hx; exact .refl h
    | some r =>
      obtain ⟨⟨h3, c⟩, hx1, hx⟩ := Res.bind_eq_ok.1 hx
      obtain ⟨⟨h4, k⟩, hx2, hx⟩ := Res.bind_eq_ok.1 hx
      obtain ⟨b, _, hx⟩ := Res.bind_eq_ok.1 hx
      cases hx
      exact (listed_getObjectClass hx1).trans (listed_findClass hx2)
  | attach =>
    injection hx with hx; injection hx with hx _
    subst hx
    simp only [attach]
    split
    · exact .refl h
    · exact .of_objs rfl rfl
  | detach => cases hx; exact .of_objs rfl rfl


/-- Every class object is the one the table has for its name. -/
def ClassTable (h : Heap) : Prop := ∀ k o n, h.objs k = some o → o.kind = .cls n → h.classes.lookup n = some k

theorem classTable_run {h h' : Heap} {t : Nat} {op : HeapOp} {out : Out} (hc : ClassTable h)
    (hx : op.run h t = .ok (h', out)) : ClassTable h' := by
  obtain ⟨h1, hx1, rfl⟩ := run_ok hx
  have l := listed_exec hx1
  intro k o n ho hk
  rw [collect_classes]
  rcases l.cls k o n (collect_sub ho) hk with ⟨o0, h0, k0⟩ | h2
  · exact l.grows n k (hc k o0 n h0 k0)
  · exact h2

theorem classTable_empty_intern {h : Heap} (hc : ClassTable h) (n : Str) : ClassTable (h.intern n).1 := by
  have l := listed_intern h n
  intro k o m ho hk
  rcases l.cls k o m ho hk with ⟨o0, h0, k0⟩ | h2
  · exact l.grows m k (hc k o0 m h0 k0)
  · exact h2

theorem classTable_initial : ClassTable Heap.initial := by
  have key : ∀ (l : List String) (h : Heap), ClassTable h →
      ClassTable (l.foldl (fun h n => (h.intern n.toList).1) h) := by
    intro l
    induction l with
    | nil => exact fun h hc => hc
    | cons n l ih => exact fun h hc => ih _ (classTable_empty_intern hc n.toList)
  refine key _ _ ?_
  intro k o n ho
  simp [attach] at ho

end Heap

theorem HeapReachable.classTable {h : Heap} (hr : HeapReachable h) : Heap.ClassTable h := by
  obtain ⟨ops, hx⟩ := hr
  have key : ∀ (ops : List (Nat × HeapOp)) (h0 : Heap), Heap.ClassTable h0 → runHeap h0 ops = .ok h →
      Heap.ClassTable h := by
    intro ops
    induction ops with
    | nil => intro h0 hc hx; cases hx; exact hc
    | cons x ops ih =>
      intro h0 hc hx
      obtain ⟨t, op⟩ := x
      obtain ⟨⟨h1, out⟩, hx1, hx2⟩ := Res.bind_eq_ok.1 hx
      exact ih h1 (Heap.classTable_run hc hx1) hx2
  exact key ops _ Heap.classTable_initial hx

/-- A name has at most one class object. -/
theorem HeapReachable.classObject_unique {h : Heap} (hr : HeapReachable h) {k l : Nat} {o p : Obj} {n : Str}
    (h1 : h.objs k = some o) (h2 : o.kind = .cls n) (h3 : h.objs l = some p) (h4 : p.kind = .cls n) : k = l := by
  have e1 := hr.classTable k o n h1 h2
  have e2 := hr.classTable l p n h3 h4
  rw [e1] at e2
  cases e2; rfl

end Jnivm
