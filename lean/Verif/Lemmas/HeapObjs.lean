import Verif.Lemmas.Refs
/-!
What a call does to the kinds of objects: only `SetObjectArrayElement` and setting a variable change
one, and only `NewObjectArray` makes an array.
-/
namespace Jnivm
open Spec
namespace Heap

/-- Neither an array nor an object with variables. -/
def _root_.Jnivm.Kind.Simple (k : Kind) : Prop := (∀ s, k ≠ .array s) ∧ ∀ s, k ≠ .record s

/-- No kind changes and no array or object with variables is made; a `Throwable` without an exception
only if `emp` holds. -/
structure Quiet (emp : Prop) (h h' : Heap) : Prop where
  next : h.next ≤ h'.next
  nextEnv : h.nextEnv ≤ h'.nextEnv
  kinds : ∀ i o', h'.objs i = some o' →
    (∃ o, h.objs i = some o ∧ o'.kind = o.kind) ∨ (h.next ≤ i ∧ o'.kind.Simple ∧ (o'.kind = .throwable none → emp))

variable {emp : Prop}

theorem Quiet.refl (h : Heap) : Quiet emp h h := ⟨Nat.le_refl _, Nat.le_refl _, fun _ o' ho => .inl ⟨o', ho, rfl⟩⟩

theorem Quiet.trans {a b c : Heap} (x : Quiet emp a b) (y : Quiet emp b c) : Quiet emp a c where
  next := Nat.le_trans x.next y.next
  nextEnv := Nat.le_trans x.nextEnv y.nextEnv
  kinds i o ho := by
    rcases y.kinds i o ho with ⟨o1, h1, k1⟩ | ⟨h1, k1⟩
    · rcases x.kinds i o1 h1 with ⟨o2, h2, k2⟩ | ⟨h2, k2⟩
      · exact .inl ⟨o2, h2, k1.trans k2⟩
      · exact .inr ⟨h2, by rw [k1]; exact k2⟩
    · exact .inr ⟨Nat.le_trans x.next h1, k1⟩

theorem Quiet.of_objs {h h' : Heap} (h1 : h'.objs = h.objs) (h2 : h'.next = h.next)
    (h3 : h.nextEnv ≤ h'.nextEnv := by exact Nat.le_refl _) : Quiet emp h h' :=
  ⟨h2 ▸ Nat.le_refl _, h3, fun _ o' ho => .inl ⟨o', h1 ▸ ho, rfl⟩⟩

theorem quiet_setEnv (h : Heap) (t : Nat) (e : Env) : Quiet emp h (h.setEnv t e) := .of_objs rfl rfl

theorem quiet_alloc (h : Heap) {o : Obj} (ho : o.kind.Simple) (he : o.kind = .throwable none → emp) :
    Quiet emp h (h.alloc o).1 where
  next := Nat.le_succ _
  nextEnv := Nat.le_refl _
  kinds i o' h1 := by
    simp only [alloc, setObj_objs] at h1
    split at h1
    · rename_i hi
      cases h1
      exact .inr ⟨Nat.le_of_eq hi.symm, ho, he⟩
    · exact .inl ⟨o', h1, rfl⟩

theorem quiet_setObj {h : Heap} {i : Nat} {o o' : Obj} (ho : h.objs i = some o)
    (hk : o'.kind = o.kind) : Quiet emp h (h.setObj i o') where
  next := Nat.le_refl _
  nextEnv := Nat.le_refl _
  kinds j oj h1 := by
    simp only [setObj_objs] at h1
    split at h1
    · rename_i hj
      cases h1
      exact .inl ⟨o, hj ▸ ho, hk⟩
    · exact .inl ⟨oj, h1, rfl⟩

theorem quiet_pushLocal {h h' : Heap} {t i : Nat} (hx : h.pushLocal t i = .ok h') : Quiet emp h h' := by
  obtain ⟨e, f, fs, _, _, rfl⟩ := pushLocal_ok hx
  exact quiet_setEnv ..

theorem quiet_intern (h : Heap) (n : Str) : Quiet emp h (h.intern n).1 := by
  simp only [intern]
  split
  · exact .refl h
  · exact (quiet_alloc h (o := ⟨.cls n, none⟩) (by simp [Kind.Simple]) (by simp)).trans (.of_objs rfl rfl)

theorem toJNI_ok {h h' : Heap} {t i : Nat} {s : Option Nat} (hx : h.toJNI t s i = .ok h') :
    ∃ o, h.objs i = some o ∧ (h'.next = h.next ∧ h'.nextEnv = h.nextEnv) ∧
      (∀ j, j ≠ i → h'.objs j = h.objs j) ∧
      h'.objs i = some (if o.cls.isNone then { o with cls := s } else o) := by
  simp only [toJNI] at hx
  cases ho : h.objs i with
  | none => simp [ho] at hx
  | some o =>
    simp only [ho] at hx
    refine ⟨o, rfl, ?_⟩
    by_cases hc : o.cls.isNone = true
    · rw [if_pos hc] at hx
      obtain ⟨e, f, fs, _, _, rfl⟩ := pushLocal_ok hx
      refine ⟨⟨rfl, rfl⟩, fun j hj => by simp [hj], by simp [hc]⟩
    · rw [if_neg hc] at hx
      obtain ⟨e, f, fs, _, _, rfl⟩ := pushLocal_ok hx
      refine ⟨⟨rfl, rfl⟩, fun j hj => by simp, by simp [hc, ho]⟩

theorem quiet_toJNI {h h' : Heap} {t i : Nat} {s : Option Nat} (hx : h.toJNI t s i = .ok h') :
    Quiet emp h h' := by
  obtain ⟨o, ho, hn, h1, h2⟩ := toJNI_ok hx
  refine ⟨hn.1 ▸ Nat.le_refl _, hn.2 ▸ Nat.le_refl _, fun j oj hj => ?_⟩
  by_cases hji : j = i
  · subst hji
    rw [h2] at hj
    cases hj
    refine .inl ⟨o, ho, ?_⟩
    split <;> rfl
  · rw [h1 j hji] at hj
    exact .inl ⟨oj, hj, rfl⟩

theorem quiet_toJNI? {h h' : Heap} {t : Nat} {s i r : Option Nat}
    (hx : h.toJNI? t s i = .ok (h', r)) : Quiet emp h h' := by
  cases i with
  | none => cases hx; exact .refl h
  | some i =>
    obtain ⟨h1, hx1, hx2⟩ := Res.bind_eq_ok.1 hx
    cases hx2
    exact quiet_toJNI hx1

theorem quiet_findClass {h h' : Heap} {t : Nat} {n : Str} {r : Option Nat}
    (hx : h.findClass t n = .ok (h', r)) : Quiet emp h h' := by
  obtain ⟨h1, hx1, hx2⟩ := Res.bind_eq_ok.1 hx
  cases hx2
  exact (quiet_intern h n).trans (quiet_toJNI hx1)

theorem quiet_newLocalRef {h h' : Heap} {t : Nat} {o r : Option Nat}
    (hx : h.newLocalRef t o = .ok (h', r)) : Quiet emp h h' := by
  obtain ⟨x, _, hx⟩ := Res.bind_eq_ok.1 hx
  cases x with
  | none => cases hx; exact .refl h
  | some i =>
    obtain ⟨h1, hx1, hx2⟩ := Res.bind_eq_ok.1 hx
    cases hx2
    exact quiet_pushLocal hx1

theorem quiet_getObjectClass {h h' : Heap} {t : Nat} {o r : Option Nat}
    (hx : h.getObjectClass t o = .ok (h', r)) : Quiet emp h h' := by
  cases o with
  | none => exact quiet_findClass hx
  | some i =>
    obtain ⟨x, _, hx⟩ := Res.bind_eq_ok.1 hx
    cases x with
    | none => cases hx
    | some j =>
      cases hj : h.objs j with
      | none => simp [hj] at hx
      | some oj => simp only [hj] at hx; exact quiet_toJNI? hx

theorem quiet_addWrapper (h : Heap) (n : Str) {k : Kind} (hk : k.Simple) (he : k = .throwable none → emp) :
    Quiet emp h (h.addWrapper n k) :=
  ((quiet_intern h n).trans (quiet_alloc _ (o := ⟨k, some (h.intern n).2⟩) hk he)).trans
    (.of_objs rfl rfl)

/-- The calls that make or change an array or an object with variables. -/
def _root_.Jnivm.HeapOp.holds : HeapOp → Bool
  | .newObjectArray _ _ _ | .setObjectArrayElement _ _ _ | .newRecord _ _ | .newStatics _
  | .setVar _ _ _ => true
  | _ => false

theorem quiet_exec {h h' : Heap} {t : Nat} {op : HeapOp} {out : Out}
    (hx : op.exec h t = .ok (h', out)) (hq : op.holds = false) :
    Quiet (op = .newObject (some "java/lang/Throwable".toList)) h h' := by
  have hx := (exec_ok hx).1
  cases op with
  | newObject ty =>
    obtain ⟨r, hx, _⟩ := outRef_ok hx
    obtain ⟨h3, hx1, hx2⟩ := Res.bind_eq_ok.1 hx
    cases hx2
    refine (quiet_alloc h (o := ⟨.made ty, none⟩) ?_ ?_).trans (quiet_toJNI hx1)
    · rcases made_cases ty with hk | ⟨_, hk⟩ <;> simp [Kind.Simple, hk]
    · rcases made_cases ty with hk | ⟨ht, _⟩
      · simp [hk]
      · exact fun _ => congrArg _ ht
  | returnObject o ty =>
    obtain ⟨r, hx, _⟩ := outRef_ok hx
    obtain ⟨x, _, hx⟩ := Res.bind_eq_ok.1 hx
    exact quiet_toJNI? hx
  | findClass n => exact quiet_findClass (outRef_ok hx).choose_spec.1
  | newMember m s =>
    injection hx with hx; injection hx with hx _
    subst hx
    exact (quiet_alloc h (o := ⟨if m then .method s else .field s, none⟩)
      (by cases m <;> simp [Kind.Simple]) (by cases m <;> simp)).trans (.of_objs rfl rfl)
  | pushLocalFrame =>
    obtain ⟨e, _, hx⟩ := Res.bind_eq_ok.1 (outUnit_ok hx).1
    split at hx <;> (injection hx with hx; subst hx; exact quiet_setEnv ..)
  | popLocalFrame r =>
    obtain ⟨r', hx, _⟩ := outRef_ok hx
    obtain ⟨e, _, hx⟩ := Res.bind_eq_ok.1 hx
    obtain ⟨x, _, hx⟩ := Res.bind_eq_ok.1 hx
    cases hf : e.frames with
    | nil => simp [hf] at hx
    | cons f fs =>
      simp only [hf] at hx
      cases x with
      | none => cases hx; exact quiet_setEnv ..
      | some i =>
        obtain ⟨h3, hx1, hx2⟩ := Res.bind_eq_ok.1 hx
        injection hx2 with hx2; injection hx2 with hx2 _
        subst hx2
        exact (quiet_setEnv ..).trans (quiet_toJNI hx1)
  | newGlobalRef r =>
    obtain ⟨r', hx, _⟩ := outRef_ok hx
    obtain ⟨x, hd, hx'⟩ := Res.bind_eq_ok.1 hx
    cases x with
    | none => cases hx'; exact .refl h
    | some i =>
      rw [newGlobalRef_some hd] at hx
      injection hx with hx; injection hx with hx _
      subst hx
      exact quiet_addWrapper h _ (by simp [Kind.Simple]) (by simp)
  | newWeakGlobalRef r =>
    obtain ⟨r', hx, _⟩ := outRef_ok hx
    obtain ⟨x, hd, hx'⟩ := Res.bind_eq_ok.1 hx
    cases x with
    | none => cases hx'; exact .refl h
    | some i =>
      rw [newWeakGlobalRef_some hd] at hx
      injection hx with hx; injection hx with hx _
      subst hx
      exact quiet_addWrapper h _ (by simp [Kind.Simple]) (by simp)
  | deleteGlobalRef r =>
    obtain ⟨x, _, hx⟩ := Res.bind_eq_ok.1 (outUnit_ok hx).1
    cases x <;> (cases hx; exact .of_objs rfl rfl)
  | deleteWeakGlobalRef r =>
    obtain ⟨x, _, hx⟩ := Res.bind_eq_ok.1 (outUnit_ok hx).1
    cases x <;> (cases hx; exact .of_objs rfl rfl)
  | deleteLocalRef r =>
    obtain ⟨e, _, hx⟩ := Res.bind_eq_ok.1 (outUnit_ok hx).1
    obtain ⟨x, _, hx⟩ := Res.bind_eq_ok.1 hx
    cases x <;> (cases hx; exact .of_objs rfl rfl)
  | newLocalRef r => exact quiet_newLocalRef (outRef_ok hx).choose_spec.1
  | isSameObject a b => rw [(outBool_ok hx).choose_spec.2.1]; exact .refl h
  | getObjectRefType r =>
    obtain ⟨k, _, hx⟩ := Res.bind_eq_ok.1 hx
    cases hx; exact .refl h
  | getObjectClass r => exact quiet_getObjectClass (outRef_ok hx).choose_spec.1
  | newObjectArray n c i => exact nomatch hq
  | getObjectArrayElement a i =>
    obtain ⟨r', hx, _⟩ := outRef_ok hx
    obtain ⟨x, _, hx⟩ := Res.bind_eq_ok.1 hx
    obtain ⟨n, _, hx⟩ := Res.bind_eq_ok.1 hx
    exact quiet_toJNI? hx
  | setObjectArrayElement a i v => exact nomatch hq
  | newRecord n ty => exact nomatch hq
  | newCopy k ty =>
    obtain ⟨r, hx, _⟩ := outRef_ok hx
    obtain ⟨_, _, hx1⟩ := newCopy_ok hx
    exact (quiet_alloc h (o := ⟨.plain, k⟩) (by simp [Kind.Simple]) (by simp)).trans (quiet_toJNI hx1)
  | newStatics n => exact nomatch hq
  | classObject n => cases hx; exact quiet_intern h n
  | getVar a i c =>
    obtain ⟨r', hx, _⟩ := outRef_ok hx
    obtain ⟨x, _, hx⟩ := Res.bind_eq_ok.1 hx
    exact quiet_toJNI? hx
  | setVar a i v => exact nomatch hq
  | throw r =>
    obtain ⟨e, _, hx⟩ := Res.bind_eq_ok.1 (outUnit_ok hx).1
    obtain ⟨x, _, hx⟩ := Res.bind_eq_ok.1 hx
    cases hx; exact quiet_setEnv ..
  | raise p =>
    obtain ⟨e, _, hx⟩ := Res.bind_eq_ok.1 (outUnit_ok hx).1
    cases hx
    exact (quiet_alloc h (o := ⟨.throwable (some p), none⟩) (by simp [Kind.Simple]) (by simp)).trans (quiet_setEnv ..)
  | exceptionOccurred =>
    obtain ⟨r', hx, _⟩ := outRef_ok hx
    obtain ⟨x, _, hx⟩ := Res.bind_eq_ok.1 hx
    exact quiet_toJNI? hx
  | exceptionClear =>
    obtain ⟨e, _, hx⟩ := Res.bind_eq_ok.1 (outUnit_ok hx).1
    cases hx; exact quiet_setEnv ..
  | exceptionCheck => rw [(outBool_ok hx).choose_spec.2.1]; exact .refl h
  | toReflected m c i s =>
    obtain ⟨r', hx, _⟩ := outRef_ok hx
    cases c with
    | none => simp only [toReflected] at hx; cases hx; exact .refl h
    | some c =>
      cases i with
      | none => simp only [toReflected] at hx; cases hx; exact .refl h
      | some i =>
        simp only [toReflected] at hx
        cases ho : h.objs i with
        | none => simp [ho] at hx
        | some o =>
          simp only [ho] at hx
          generalize hk : (if m = true then Kind.method s else Kind.field s) = k at hx
          by_cases hok : o.kind = k
          · rw [if_pos hok] at hx; exact quiet_newLocalRef hx
          · rw [if_neg hok] at hx; cases hx; exact .refl h
  | fromReflected m r =>
    obtain ⟨r', hx, _⟩ := outRef_ok hx
    cases r with
    | none => cases hx; exact .refl h
    | some r =>
      obtain ⟨⟨h3, c⟩, hx1, hx⟩ := Res.bind_eq_ok.1 hx
      obtain ⟨⟨h4, k⟩, hx2, hx⟩ := Res.bind_eq_ok.1 hx
      obtain ⟨b, _, hx⟩ := Res.bind_eq_ok.1 hx
      cases hx
      exact (quiet_getObjectClass hx1).trans (quiet_findClass hx2)
  | attach =>
    injection hx with hx; injection hx with hx _
    subst hx
    simp only [attach]
    split
    · exact .refl h
    · exact .of_objs rfl rfl (Nat.le_succ _)
  | detach => cases hx; exact .of_objs rfl rfl

/-- `NewObjectArray`. -/
theorem newObjectArray_ok {h h' : Heap} {t : Nat} {len : Int} {n : Str} {init r : Option Nat}
    (hx : h.newObjectArray t len n init = .ok (h', r)) :
    0 ≤ len ∧ r = some (h.intern n).1.next ∧ h.next ≤ (h.intern n).1.next ∧
      h'.next = (h.intern n).1.next + 1 ∧ h.nextEnv ≤ h'.nextEnv ∧
      (∃ o, h'.objs (h.intern n).1.next = some o ∧ o.kind = .array (List.replicate len.toNat init)) ∧
      (∀ j, j ≠ (h.intern n).1.next → h'.objs j = (h.intern n).1.objs j) := by
  simp only [newObjectArray] at hx
  by_cases hl : len < 0
  · rw [if_pos hl] at hx; cases hx
  · rw [if_neg hl] at hx
    generalize hb : (decide (0 < len) && init.any fun i => ((h.intern n).1.objs i).isNone) = b at hx
    cases b with
    | true => simp at hx
    | false =>
      simp only [Bool.false_eq_true, if_false] at hx
      obtain ⟨h1, hx1, hx2⟩ := Res.bind_eq_ok.1 hx
      injection hx2 with hx2; injection hx2 with hx2 hr
      subst hx2
      obtain ⟨o, ho, hn, h2, h3⟩ := toJNI_ok hx1
      have ho' : o = ⟨.array (List.replicate len.toNat init), some (h.intern n).2⟩ := by
        simp [alloc] at ho; exact ho.symm
      subst ho'
      refine ⟨by omega, hr.symm, (quiet_intern (emp := False) h n).next, hn.1,
        hn.2 ▸ (quiet_intern (emp := False) h n).nextEnv, ⟨_, h3, rfl⟩, fun j hj => ?_⟩
      rw [h2 j hj]
      simp [alloc, hj]

/-- `SetObjectArrayElement`. -/
theorem setObjectArrayElement_ok {h h' : Heap} {a v : Option Nat} {i : Int}
    (hx : h.setObjectArrayElement a i v = .ok h') :
    ∃ x o slots y, h.denote a = .ok (some x) ∧ h.objs x = some o ∧ o.kind = .array slots ∧
      h.denote v = .ok y ∧ 0 ≤ i ∧ i.toNat < slots.length ∧
      h' = h.setObj x { o with kind := .array (slots.set i.toNat y) } := by
  obtain ⟨⟨x, o, slots⟩, ha, hx⟩ := Res.bind_eq_ok.1 hx
  obtain ⟨y, hv, hx⟩ := Res.bind_eq_ok.1 hx
  obtain ⟨n, hn, hx⟩ := Res.bind_eq_ok.1 hx
  cases hx
  obtain ⟨h1, h2, h3⟩ := arrayOf_ok ha
  simp only [slotIndex] at hn
  split at hn
  · rename_i hc
    cases hn
    exact ⟨x, o, slots, y, h1, h2, h3, hv, hc.1, hc.2, rfl⟩
  · cases hn

/-- Making an object with variables. -/
theorem newRecord_ok {h h' : Heap} {t n : Nat} {ty : Option Str} {r : Option Nat}
    (hx : h.newRecord t n ty = .ok (h', r)) :
    r = some h.next ∧ h'.next = h.next + 1 ∧ h'.nextEnv = h.nextEnv ∧
      (∃ o, h'.objs h.next = some o ∧ o.kind = .record (List.replicate n none)) ∧
      (∀ j, j ≠ h.next → h'.objs j = h.objs j) := by
  obtain ⟨h1, hx1, hx2⟩ := Res.bind_eq_ok.1 hx
  injection hx2 with hx2; injection hx2 with hx2 hr
  subst hx2
  obtain ⟨o, ho, hn, h2, h3⟩ := toJNI_ok hx1
  have ho' : o = ⟨.record (List.replicate n none), none⟩ := by
    simp at ho; exact ho.symm
  subst ho'
  refine ⟨hr.symm, hn.1, hn.2, ⟨_, h3, rfl⟩, fun j hj => ?_⟩
  rw [h2 j hj]
  simp [hj]

/-- Setting a variable. -/
theorem setVar_ok {h h' : Heap} {a v : Option Nat} {i : Nat} (hx : h.setVar a i v = .ok h') :
    (a = none ∧ h' = h) ∨
    ∃ x o vars y, h.denote a = .ok (some x) ∧ h.objs x = some o ∧ o.kind = .record vars ∧
      h.denote v = .ok y ∧ i < vars.length ∧
      h' = h.setObj x { o with kind := .record (vars.set i y) } := by
  cases a with
  | none => cases hx; exact .inl ⟨rfl, rfl⟩
  | some r =>
    obtain ⟨y, hv, hx⟩ := Res.bind_eq_ok.1 hx
    obtain ⟨⟨x, o, vars⟩, ha, hx⟩ := Res.bind_eq_ok.1 hx
    cases hx
    obtain ⟨h1, h2, h3, h4⟩ := recordOf_ok ha
    exact .inr ⟨x, o, vars, y, h1, h2, h3, hv, h4, rfl⟩

/-- What one call does to the kinds of objects. -/
theorem kinds_run {h h' : Heap} (hp : h.Pre) {t : Nat} {op : HeapOp} {out : Out}
    (hx : op.run h t = .ok (h', out)) {i : Nat} {o' : Obj} (ho' : h'.objs i = some o') :
    (∃ o, h.objs i = some o ∧ o'.kind = o.kind) ∨
    (h.next ≤ i ∧ o'.kind.Simple ∧
      (o'.kind = .throwable none → op = .newObject (some "java/lang/Throwable".toList))) ∨
    (∃ n c init, op = .newObjectArray n c init ∧ out = .ref (some i) ∧ h.next ≤ i ∧
      o'.kind = .array (List.replicate n.toNat init)) ∨
    (∃ a n v o slots y, op = .setObjectArrayElement a n v ∧ Denotes h a (some i) ∧
      h.objs i = some o ∧ o.kind = .array slots ∧ Denotes h v y ∧ 0 ≤ n ∧ n.toNat < slots.length ∧
      o'.kind = .array (slots.set n.toNat y)) ∨
    (∃ n, ((∃ c, op = .newRecord n c) ∨ op = .newStatics n) ∧ out = .ref (some i) ∧ h.next ≤ i ∧
      o'.kind = .record (List.replicate n none)) ∨
    (∃ a n v o vars y, op = .setVar a n v ∧ Denotes h a (some i) ∧
      h.objs i = some o ∧ o.kind = .record vars ∧ Denotes h v y ∧ n < vars.length ∧
      o'.kind = .record (vars.set n y)) := by
  obtain ⟨h1, hx1, rfl⟩ := run_ok hx
  replace ho' := collect_sub ho'
  cases hq : op.holds with
  | false =>
    rcases (quiet_exec hx1 hq).kinds i o' ho' with h2 | h2
    · exact .inl h2
    · exact .inr (.inl h2)
  | true =>
  cases op <;> simp only [HeapOp.holds, reduceCtorEq] at hq
  case newObjectArray n c init =>
    have hb := (exec_ok hx1).1
    replace hb := outRef_ok hb
    obtain ⟨r, hb, rfl⟩ := hb
    obtain ⟨_, rfl, hle, hnext, _, ⟨o, ho, hk⟩, hrest⟩ := newObjectArray_ok hb
    by_cases hi : i = (h.intern c).1.next
    · subst hi
      rw [ho] at ho'; cases ho'
      exact .inr (.inr (.inl ⟨n, c, init, rfl, rfl, hle, hk⟩))
    · rw [hrest i hi] at ho'
      rcases (quiet_intern h c).kinds i o' ho' with h2 | h2
      · exact .inl h2
      · exact .inr (.inl h2)
  case setObjectArrayElement a n v =>
    have hb := (outUnit_ok (exec_ok hx1).1).1
    obtain ⟨x, o, slots, y, ha, ho, hk, hv, h0, hl, rfl⟩ := setObjectArrayElement_ok hb
    simp only [setObj_objs] at ho'
    split at ho'
    · rename_i hix
      subst hix
      cases ho'
      exact .inr (.inr (.inr (.inl ⟨a, n, v, o, slots, y, rfl, (denote_iff hp).1 ha, ho, hk,
        (denote_iff hp).1 hv, h0, hl, rfl⟩)))
    · exact .inl ⟨o', ho', rfl⟩
  case newRecord n c =>
    have hb := (exec_ok hx1).1
    replace hb := outRef_ok hb
    obtain ⟨r, hb, rfl⟩ := hb
    obtain ⟨rfl, _, _, ⟨o, ho, hk⟩, hrest⟩ := newRecord_ok hb
    by_cases hi : i = h.next
    · subst hi
      rw [ho] at ho'; cases ho'
      exact .inr (.inr (.inr (.inr (.inl ⟨n, .inl ⟨c, rfl⟩, rfl, Nat.le_refl _, hk⟩))))
    · rw [hrest i hi] at ho'
      exact .inl ⟨o', ho', rfl⟩
  case newStatics n =>
    have hb := (exec_ok hx1).1
    simp only [HeapOp.body] at hb
    injection hb with hb; injection hb with hb1 hb2
    subst hb1 hb2
    simp only [newStatics, alloc, setObj_objs] at ho'
    split at ho'
    · rename_i hi
      cases ho'
      subst hi
      exact .inr (.inr (.inr (.inr (.inl ⟨n, .inr rfl, rfl, Nat.le_refl _, rfl⟩))))
    · exact .inl ⟨o', ho', rfl⟩
  case setVar a n v =>
    have hb := (outUnit_ok (exec_ok hx1).1).1
    rcases setVar_ok hb with ⟨_, rfl⟩ | ⟨x, o, vars, y, ha, ho, hk, hv, hl, rfl⟩
    · exact .inl ⟨o', ho', rfl⟩
    · simp only [setObj_objs] at ho'
      split at ho'
      · rename_i hix
        subst hix
        cases ho'
        exact .inr (.inr (.inr (.inr (.inr ⟨a, n, v, o, vars, y, rfl, (denote_iff hp).1 ha, ho, hk,
          (denote_iff hp).1 hv, hl, rfl⟩))))
      · exact .inl ⟨o', ho', rfl⟩

/-! ### The pending exception is a throwable -/

theorem pending_run {h h' : Heap} (hi : h.Inv) {t : Nat} {op : HeapOp} {out : Out}
    (hx : op.run h t = .ok (h', out))
    (hq : ∀ t e i, h.envs t = some e → e.pending = some i → ∃ o p, h.objs i = some o ∧
      o.kind = .throwable p) :
    ∀ t e i, h'.envs t = some e → e.pending = some i → ∃ o p, h'.objs i = some o ∧
      o.kind = .throwable p := by
  intro u e' i he' hpe
  have hi' := hi.run hx
  obtain ⟨o', ho'⟩ : h'.Live i := hi'.toPre.rootsEnv he' (.inr hpe)
  have keep : (∃ o p, h.objs i = some o ∧ o.kind = .throwable p) →
      ∃ o p, h'.objs i = some o ∧ o.kind = .throwable p := by
    rintro ⟨o, p, ho, hk⟩
    obtain ⟨o2, ho2, hs, _⟩ := (runStep hi.toPre hx).old i o' (hi.bound i o ho) ho'
    rw [ho] at ho2; cases ho2
    refine ⟨o', p, ho', ?_⟩
    rw [hk] at hs
    cases hk' : o'.kind <;> simp [hk', Kind.Same] at hs ⊢
    exact hs.symm
  by_cases hut : u = t
  · subst hut
    cases he : h.envs u with
    | none =>
      -- attaching makes an environment without exception
      obtain ⟨h1, hx1, rfl⟩ := run_ok hx
      obtain ⟨hb, hne⟩ := exec_ok hx1
      rw [collect_envs] at he'
      cases op <;> simp only [HeapOp.needsEnv, forall_const] at hne <;>
        first | (obtain ⟨e, h2⟩ := hne; rw [he] at h2; cases h2) | skip
      case attach =>
        simp only [HeapOp.body] at hb
        injection hb with hb; injection hb with hb _
        rw [← hb] at he'
        simp [attach, he, newEnv] at he'
        rw [← he'] at hpe; cases hpe
      case detach =>
        simp only [HeapOp.body] at hb
        injection hb with hb; injection hb with hb _
        rw [← hb] at he'
        simp [detach] at he'
    | some e =>
      by_cases hd : op = .detach
      · subst hd
        obtain ⟨h1, hx1, rfl⟩ := run_ok hx
        have hb := (exec_ok hx1).1
        simp only [HeapOp.body] at hb
        injection hb with hb; injection hb with hb _
        rw [collect_envs, ← hb] at he'
        simp [detach] at he'
      · obtain ⟨h1, hx1, rfl⟩ := run_ok hx
        obtain ⟨⟨e1, he1, _, _, hpend⟩, _⟩ := effect_exec hi.toPre he hx1 hd
        rw [collect_envs, he1] at he'
        cases he'
        cases op <;> simp only [PendingEffect] at hpend <;>
          try (exact keep (hq u e i he (hpend ▸ hpe)))
        case throw r =>
          rw [hpe] at hpend
          obtain ⟨_, o, ho, hk⟩ := cast_ok hpend
          apply keep
          cases hko : o.kind <;> simp [hko] at hk
          exact ⟨o, _, ho, hko⟩
        case raise p =>
          obtain ⟨h2, h3⟩ := hpend
          rw [hpe] at h2; cases h2
          rw [collect_sub ho'] at h3
          cases h3
          exact ⟨_, _, ho', rfl⟩
        case exceptionClear => rw [hpend] at hpe; cases hpe
  · rw [(runStep hi.toPre hx).others u hut] at he'
    exact keep (hq u e' i he' hpe)

/-- Environments are numbered in the order of their creation. -/
theorem run_nextEnv {h h' : Heap} (hp : h.Pre) {t : Nat} {op : HeapOp} {out : Out}
    (hx : op.run h t = .ok (h', out)) : h.nextEnv ≤ h'.nextEnv ∧ ∀ e', h'.envs t = some e' →
      (∃ e, h.envs t = some e ∧ e'.eid = e.eid) ∨ h.nextEnv ≤ e'.eid := by
  obtain ⟨h1, hx1, rfl⟩ := run_ok hx
  have hle : h.nextEnv ≤ h1.nextEnv := by
    cases hq : op.holds with
    | false => exact (quiet_exec hx1 hq).nextEnv
    | true =>
    cases op <;> simp only [HeapOp.holds, reduceCtorEq] at hq
    case newObjectArray n c init =>
      obtain ⟨r, hb, _⟩ := outRef_ok (exec_ok hx1).1
      exact (newObjectArray_ok hb).2.2.2.2.1
    case setObjectArrayElement a n v =>
      obtain ⟨x, o, slots, y, _, _, _, _, _, _, rfl⟩ :=
        setObjectArrayElement_ok (outUnit_ok (exec_ok hx1).1).1
      exact Nat.le_refl _
    case newRecord n c =>
      obtain ⟨r, hb, _⟩ := outRef_ok (exec_ok hx1).1
      exact Nat.le_of_eq (newRecord_ok hb).2.2.1.symm
    case newStatics n =>
      have hb := (exec_ok hx1).1
      simp only [HeapOp.body] at hb
      injection hb with hb; injection hb with hb1 hb2
      subst hb1
      exact Nat.le_refl _
    case setVar a n v =>
      rcases setVar_ok (outUnit_ok (exec_ok hx1).1).1 with ⟨_, rfl⟩ | ⟨x, o, vars, y, _, _, _, _, _, rfl⟩
      · exact Nat.le_refl _
      · exact Nat.le_refl _
  refine ⟨by simpa using hle, fun e' he' => ?_⟩
  rw [collect_envs] at he'
  cases he : h.envs t with
  | some e =>
    by_cases hd : op = .detach
    · subst hd
      have hb := (exec_ok hx1).1
      simp only [HeapOp.body] at hb
      injection hb with hb; injection hb with hb _
      rw [← hb] at he'
      simp [detach] at he'
    · obtain ⟨⟨e1, he1, heq, _⟩, _⟩ := effect_exec hp he hx1 hd
      rw [he1] at he'; cases he'
      exact .inl ⟨e, rfl, heq⟩
  | none =>
    obtain ⟨hb, hne⟩ := exec_ok hx1
    cases op <;> simp only [HeapOp.needsEnv, forall_const] at hne <;>
      first | (obtain ⟨e, h2⟩ := hne; rw [he] at h2; cases h2) | skip
    case attach =>
      simp only [HeapOp.body] at hb
      injection hb with hb; injection hb with hb _
      rw [← hb] at he'
      simp [attach, he, newEnv] at he'
      rw [← he']
      exact .inr (Nat.le_refl _)
    case detach =>
      simp only [HeapOp.body] at hb
      injection hb with hb; injection hb with hb _
      rw [← hb] at he'
      simp [detach] at he'

end Heap

theorem HeapReachable.pending {h : Heap} (hr : HeapReachable h) :
    ∀ t e i, h.envs t = some e → e.pending = some i → ∃ o p, h.objs i = some o ∧
      o.kind = .throwable p := by
  obtain ⟨ops, hx⟩ := hr
  refine Along.induct (P := fun _ _ _ => True)
    (Q := fun h => ∀ t e i, h.envs t = some e → e.pending = some i → ∃ o p, h.objs i = some o ∧
      o.kind = .throwable p)
    (fun h t op h' out hi hq _ hx => Heap.pending_run hi hx hq) Heap.initial_inv ?_ Along.trivial hx
  intro t e i he hp
  have h0 : ∀ u, u ≠ 0 → Heap.initial.envs u = none := by
    intro u hu
    have hpre := Heap.initial_inv.toPre
    cases hx : Heap.initial.envs u with
    | none => rfl
    | some e' =>
      have h1 := hpre.thread u e' hx
      have h2 : Heap.initial.nthreads = 1 := by decide +kernel
      omega
  by_cases ht : t = 0
  · subst ht
    have h1 : Heap.initial.envs 0 = some ⟨0, [[]], [], none⟩ := by decide +kernel
    rw [h1] at he; cases he; cases hp
  · rw [h0 t ht] at he; cases he

end Jnivm
