import Verif.Lemmas.HeapInv
/-!
The exact effect of every call on the frames and the pending exception of the calling thread and on
the list of global references.
-/
namespace Jnivm
namespace Heap

theorem setEnv_self (h : Heap) (t : Nat) (e : Env) : (h.setEnv t e).envs t = some e := by simp

/-- Append references to the innermost frame. -/
def addFront (l : List Nat) : List (List Nat) → List (List Nat)
  | [] => []
  | f :: fs => (f ++ l) :: fs

/-- Drop the innermost frame; the outermost one is replaced by an empty one. -/
def dropFront : List (List Nat) → List (List Nat)
  | [] => []
  | [_] => [[]]
  | _ :: fs => fs

theorem addFront_addFront (l m : List Nat) (fs : List (List Nat)) :
    addFront m (addFront l fs) = addFront (l ++ m) fs := by
  cases fs <;> simp [addFront]

theorem addFront_nil (fs : List (List Nat)) : addFront [] fs = fs := by
  cases fs <;> simp [addFront]

/-- Only local references are appended. -/
structure Pushed (t : Nat) (l : List Nat) (h h' : Heap) : Prop where
  env : ∀ e, h.envs t = some e → h'.envs t = some { e with frames := addFront l e.frames }
  globals : h'.globals = h.globals

theorem Pushed.refl (t : Nat) (h : Heap) : Pushed t [] h h :=
  ⟨fun e he => by rw [he, addFront_nil], rfl⟩

theorem Pushed.trans {t : Nat} {l m : List Nat} {a b c : Heap} (x : Pushed t l a b)
    (y : Pushed t m b c) : Pushed t (l ++ m) a c :=
  ⟨fun e he => by rw [y.env _ (x.env e he), addFront_addFront], y.globals.trans x.globals⟩

theorem Pushed.of_eq {t : Nat} {h h' : Heap} (h1 : h'.envs = h.envs) (h2 : h'.globals = h.globals) :
    Pushed t [] h h' := ⟨fun e he => by rw [h1, he, addFront_nil], h2⟩

theorem pushed_pushLocal {h h' : Heap} {t i : Nat} (hx : h.pushLocal t i = .ok h') :
    Pushed t [i] h h' := by
  obtain ⟨e, f, fs, he, hf, rfl⟩ := pushLocal_ok hx
  refine ⟨fun e1 he1 => ?_, rfl⟩
  rw [he] at he1; cases he1
  simp [addFront, hf]

theorem pushed_toJNI {h h' : Heap} {t i : Nat} {s : Option Nat} (hx : h.toJNI t s i = .ok h') :
    Pushed t [i] h h' := by
  simp only [toJNI] at hx
  split at hx
  · cases hx
  · rename_i o ho
    cases hc : o.cls.isNone with
    | true =>
      simp only [hc, if_true] at hx
      exact (Pushed.of_eq (h := h) (h' := h.setObj i { o with cls := s }) rfl rfl).trans (pushed_pushLocal hx)
    | false => simp only [hc] at hx; exact pushed_pushLocal hx

theorem pushed_toJNI? {h h' : Heap} {t : Nat} {s i r : Option Nat}
    (hx : h.toJNI? t s i = .ok (h', r)) : r = i ∧ Pushed t i.toList h h' := by
  cases i with
  | none => cases hx; exact ⟨rfl, Pushed.refl t h⟩
  | some i =>
    obtain ⟨h1, hx1, hx2⟩ := Res.bind_eq_ok.1 hx
    cases hx2; exact ⟨rfl, pushed_toJNI hx1⟩

theorem pushed_intern (h : Heap) (t : Nat) (n : Str) : Pushed t [] h (h.intern n).1 := by
  simp only [intern]; split
  · exact Pushed.refl t h
  · exact Pushed.of_eq rfl rfl

theorem intern_globals (h : Heap) (n : Str) : (h.intern n).1.globals = h.globals :=
  (pushed_intern h 0 n).globals

theorem pushed_newObject {h h' : Heap} {t : Nat} {ty : Option Str} {r : Option Nat}
    (hx : h.newObject t ty = .ok (h', r)) : r = some h.next ∧ Pushed t [h.next] h h' := by
  obtain ⟨h1, hx1, hx2⟩ := Res.bind_eq_ok.1 hx
  cases hx2
  exact ⟨rfl, (Pushed.of_eq (h := h) (h' := (h.alloc ⟨.made ty, none⟩).1) rfl rfl).trans (pushed_toJNI hx1)⟩

theorem pushed_returnObject {h h' : Heap} {t : Nat} {ty : Option Str} {o r : Option Nat}
    (hx : h.returnObject t o ty = .ok (h', r)) : h.denote o = .ok r ∧ Pushed t r.toList h h' := by
  obtain ⟨i, hx1, hx2⟩ := Res.bind_eq_ok.1 hx
  obtain ⟨rfl, hp⟩ := pushed_toJNI? hx2
  exact ⟨hx1, hp⟩

theorem pushed_findClass {h h' : Heap} {t : Nat} {n : Str} {r : Option Nat}
    (hx : h.findClass t n = .ok (h', r)) :
    r = some (h.intern n).2 ∧ Pushed t [(h.intern n).2] h h' := by
  obtain ⟨h1, hx1, hx2⟩ := Res.bind_eq_ok.1 hx
  cases hx2
  exact ⟨rfl, (pushed_intern h t n).trans (pushed_toJNI hx1)⟩

theorem pushed_newLocalRef {h h' : Heap} {t : Nat} {o r : Option Nat}
    (hx : h.newLocalRef t o = .ok (h', r)) : h.denote o = .ok r ∧ Pushed t r.toList h h' := by
  obtain ⟨d, hd, hx⟩ := Res.bind_eq_ok.1 hx
  cases d with
  | none => cases hx; exact ⟨hd, Pushed.refl t h⟩
  | some i =>
    obtain ⟨h1, hx1, hx2⟩ := Res.bind_eq_ok.1 hx
    cases hx2; exact ⟨hd, pushed_pushLocal hx1⟩

theorem pushed_getObjectClass {h h' : Heap} {t : Nat} {o r : Option Nat}
    (hx : h.getObjectClass t o = .ok (h', r)) : Pushed t r.toList h h' := by
  cases o with
  | none =>
    obtain ⟨rfl, hp⟩ := pushed_findClass hx
    exact hp
  | some o =>
    obtain ⟨d, hd, hx⟩ := Res.bind_eq_ok.1 hx
    cases d with
    | none => cases hx
    | some i =>
      simp only at hx
      cases ho : h.objs i with
      | none => simp [ho] at hx
      | some o =>
        simp only [ho] at hx
        obtain ⟨rfl, hp⟩ := pushed_toJNI? hx
        exact hp

theorem pushed_newObjectArray {h h' : Heap} {t : Nat} {len : Int} {n : Str}
    {init r : Option Nat} (hx : h.newObjectArray t len n init = .ok (h', r)) :
    Pushed t r.toList h h' := by
  simp only [Heap.newObjectArray] at hx
  split at hx
  · cases hx
  · split at hx
    · cases hx
    · obtain ⟨h1, hx1, hx2⟩ := Res.bind_eq_ok.1 hx
      cases hx2
      refine (pushed_intern h t n).trans ((Pushed.of_eq ?_ ?_).trans (pushed_toJNI hx1)) <;> rfl

theorem pushed_getObjectArrayElement {h h' : Heap} {t : Nat} {a r : Option Nat} {i : Int}
    (hx : h.getObjectArrayElement t a i = .ok (h', r)) : Pushed t r.toList h h' := by
  obtain ⟨x, _, hx⟩ := Res.bind_eq_ok.1 hx
  obtain ⟨n, _, hx⟩ := Res.bind_eq_ok.1 hx
  obtain ⟨rfl, hp⟩ := pushed_toJNI? hx
  exact hp

theorem pushed_newRecord {h h' : Heap} {t n : Nat} {ty : Option Str} {r : Option Nat}
    (hx : h.newRecord t n ty = .ok (h', r)) : r = some h.next ∧ Pushed t [h.next] h h' := by
  obtain ⟨h1, hx1, hx2⟩ := Res.bind_eq_ok.1 hx
  cases hx2
  exact ⟨rfl, (Pushed.of_eq (h := h)
    (h' := (h.alloc ⟨.record (List.replicate n none), none⟩).1) rfl rfl).trans (pushed_toJNI hx1)⟩

theorem pushed_newCopy {h h' : Heap} {t : Nat} {k : Option Nat} {ty : Option Str} {r : Option Nat}
    (hx : h.newCopy t k ty = .ok (h', r)) : r = some h.next ∧ Pushed t [h.next] h h' := by
  obtain ⟨hr, _, hx1⟩ := newCopy_ok hx
  exact ⟨hr, (Pushed.of_eq (h := h) (h' := (h.alloc ⟨.plain, k⟩).1) rfl rfl).trans (pushed_toJNI hx1)⟩

theorem pushed_getVar {h h' : Heap} {t i : Nat} {a r : Option Nat}
    {ty : Option Str} (hx : h.getVar t a i ty = .ok (h', r)) : Pushed t r.toList h h' := by
  obtain ⟨x, _, hx⟩ := Res.bind_eq_ok.1 hx
  obtain ⟨rfl, hp⟩ := pushed_toJNI? hx
  exact hp

theorem pushed_toReflected {h h' : Heap} {t : Nat} {m s : Bool} {c i r : Option Nat}
    (hx : h.toReflected t m c i s = .ok (h', r)) : Pushed t r.toList h h' := by
  simp only [Heap.toReflected] at hx
  split at hx
  · split at hx
    · cases hx
    · generalize (if m = true then Kind.method s else Kind.field s) = k at hx
      split at hx
      · exact (pushed_newLocalRef hx).2
      · cases hx; exact Pushed.refl t h
  · cases hx; exact Pushed.refl t h

theorem pushed_fromReflected {h h' : Heap} {t : Nat} {m : Bool} {o r : Option Nat}
    (hx : h.fromReflected t m o = .ok (h', r)) : ∃ l, Pushed t l h h' := by
  cases o with
  | none => cases hx; exact ⟨[], Pushed.refl t h⟩
  | some o =>
    obtain ⟨⟨h1, c⟩, hx1, hx⟩ := Res.bind_eq_ok.1 hx
    obtain ⟨⟨h2, d⟩, hx2, hx⟩ := Res.bind_eq_ok.1 hx
    obtain ⟨b, hx3, hx⟩ := Res.bind_eq_ok.1 hx
    cases hx
    exact ⟨_, (pushed_getObjectClass hx1).trans (pushed_findClass hx2).2⟩

/-- The effect on the frames of the calling thread. -/
def FrameEffect (h : Heap) (e : Env) (fs' : List (List Nat)) (out : Out) : HeapOp → Prop
  | .pushLocalFrame => fs' = [] :: e.frames
  | .popLocalFrame r => ∃ x, h.denote r = .ok x ∧
      fs' = addFront x.toList (dropFront e.frames) ∧
      out = .ref (if x.isSome then x else r)
  | .deleteLocalRef r => ∃ x, h.denote r = .ok x ∧
      fs' = match x with | none => e.frames | some i => eraseLocal i e.frames
  | .detach => False
  | .newGlobalRef _ | .newWeakGlobalRef _ | .newMember _ _ | .newStatics _ | .classObject _ =>
    fs' = e.frames
  | .fromReflected _ _ => ∃ l, fs' = addFront l e.frames
  | _ => fs' = addFront (match out with | .ref (some i) => [i] | _ => []) e.frames

/-- The effect on the pending exception of the calling thread. -/
def PendingEffect (h h' : Heap) (e : Env) (p' : Option Nat) : HeapOp → Prop
  | .throw r => h.cast (fun k => match k with | .throwable _ => true | _ => false) r = .ok p'
  | .raise x => p' = some h.next ∧ h'.objs h.next = some ⟨.throwable (some x), none⟩
  | .exceptionClear => p' = none
  | .detach => False
  | _ => p' = e.pending

/-- The effect on the list of global references. -/
def GlobalEffect (h h' : Heap) (out : Out) : HeapOp → Prop
  | .newGlobalRef r => ∃ x, h.denote r = .ok x ∧ match x with
      | none => out = .ref none ∧ h' = h
      | some i => ∃ g, out = .ref (some g) ∧ h'.globals = h.globals ++ [g] ∧ h.next ≤ g ∧
          ∃ o, h'.objs g = some o ∧ o.kind = .global i
  | .newWeakGlobalRef r => ∃ x, h.denote r = .ok x ∧ match x with
      | none => out = .ref none ∧ h' = h
      | some i => ∃ g, out = .ref (some g) ∧ h'.globals = h.globals ++ [g] ∧ h.next ≤ g ∧
          ∃ o, h'.objs g = some o ∧ o.kind = .weak i
  | .deleteGlobalRef r => match r with
      | none => h' = h
      | some g => (∃ o i, h.objs g = some o ∧ o.kind = .global i) ∧ h'.globals = h.globals.erase g
  | .deleteWeakGlobalRef r => match r with
      | none => h' = h
      | some g => (∃ o i, h.objs g = some o ∧ o.kind = .weak i) ∧ h'.globals = h.globals.erase g
  | _ => h'.globals = h.globals

theorem castWrapper_ok {h : Heap} {p : Kind → Bool} {r x : Option Nat}
    (hx : h.castWrapper p r = .ok x) :
    x = r ∧ ∀ i, r = some i → ∃ o, h.objs i = some o ∧ p o.kind = true := by
  cases r with
  | none => cases hx; simp
  | some i =>
    simp only [castWrapper] at hx
    cases ho : h.objs i with
    | none => simp [ho] at hx
    | some o =>
      simp only [ho] at hx
      split at hx
      · cases hx; refine ⟨rfl, fun j hj => ?_⟩; cases hj; exact ⟨o, ho, by assumption⟩
      · cases hx

theorem intern_next_le (h : Heap) (n : Str) : h.next ≤ (h.intern n).1.next := by
  simp only [intern]; split <;> simp

/-- The heap with a new reference object. -/
def addWrapper (h : Heap) (n : Str) (k : Kind) : Heap :=
  { ((h.intern n).1.alloc ⟨k, some (h.intern n).2⟩).1 with
    globals := (h.intern n).1.globals ++ [(h.intern n).1.next] }

theorem newGlobalRef_some {h : Heap} {o : Option Nat} {i : Nat} (hd : h.denote o = .ok (some i)) :
    h.newGlobalRef o = .ok (h.addWrapper "internal/lang/Global".toList (.global i),
      some (h.intern "internal/lang/Global".toList).1.next) := by
  rw [newGlobalRef, hd]; rfl

theorem newWeakGlobalRef_some {h : Heap} {o : Option Nat} {i : Nat}
    (hd : h.denote o = .ok (some i)) :
    h.newWeakGlobalRef o = .ok (h.addWrapper "java/lang/ref/WeakReference".toList (.weak i),
      some (h.intern "java/lang/ref/WeakReference".toList).1.next) := by
  rw [newWeakGlobalRef, hd]; rfl

theorem intern_envs (h : Heap) (n : Str) : (h.intern n).1.envs = h.envs := by
  simp only [intern]; split <;> rfl

theorem effect_exec {h h' : Heap} (hp : h.Pre) {t : Nat} {e : Env} (he : h.envs t = some e) {op : HeapOp} {out : Out}
    (hx : op.exec h t = .ok (h', out)) (hd : op ≠ .detach) :
    (∃ e', h'.envs t = some e' ∧ e'.eid = e.eid ∧ FrameEffect h e e'.frames out op ∧
      PendingEffect h h' e e'.pending op) ∧ GlobalEffect h h' out op := by
  have pushed : ∀ {l}, Pushed t l h h' → ∃ e', h'.envs t = some e' ∧ e'.eid = e.eid ∧
      e'.frames = addFront l e.frames ∧ e'.pending = e.pending := fun hp =>
    ⟨_, hp.env e he, rfl, rfl, rfl⟩
  have tol : ∀ r : Option Nat,
      (match (Out.ref r) with | .ref (some i) => [i] | _ => ([] : List Nat)) = r.toList := by
    intro r; cases r <;> rfl
  have same : h' = h → ∃ e', h'.envs t = some e' ∧ e'.eid = e.eid ∧
      e'.frames = addFront [] e.frames ∧ e'.pending = e.pending := by
    intro hh
    exact ⟨e, by rw [hh, he], rfl, (addFront_nil _).symm, rfl⟩
  replace hx := (exec_ok hx).1
  cases op <;> simp only [HeapOp.body] at hx
  case newObject =>
    replace hx := outRef_ok hx
    obtain ⟨r, hx, rfl⟩ := hx
    obtain ⟨rfl, hp⟩ := pushed_newObject hx
    exact ⟨pushed hp, hp.globals⟩
  case returnObject =>
    replace hx := outRef_ok hx
    obtain ⟨r, hx, rfl⟩ := hx
    obtain ⟨_, hp⟩ := pushed_returnObject hx
    refine ⟨?_, hp.globals⟩
    simp only [FrameEffect, PendingEffect, tol]
    exact pushed hp
  case findClass =>
    replace hx := outRef_ok hx
    obtain ⟨r, hx, rfl⟩ := hx
    obtain ⟨rfl, hp⟩ := pushed_findClass hx
    exact ⟨pushed hp, hp.globals⟩
  case newMember =>
    cases hx
    exact ⟨⟨e, he, rfl, rfl, rfl⟩, rfl⟩
  case pushLocalFrame =>
    replace hx := outUnit_ok hx
    obtain ⟨hx, rfl⟩ := hx
    obtain ⟨e1, he1, hx⟩ := Res.bind_eq_ok.1 hx
    have he1 := env_ok.1 he1
    rw [he] at he1; cases he1
    cases hf : e.free with
    | nil =>
      simp only [hf] at hx; cases hx
      exact ⟨⟨_, setEnv_self .., rfl, rfl, rfl⟩, rfl⟩
    | cons f fs =>
      have hnil : f = [] := hp.free t e he f (by simp [hf])
      subst hnil
      simp only [hf] at hx; cases hx
      exact ⟨⟨_, setEnv_self .., rfl, rfl, rfl⟩, rfl⟩
  case popLocalFrame res =>
    replace hx := outRef_ok hx
    obtain ⟨r, hx, rfl⟩ := hx
    obtain ⟨e1, he1, hx⟩ := Res.bind_eq_ok.1 hx
    obtain ⟨x, hd, hx⟩ := Res.bind_eq_ok.1 hx
    have he1 := env_ok.1 he1
    rw [he] at he1; cases he1
    cases hf : e.frames with
    | nil => simp [hf] at hx
    | cons f fs =>
      have hdrop : (if fs.isEmpty then [[]] else fs) = dropFront (f :: fs) := by
        cases fs <;> simp [dropFront]
      simp only [hf, hdrop] at hx
      cases x with
      | none =>
        cases hx
        refine ⟨⟨_, setEnv_self .., rfl, ⟨none, hd, ?_, rfl⟩, rfl⟩, rfl⟩
        simp [addFront_nil, hf]
      | some i =>
        obtain ⟨h1, hx1, hx2⟩ := Res.bind_eq_ok.1 hx
        cases hx2
        have hp2 := pushed_toJNI hx1
        refine ⟨⟨_, hp2.env _ (setEnv_self ..), rfl, ⟨some i, hd, ?_, rfl⟩, rfl⟩, hp2.globals⟩
        simp [hf]
  case newGlobalRef o =>
    replace hx := outRef_ok hx
    obtain ⟨r, hx, rfl⟩ := hx
    cases hdo : h.denote o with
    | ok x =>
      cases x with
      | none =>
        simp only [Heap.newGlobalRef, hdo, Res.bind_ok] at hx
        cases hx; exact ⟨⟨e, he, rfl, rfl, rfl⟩, none, hdo, rfl, rfl⟩
      | some i =>
        rw [newGlobalRef_some hdo] at hx
        injection hx with hx
        injection hx with h1 h2
        subst h1 h2
        refine ⟨⟨e, ?_, rfl, rfl, rfl⟩, some i, hdo, _, rfl, ?_, intern_next_le h _,
          ⟨.global i, some (h.intern "internal/lang/Global".toList).2⟩, ?_, rfl⟩
        · simp only [addWrapper, alloc_envs, intern_envs, he]
        · simp only [addWrapper, intern_globals]
        · simp only [addWrapper, alloc_objs, if_true]
    | _ => simp [Heap.newGlobalRef, hdo, Res.bind] at hx
  case newWeakGlobalRef o =>
    replace hx := outRef_ok hx
    obtain ⟨r, hx, rfl⟩ := hx
    cases hdo : h.denote o with
    | ok x =>
      cases x with
      | none =>
        simp only [Heap.newWeakGlobalRef, hdo, Res.bind_ok] at hx
        cases hx; exact ⟨⟨e, he, rfl, rfl, rfl⟩, none, hdo, rfl, rfl⟩
      | some i =>
        rw [newWeakGlobalRef_some hdo] at hx
        injection hx with hx
        injection hx with h1 h2
        subst h1 h2
        refine ⟨⟨e, ?_, rfl, rfl, rfl⟩, some i, hdo, _, rfl, ?_, intern_next_le h _,
          ⟨.weak i, some (h.intern "java/lang/ref/WeakReference".toList).2⟩, ?_, rfl⟩
        · simp only [addWrapper, alloc_envs, intern_envs, he]
        · simp only [addWrapper, intern_globals]
        · simp only [addWrapper, alloc_objs, if_true]
    | _ => simp [Heap.newWeakGlobalRef, hdo, Res.bind] at hx
  case deleteGlobalRef o =>
    replace hx := outUnit_ok hx
    obtain ⟨hx, rfl⟩ := hx
    replace hx := Res.bind_eq_ok.1 hx
    obtain ⟨x, hd, hx⟩ := hx
    obtain ⟨rfl, hk⟩ := castWrapper_ok hd
    cases x with
    | none => cases hx; exact ⟨same rfl, rfl⟩
    | some g =>
      cases hx
      refine ⟨⟨e, he, rfl, (addFront_nil _).symm, rfl⟩, ?_, rfl⟩
      obtain ⟨o, ho, hk⟩ := hk g rfl
      cases hko : o.kind <;> simp [hko] at hk
      exact ⟨o, _, ho, hko⟩
  case deleteWeakGlobalRef o =>
    replace hx := outUnit_ok hx
    obtain ⟨hx, rfl⟩ := hx
    replace hx := Res.bind_eq_ok.1 hx
    obtain ⟨x, hd, hx⟩ := hx
    obtain ⟨rfl, hk⟩ := castWrapper_ok hd
    cases x with
    | none => cases hx; exact ⟨same rfl, rfl⟩
    | some g =>
      cases hx
      refine ⟨⟨e, he, rfl, (addFront_nil _).symm, rfl⟩, ?_, rfl⟩
      obtain ⟨o, ho, hk⟩ := hk g rfl
      cases hko : o.kind <;> simp [hko] at hk
      exact ⟨o, _, ho, hko⟩
  case deleteLocalRef o =>
    replace hx := outUnit_ok hx
    obtain ⟨hx, rfl⟩ := hx
    obtain ⟨e1, he1, hx⟩ := Res.bind_eq_ok.1 hx
    obtain ⟨x, hd, hx⟩ := Res.bind_eq_ok.1 hx
    have he1 := env_ok.1 he1
    rw [he] at he1; cases he1
    cases x with
    | none => cases hx; exact ⟨⟨e, he, rfl, ⟨none, hd, rfl⟩, rfl⟩, rfl⟩
    | some i => cases hx; exact ⟨⟨_, setEnv_self .., rfl, ⟨some i, hd, rfl⟩, rfl⟩, rfl⟩
  case newLocalRef =>
    replace hx := outRef_ok hx
    obtain ⟨r, hx, rfl⟩ := hx
    obtain ⟨_, hp⟩ := pushed_newLocalRef hx
    refine ⟨?_, hp.globals⟩
    simp only [FrameEffect, PendingEffect, tol]
    exact pushed hp
  case isSameObject =>
    replace hx := outBool_ok hx
    obtain ⟨b, _, rfl, rfl⟩ := hx
    exact ⟨same rfl, rfl⟩
  case getObjectRefType =>
    obtain ⟨k, _, hx⟩ := Res.bind_eq_ok.1 hx
    cases hx; exact ⟨same rfl, rfl⟩
  case getObjectClass =>
    replace hx := outRef_ok hx
    obtain ⟨r, hx, rfl⟩ := hx
    have hp := pushed_getObjectClass hx
    refine ⟨?_, hp.globals⟩
    simp only [FrameEffect, PendingEffect, tol]
    exact pushed hp
  case newObjectArray =>
    replace hx := outRef_ok hx
    obtain ⟨r, hx, rfl⟩ := hx
    have hp := pushed_newObjectArray hx
    refine ⟨?_, hp.globals⟩
    simp only [FrameEffect, PendingEffect, tol]
    exact pushed hp
  case getObjectArrayElement =>
    replace hx := outRef_ok hx
    obtain ⟨r, hx, rfl⟩ := hx
    have hp := pushed_getObjectArrayElement hx
    refine ⟨?_, hp.globals⟩
    simp only [FrameEffect, PendingEffect, tol]
    exact pushed hp
  case setObjectArrayElement =>
    replace hx := outUnit_ok hx
    obtain ⟨hx, rfl⟩ := hx
    obtain ⟨x, _, hx⟩ := Res.bind_eq_ok.1 hx
    obtain ⟨d, _, hx⟩ := Res.bind_eq_ok.1 hx
    obtain ⟨n, _, hx⟩ := Res.bind_eq_ok.1 hx
    cases hx
    exact ⟨⟨e, he, rfl, (addFront_nil _).symm, rfl⟩, rfl⟩
  case newRecord =>
    replace hx := outRef_ok hx
    obtain ⟨r, hx, rfl⟩ := hx
    obtain ⟨rfl, hp⟩ := pushed_newRecord hx
    exact ⟨pushed hp, hp.globals⟩
  case newCopy =>
    replace hx := outRef_ok hx
    obtain ⟨r, hx, rfl⟩ := hx
    obtain ⟨rfl, hp⟩ := pushed_newCopy hx
    exact ⟨pushed hp, hp.globals⟩
  case newStatics =>
    cases hx
    exact ⟨⟨e, he, rfl, rfl, rfl⟩, rfl⟩
  case classObject =>
    cases hx
    exact ⟨⟨e, by rw [intern_envs]; exact he, rfl, rfl, rfl⟩, intern_globals h _⟩
  case getVar =>
    replace hx := outRef_ok hx
    obtain ⟨r, hx, rfl⟩ := hx
    have hp := pushed_getVar hx
    refine ⟨?_, hp.globals⟩
    simp only [FrameEffect, PendingEffect, tol]
    exact pushed hp
  case setVar a i v =>
    replace hx := outUnit_ok hx
    obtain ⟨hx, rfl⟩ := hx
    cases a with
    | none => cases hx; exact ⟨same rfl, rfl⟩
    | some a =>
      obtain ⟨x, _, hx⟩ := Res.bind_eq_ok.1 hx
      obtain ⟨d, _, hx⟩ := Res.bind_eq_ok.1 hx
      cases hx
      exact ⟨⟨e, he, rfl, (addFront_nil _).symm, rfl⟩, rfl⟩
  case throw =>
    replace hx := outUnit_ok hx
    obtain ⟨hx, rfl⟩ := hx
    obtain ⟨e1, he1, hx⟩ := Res.bind_eq_ok.1 hx
    obtain ⟨x, hd, hx⟩ := Res.bind_eq_ok.1 hx
    have he1 := env_ok.1 he1
    rw [he] at he1; cases he1
    cases hx
    exact ⟨⟨_, setEnv_self .., rfl, (addFront_nil _).symm, hd⟩, rfl⟩
  case raise =>
    replace hx := outUnit_ok hx
    obtain ⟨hx, rfl⟩ := hx
    obtain ⟨e1, he1, hx⟩ := Res.bind_eq_ok.1 hx
    have he1 : h.envs t = some e1 := env_ok.1 he1
    rw [he] at he1; cases he1
    cases hx
    exact ⟨⟨_, setEnv_self .., rfl, (addFront_nil _).symm, rfl, by simp⟩, rfl⟩
  case exceptionOccurred =>
    replace hx := outRef_ok hx
    obtain ⟨r, hx, rfl⟩ := hx
    obtain ⟨e1, he1, hx⟩ := Res.bind_eq_ok.1 hx
    obtain ⟨rfl, hp⟩ := pushed_toJNI? hx
    refine ⟨?_, hp.globals⟩
    simp only [FrameEffect, PendingEffect, tol]
    exact pushed hp
  case exceptionClear =>
    replace hx := outUnit_ok hx
    obtain ⟨hx, rfl⟩ := hx
    obtain ⟨e1, he1, hx⟩ := Res.bind_eq_ok.1 hx
    have he1 : h.envs t = some e1 := env_ok.1 he1
    rw [he] at he1; cases he1
    cases hx
    exact ⟨⟨_, setEnv_self .., rfl, (addFront_nil _).symm, rfl⟩, rfl⟩
  case exceptionCheck =>
    replace hx := outBool_ok hx
    obtain ⟨b, _, rfl, rfl⟩ := hx
    exact ⟨same rfl, rfl⟩
  case toReflected =>
    replace hx := outRef_ok hx
    obtain ⟨r, hx, rfl⟩ := hx
    have hp := pushed_toReflected hx
    refine ⟨?_, hp.globals⟩
    simp only [FrameEffect, PendingEffect, tol]
    exact pushed hp
  case fromReflected =>
    replace hx := outRef_ok hx
    obtain ⟨r, hx, rfl⟩ := hx
    obtain ⟨l, hp⟩ := pushed_fromReflected hx
    obtain ⟨e', h1, h2, h3, h4⟩ := pushed hp
    exact ⟨⟨e', h1, h2, ⟨l, h3⟩, h4⟩, hp.globals⟩
  case attach =>
    simp only [Heap.attach, he] at hx
    cases hx
    exact ⟨same rfl, rfl⟩
  case detach => exact absurd rfl hd

end Heap
end Jnivm
