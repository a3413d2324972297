import Verif.Lemmas.HeapObjs
/-!
The kinds of returned references, and when a call has defined behaviour.
-/
namespace Jnivm
open Spec
namespace Heap

/-- No array and no variable holds a reference object. -/
def PlainSlots (h : Heap) : Prop :=
  ∀ i o slots j, h.objs i = some o → o.kind = .array slots ∨ o.kind = .record slots → some j ∈ slots →
    ∃ oj, h.objs j = some oj ∧ oj.kind.isWrapper = false

theorem old_plain {h h' : Heap} (hi : h.Inv) {t : Nat} {op : HeapOp} {out : Out}
    (hx : op.run h t = .ok (h', out)) {i : Nat} {o o' : Obj} (ho : h.objs i = some o)
    (hw : o.kind.isWrapper = false) (ho' : h'.objs i = some o') : o'.kind.isWrapper = false := by
  obtain ⟨o2, ho2, hs, _⟩ := (runStep hi.toPre hx).old i o' (hi.bound i o ho) ho'
  rw [ho] at ho2; cases ho2
  rw [hs.wrapper, hw]

theorem plainSlots_run {h h' : Heap} (hi : h.Inv) {t : Nat} {op : HeapOp} {out : Out}
    (hx : op.run h t = .ok (h', out)) (hq : h.PlainSlots) (hpl : PlainInit h op) :
    h'.PlainSlots := by
  intro i o' slots j ho' hk hj
  obtain ⟨oj', hoj'⟩ : h'.Live j := (hi.run hx).edges i j ⟨o', ho', by
    rcases hk with hk | hk <;> simp [hk, Kind.edges, hj]⟩
  refine ⟨oj', hoj', ?_⟩
  rcases kinds_run hi.toPre hx ho' with ⟨o, ho, hko⟩ | ⟨_, hna, _⟩ |
      ⟨n, c, init, rfl, _, _, hka⟩ | ⟨a, n, v, o, s, y, rfl, _, ho, hko, hy, _, _, hka⟩ |
      ⟨n, _, _, _, hka⟩ | ⟨a, n, v, o, s, y, rfl, _, ho, hko, hy, _, hka⟩
  · obtain ⟨oj, hoj, hw⟩ := hq i o slots j ho (hko ▸ hk) hj
    exact old_plain hi hx hoj hw hoj'
  · rcases hk with hk | hk
    · exact absurd hk (hna.1 slots)
    · exact absurd hk (hna.2 slots)
  · rw [hka] at hk
    rcases hk with hk | hk <;> cases hk
    have := (List.mem_replicate.1 hj).2
    subst this
    obtain ⟨oj, hoj, hw⟩ := denote_ok hi.toPre ((denote_iff hi.toPre).2 hpl)
    exact old_plain hi hx hoj hw hoj'
  · rw [hka] at hk
    rcases hk with hk | hk <;> cases hk
    rcases List.mem_or_eq_of_mem_set hj with hj | hj
    · obtain ⟨oj, hoj, hw⟩ := hq i o s j ho (.inl hko) hj
      exact old_plain hi hx hoj hw hoj'
    · subst hj
      obtain ⟨oj, hoj, hw⟩ := denote_ok hi.toPre ((denote_iff hi.toPre).2 hy)
      exact old_plain hi hx hoj hw hoj'
  · rw [hka] at hk
    rcases hk with hk | hk <;> cases hk
    cases (List.mem_replicate.1 hj).2
  · rw [hka] at hk
    rcases hk with hk | hk <;> cases hk
    rcases List.mem_or_eq_of_mem_set hj with hj | hj
    · obtain ⟨oj, hoj, hw⟩ := hq i o s j ho (.inr hko) hj
      exact old_plain hi hx hoj hw hoj'
    · subst hj
      obtain ⟨oj, hoj, hw⟩ := denote_ok hi.toPre ((denote_iff hi.toPre).2 hy)
      exact old_plain hi hx hoj hw hoj'

theorem initial_kinds {i : Nat} {o : Obj} (ho : Heap.initial.objs i = some o) : ∃ n, o.kind = .cls n := by
  have h1 : Heap.initial.next = 9 := by decide +kernel
  have hi : i < 9 := h1 ▸ Heap.initial_inv.bound i o ho
  have h2 : ∀ i < 9, ((Heap.initial.objs i).all fun o => match o.kind with | .cls _ => true | _ => false) = true := by decide +kernel
  have h3 := h2 i hi
  simp only [ho, Option.all_some] at h3
  split at h3
  · exact ⟨_, by assumption⟩
  · cases h3

theorem plainSlots_initial : Heap.initial.PlainSlots := by
  intro i o slots j ho hk _
  obtain ⟨n, h3⟩ := initial_kinds ho
  rcases hk with hk | hk <;> (rw [hk] at h3; cases h3)

theorem intern_kind {h : Heap} (hp : h.Pre) (t : Nat) (n : Str) :
    ∃ o, (h.intern n).1.objs (h.intern n).2 = some o ∧ o.kind = .cls n :=
  let ⟨s, _, hl⟩ := hp.intern t n
  (s.pre.classes n _ (lookup_mem hl)).2

theorem findClass_ok {h h' : Heap} {t : Nat} {n : Str} {r : Option Nat}
    (hx : h.findClass t n = .ok (h', r)) : r = some (h.intern n).2 ∧
      (h.intern n).1.toJNI t ((h.intern n).1.typeClass "java/lang/Class".toList) (h.intern n).2
        = .ok h' := by
  have heq : h.findClass t n = ((h.intern n).1.toJNI t
      ((h.intern n).1.typeClass "java/lang/Class".toList) (h.intern n).2).bind
        fun h1 => .ok (h1, some (h.intern n).2) := rfl
  rw [heq] at hx
  generalize h.intern n = x at hx ⊢
  obtain ⟨h1, hx1, hx2⟩ := Res.bind_eq_ok.1 hx
  cases hx2
  exact ⟨rfl, hx1⟩

/-- The object behind a returned local reference, inside the call. -/
theorem local_body {h h' : Heap} (hi : h.Inv) (hps : h.PlainSlots)
    (hpe : ∀ t e i, h.envs t = some e → e.pending = some i → ∃ o p, h.objs i = some o ∧
      o.kind = .throwable p)
    {t i : Nat} {op : HeapOp} (hc : CreatesLocal op) (hnc : ∀ r, op = .popLocalFrame r → NotCleared h r)
    (hx : op.exec h t = .ok (h', .ref (some i))) :
    ∃ o, h'.objs i = some o ∧ o.kind.isWrapper = false := by
  have hp := hi.toPre
  have st := step_exec hp hx
  have hb := (exec_ok hx).1
  have old : (∃ o, h.objs i = some o ∧ o.kind.isWrapper = false) →
      ∃ o, h'.objs i = some o ∧ o.kind.isWrapper = false := by
    rintro ⟨o, ho, hw⟩
    obtain ⟨o', ho', hs, _⟩ := st.live i o ho
    exact ⟨o', ho', by rw [hs.wrapper, hw]⟩
  have find : ∀ {n : Str} {r : Option Nat}, h.findClass t n = .ok (h', r) → r = some i →
      ∃ o, h'.objs i = some o ∧ o.kind.isWrapper = false := by
    intro n r hf hr
    subst hr
    obtain ⟨hr, hx1⟩ := findClass_ok hf
    injection hr with hr
    subst hr
    obtain ⟨o, ho, hk⟩ := intern_kind hp t n
    obtain ⟨o2, ho2, _, _, ho'⟩ := toJNI_ok hx1
    rw [ho] at ho2; cases ho2
    exact ⟨_, ho', by split <;> simp [hk, Kind.isWrapper]⟩
  cases op with
  | newObject ty =>
    obtain ⟨r, hb, hr⟩ := outRef_ok hb
    cases hr
    obtain ⟨h1, hx1, hx2⟩ := Res.bind_eq_ok.1 hb
    injection hx2 with hx2; injection hx2 with hx2 hx3; injection hx3 with hx3
    subst hx2; subst hx3
    obtain ⟨o2, ho2, _, _, ho'⟩ := toJNI_ok hx1
    simp at ho2
    subst ho2
    exact ⟨_, ho', by simp only [Option.isNone_none, if_true]; exact made_wrapper ty⟩
  | returnObject o ty =>
    obtain ⟨r, hb, hr⟩ := outRef_ok hb
    cases hr
    exact old (denote_ok hp (pushed_returnObject hb).1)
  | findClass n =>
    obtain ⟨r, hb, hr⟩ := outRef_ok hb
    cases hr
    exact find hb rfl
  | popLocalFrame r =>
    obtain ⟨e, he⟩ := (exec_ok hx).2 rfl
    obtain ⟨⟨e', _, _, heff, _⟩, _⟩ := effect_exec hp he hx (by simp)
    obtain ⟨x, hd, _, ho⟩ := heff
    cases x with
    | none =>
      have := hnc r rfl ((denote_iff hp).1 hd)
      subst this
      simp at ho
    | some j =>
      simp at ho
      subst ho
      exact old (denote_ok hp hd)
  | newLocalRef o =>
    obtain ⟨r, hb, hr⟩ := outRef_ok hb
    cases hr
    exact old (denote_ok hp (pushed_newLocalRef hb).1)
  | getObjectClass o =>
    obtain ⟨r, hb, hr⟩ := outRef_ok hb
    cases hr
    cases o with
    | none => exact find hb rfl
    | some q =>
      obtain ⟨x, hd, hb⟩ := Res.bind_eq_ok.1 hb
      cases x with
      | none => cases hb
      | some j =>
        cases hoj : h.objs j with
        | none => simp [hoj] at hb
        | some oj =>
          simp only [hoj] at hb
          have hr := (pushed_toJNI? hb).1
          obtain ⟨n, hn⟩ := hp.cls j oj i hoj hr.symm
          obtain ⟨_, o, ho, hk⟩ := hp.classes n i hn
          exact old ⟨o, ho, by simp [hk, Kind.isWrapper]⟩
  | newObjectArray n c init =>
    obtain ⟨r, hb, hr⟩ := outRef_ok hb
    cases hr
    obtain ⟨_, hr, _, _, _, ⟨o, ho, hk⟩, _⟩ := newObjectArray_ok hb
    injection hr with hr
    subst hr
    exact ⟨o, ho, by simp [hk, Kind.isWrapper]⟩
  | getObjectArrayElement a n =>
    obtain ⟨r, hb, hr⟩ := outRef_ok hb
    cases hr
    obtain ⟨⟨x, o, slots⟩, ha, hb⟩ := Res.bind_eq_ok.1 hb
    obtain ⟨m, hm, hb⟩ := Res.bind_eq_ok.1 hb
    have hr := (pushed_toJNI? hb).1
    obtain ⟨_, ho, hk⟩ := arrayOf_ok ha
    refine old (hps x o slots i ho (.inl hk) ?_)
    have hlt := (slotIndex_ok hm).2
    rw [List.getD_eq_getElem?_getD] at hr
    simp only [List.getElem?_eq_getElem hlt, Option.getD_some] at hr
    rw [hr]
    exact List.getElem_mem hlt
  | newCopy k ty =>
    obtain ⟨r, hb, hr⟩ := outRef_ok hb
    cases hr
    obtain ⟨hr, _, hx1⟩ := newCopy_ok hb
    injection hr with hr
    subst hr
    obtain ⟨o2, ho2, _, _, ho'⟩ := toJNI_ok hx1
    simp at ho2
    subst ho2
    refine ⟨_, ho', ?_⟩
    split <;> rfl
  | newRecord n c =>
    obtain ⟨r, hb, hr⟩ := outRef_ok hb
    cases hr
    obtain ⟨hr, _, _, ⟨o, ho, hk⟩, _⟩ := newRecord_ok hb
    injection hr with hr
    subst hr
    exact ⟨o, ho, by simp [hk, Kind.isWrapper]⟩
  | getVar a n c =>
    obtain ⟨r, hb, hr⟩ := outRef_ok hb
    cases hr
    obtain ⟨⟨x, o, vars⟩, ha, hb⟩ := Res.bind_eq_ok.1 hb
    have hr := (pushed_toJNI? hb).1
    obtain ⟨_, ho, hk, hlt⟩ := recordOf_ok ha
    refine old (hps x o vars i ho (.inr hk) ?_)
    dsimp only at hlt
    rw [List.getD_eq_getElem?_getD] at hr
    simp only [List.getElem?_eq_getElem hlt, Option.getD_some] at hr
    rw [hr]
    exact List.getElem_mem hlt
  | exceptionOccurred =>
    obtain ⟨r, hb, hr⟩ := outRef_ok hb
    cases hr
    obtain ⟨e, he, hb⟩ := Res.bind_eq_ok.1 hb
    have hr := (pushed_toJNI? hb).1
    obtain ⟨o, p, ho, hk⟩ := hpe t e i (env_ok.1 he) hr.symm
    exact old ⟨o, ho, by simp [hk, Kind.isWrapper]⟩
  | toReflected m c id s =>
    obtain ⟨r, hb, hr⟩ := outRef_ok hb
    cases hr
    cases c with
    | none => simp [toReflected] at hb
    | some c =>
      cases id with
      | none => simp [toReflected] at hb
      | some id =>
        simp only [toReflected] at hb
        cases ho : h.objs id with
        | none => simp [ho] at hb
        | some o =>
          simp only [ho] at hb
          generalize (if m = true then Kind.method s else Kind.field s) = k at hb
          by_cases hok : o.kind = k
          · rw [if_pos hok] at hb
            exact old (denote_ok hp (pushed_newLocalRef hb).1)
          · rw [if_neg hok] at hb; cases hb
  | _ => exact hc.elim

/-- A returned local reference is a local reference. -/
theorem local_pushed {h h' : Heap} (hp : h.Pre) {t i : Nat} {op : HeapOp} (hc : CreatesLocal op)
    (hx : op.exec h t = .ok (h', .ref (some i))) (hnc : ∀ r, op = .popLocalFrame r → NotCleared h r) :
    ∃ e', h'.envs t = some e' ∧ ∃ f ∈ e'.frames, i ∈ f := by
  have hd : op ≠ .detach := by rintro rfl; exact hc
  have ha : op ≠ .attach := by rintro rfl; exact hc
  obtain ⟨e, he⟩ := (exec_ok hx).2 (by cases op <;> first | rfl | exact absurd rfl hd | exact absurd rfl ha)
  obtain ⟨⟨e', he', _, heff, _⟩, _⟩ := effect_exec hp he hx hd
  refine ⟨e', he', ?_⟩
  have front : ∀ fs : List (List Nat), fs ≠ [] → ∃ f ∈ addFront [i] fs, i ∈ f := by
    intro fs hne
    obtain ⟨f, gs, rfl⟩ := List.exists_cons_of_ne_nil hne
    exact ⟨f ++ [i], by simp [addFront], by simp⟩
  have hne := hp.frames t e he
  cases op <;> first | exact hc.elim | skip
  case popLocalFrame =>
    obtain ⟨x, hdn, hf, ho⟩ := heff
    cases x with
    | none =>
      have := hnc _ rfl ((denote_iff hp).1 hdn)
      subst this
      simp at ho
    | some j =>
      simp at ho
      subst ho
      rw [hf]
      refine front _ ?_
      obtain ⟨f, gs, hfs⟩ := List.exists_cons_of_ne_nil hne
      rw [hfs]
      cases gs <;> simp [dropFront]
  all_goals
    simp only [FrameEffect] at heff
    rw [heff]
    exact front _ hne

/-! ### Defined behaviour -/

/-- Neither undefined behaviour nor divergence. -/
def _root_.Jnivm.Res.Defined {α : Type} (x : Res α) : Prop := (∃ a, x = .ok a) ∨ ∃ e, x = .throws e

theorem defined_bind {α β : Type} {x : Res α} {f : α → Res β} (hx : x.Defined)
    (hf : ∀ a, x = .ok a → (f a).Defined) : (x.bind f).Defined := by
  rcases hx with ⟨a, rfl⟩ | ⟨e, rfl⟩
  · exact hf a rfl
  · exact .inr ⟨e, rfl⟩

theorem defined_ok {α : Type} (a : α) : (Res.ok a).Defined := .inl ⟨a, rfl⟩

theorem defined_denote {h : Heap} (hp : h.Pre) {r : Option Nat} (hv : Valid h r) :
    (h.denote r).Defined :=
  let ⟨x, hx, _⟩ := denote_total hp hv; .inl ⟨x, hx⟩

theorem defined_pushLocal {h : Heap} (hp : h.Pre) {t i : Nat} {e : Env} (he : h.envs t = some e) :
    (h.pushLocal t i).Defined := let ⟨h', hx⟩ := pushLocal_exists hp he; .inl ⟨h', hx⟩

theorem defined_toJNI {h : Heap} (hp : h.Pre) {t i : Nat} {s : Option Nat} {e : Env}
    (he : h.envs t = some e) (hl : h.Live i) (hs : ∀ c, s = some c → ∃ n, (n, c) ∈ h.classes) :
    (h.toJNI t s i).Defined := let ⟨h', hx⟩ := toJNI_exists hp he hl hs; .inl ⟨h', hx⟩

theorem defined_toJNI? {h : Heap} (hp : h.Pre) {t : Nat} {s i : Option Nat} {e : Env}
    (he : h.envs t = some e) (hl : ∀ j, i = some j → h.Live j)
    (hs : ∀ c, s = some c → ∃ n, (n, c) ∈ h.classes) : (h.toJNI? t s i).Defined :=
  let ⟨h', hx⟩ := toJNI?_exists hp he hl hs; .inl ⟨(h', i), hx⟩

theorem defined_findClass {h : Heap} (hp : h.Pre) {t : Nat} {e : Env} (he : h.envs t = some e)
    (n : Str) : (h.findClass t n).Defined := by
  obtain ⟨s, hl, _⟩ := hp.intern t n
  refine defined_bind (defined_toJNI s.pre (e := e) (by rw [intern_envs]; exact he) hl
    fun c hc => s.pre.typeClass hc) fun _ _ => defined_ok _

theorem defined_castWrapper {h : Heap} {p : Kind → Bool} {r : Option Nat} (hv : Valid h r) :
    (h.castWrapper p r).Defined := by
  cases r with
  | none => exact defined_ok _
  | some i =>
    obtain ⟨o, ho⟩ := hv
    simp only [castWrapper, ho]
    cases p o.kind
    · exact .inr ⟨_, rfl⟩
    · exact defined_ok _

theorem defined_cast {h : Heap} (hp : h.Pre) {p : Kind → Bool} {r : Option Nat} (hv : Valid h r) :
    (h.cast p r).Defined := by
  refine defined_bind (defined_denote hp hv) fun x hx => ?_
  cases x with
  | none => exact defined_ok _
  | some i =>
    obtain ⟨o, ho, _⟩ := denote_ok hp hx
    simp only [ho]
    cases p o.kind
    · exact .inr ⟨_, rfl⟩
    · exact defined_ok _

theorem defined_getObjectClass {h : Heap} (hp : h.Pre) {t : Nat} {e : Env} {r : Option Nat}
    (he : h.envs t = some e) (hv : Valid h r) (hnc : NotCleared h r) :
    (h.getObjectClass t r).Defined := by
  cases r with
  | none => exact defined_findClass hp he _
  | some i =>
    refine defined_bind (defined_denote hp hv) fun x hx => ?_
    cases x with
    | none => cases hnc ((denote_iff hp).1 hx)
    | some j =>
      obtain ⟨o, ho, _⟩ := denote_ok hp hx
      simp only [ho]
      refine defined_toJNI? hp he (fun c hc => ?_) fun c hc => hp.typeClass hc
      obtain ⟨n, hn⟩ := hp.cls j o c ho hc
      obtain ⟨_, oc, hoc, _⟩ := hp.classes n c hn
      exact ⟨oc, hoc⟩

theorem defined_arrayOf {h : Heap} (hp : h.Pre) {a : Option Nat} {i : Int} (hi : IndexOk h a i) :
    (h.arrayOf a).Defined ∧ ∀ x o slots, h.arrayOf a = .ok (x, o, slots) →
      slotIndex slots i = .ok i.toNat ∧ i.toNat < slots.length := by
  obtain ⟨x, hd, hidx⟩ := hi
  have hd' := (denote_iff hp).2 hd
  obtain ⟨o, ho, _⟩ := denote_ok hp hd'
  constructor
  · refine defined_bind (.inl ⟨_, hd'⟩) fun y hy => ?_
    rw [hd'] at hy; cases hy
    simp only [ho]
    cases o.kind <;> first | exact defined_ok _ | exact .inr ⟨_, rfl⟩
  · intro x' o' slots ha
    obtain ⟨h1, h2, h3⟩ := arrayOf_ok ha
    rw [hd'] at h1; cases h1
    obtain ⟨h4, h5⟩ := hidx o' slots h2 h3
    have h6 : i.toNat < slots.length := by omega
    exact ⟨by rw [slotIndex, if_pos ⟨h4, h6⟩], h6⟩

theorem defined_newLocalRef {h : Heap} (hp : h.Pre) {t : Nat} {e : Env} {r : Option Nat}
    (he : h.envs t = some e) (hv : Valid h r) : (h.newLocalRef t r).Defined := by
  refine defined_bind (defined_denote hp hv) fun x _ => ?_
  cases x with
  | none => exact defined_ok _
  | some i => exact defined_bind (defined_pushLocal hp he) fun _ _ => defined_ok _

theorem defined_outRef {x : Res (Heap × Option Nat)} (hx : x.Defined) : (outRef x).Defined :=
  defined_bind hx fun _ _ => defined_ok _
theorem defined_outUnit {x : Res Heap} (hx : x.Defined) : (outUnit x).Defined :=
  defined_bind hx fun _ _ => defined_ok _
theorem defined_outBool {h : Heap} {x : Res Bool} (hx : x.Defined) : (outBool h x).Defined :=
  defined_bind hx fun _ _ => defined_ok _
theorem defined_env {h : Heap} {t : Nat} {e : Env} (he : h.envs t = some e) : (h.env t).Defined :=
  .inl ⟨e, env_ok.2 he⟩

theorem defined_isSame {h : Heap} (hp : h.Pre) {a b : Option Nat} (ha : Valid h a) (hb : Valid h b) :
    (h.isSameObject a b).Defined := by
  rw [isSameObject]
  by_cases hab : a = b
  · rw [if_pos hab]; exact defined_ok _
  · rw [if_neg hab]
    exact defined_bind (defined_denote hp ha) fun _ _ =>
      defined_bind (defined_denote hp hb) fun _ _ => defined_ok _

theorem Step.valid {t : Nat} {h h' : Heap} (s : Step t h h') {r : Option Nat} (hv : Valid h r) :
    Valid h' r := by
  cases r with
  | none => trivial
  | some i => exact s.live' hv

theorem defined_recordOf {h : Heap} (hp : h.Pre) {a : Option Nat} {x : Nat}
    (ha : Denotes h a (some x)) (i : Nat) : (h.recordOf a i).Defined := by
  have hd := (denote_iff hp).2 ha
  obtain ⟨o, ho⟩ := denote_live hp hd
  simp only [recordOf, hd, Res.bind_ok, ho]
  cases o.kind <;> first | exact .inr ⟨_, rfl⟩ | skip
  simp only
  split
  · exact defined_ok _
  · exact .inr ⟨_, rfl⟩

theorem defined_body {h : Heap} (hp : h.Pre) {t : Nat} {e : Env} {op : HeapOp}
    (he : h.envs t = some e) (hl : Legal h t op) : (op.body h t).Defined := by
  cases op with
  | newObject ty =>
    have s1 : Step t h (h.alloc ⟨.made ty, none⟩).1 :=
      hp.alloc t (by simp) (fun _ hk => (made_target hk).elim) (by simp)
    exact defined_outRef (defined_bind
      (defined_toJNI s1.pre (e := e) he (alloc_live h _) s1.pre.typeClass?) fun _ _ => defined_ok _)
  | returnObject r ty =>
    refine defined_outRef (defined_bind (defined_denote hp hl.2) fun x hx => ?_)
    exact defined_toJNI? hp he (fun j hj => denote_live hp (hj ▸ hx)) hp.typeClass?
  | findClass n => exact defined_outRef (defined_findClass hp he n)
  | newMember m s => exact defined_ok _
  | pushLocalFrame =>
    refine defined_outUnit (defined_bind (defined_env he) fun e' _ => ?_)
    cases e'.free <;> exact defined_ok _
  | popLocalFrame r =>
    refine defined_outRef (defined_bind (defined_env he) fun e' he' => ?_)
    rw [env_ok.2 he] at he'; cases he'
    refine defined_bind (defined_denote hp hl.2) fun x hx => ?_
    obtain ⟨f, fs, hf⟩ := List.exists_cons_of_ne_nil (hp.frames t e he)
    have s := hp.popEnv he hf
    simp only [hf]
    cases x with
    | none => exact defined_ok _
    | some i =>
      exact defined_bind (defined_toJNI s.pre (setEnv_self ..) (s.live' (denote_live hp hx))
        fun c hc => s.pre.typeClass hc) fun _ _ => defined_ok _
  | newGlobalRef r =>
    refine defined_outRef ?_
    obtain ⟨x, hx, _⟩ := denote_total hp hl.2
    cases x with
    | none => rw [newGlobalRef, hx]; exact defined_ok _
    | some i => rw [newGlobalRef_some hx]; exact defined_ok _
  | newWeakGlobalRef r =>
    refine defined_outRef ?_
    obtain ⟨x, hx, _⟩ := denote_total hp hl.2
    cases x with
    | none => rw [newWeakGlobalRef, hx]; exact defined_ok _
    | some i => rw [newWeakGlobalRef_some hx]; exact defined_ok _
  | deleteGlobalRef r =>
    refine defined_outUnit (defined_bind (defined_castWrapper hl.2) fun x _ => ?_)
    cases x <;> exact defined_ok _
  | deleteWeakGlobalRef r =>
    refine defined_outUnit (defined_bind (defined_castWrapper hl.2) fun x _ => ?_)
    cases x <;> exact defined_ok _
  | deleteLocalRef r =>
    refine defined_outUnit (defined_bind (defined_env he) fun e' _ =>
      defined_bind (defined_denote hp hl.2) fun x _ => ?_)
    cases x <;> exact defined_ok _
  | newLocalRef r => exact defined_outRef (defined_newLocalRef hp he hl.2)
  | isSameObject a b => exact defined_outBool (defined_isSame hp hl.2.1 hl.2.2)
  | getObjectRefType r =>
    refine defined_bind ?_ fun _ _ => defined_ok _
    cases r with
    | none => exact defined_ok _
    | some i =>
      obtain ⟨o, ho⟩ := hl.2
      simp only [getObjectRefType, ho]
      cases o.kind <;> exact defined_ok _
  | getObjectClass r => exact defined_outRef (defined_getObjectClass hp he hl.2.1 hl.2.2)
  | newObjectArray n c init =>
    refine defined_outRef ?_
    obtain ⟨s, hlc, hlk⟩ := hp.intern t c
    simp only [newObjectArray]
    by_cases hn : n < 0
    · rw [if_pos hn]; exact .inr ⟨_, rfl⟩
    · rw [if_neg hn]
      have hv : Valid (h.intern c).1 init := s.valid hl.2
      have hb : (decide (0 < n) && init.any fun i => ((h.intern c).1.objs i).isNone) = false := by
        cases init with
        | none => simp
        | some i => obtain ⟨o, ho⟩ := hv; simp [ho]
      simp only [hb, Bool.false_eq_true, if_false]
      have s1 : Step t (h.intern c).1
          ((h.intern c).1.alloc ⟨.array (List.replicate n.toNat init), some (h.intern c).2⟩).1 := by
        refine s.pre.alloc t (fun j hj => ?_) (by simp) (fun k hk => ?_)
        · simp only [Kind.edges, List.mem_filterMap, id] at hj
          obtain ⟨y, hy, rfl⟩ := hj
          have := (List.mem_replicate.1 hy).2
          rw [← this] at hv
          exact hv
        · cases hk; exact ⟨c, lookup_mem hlk⟩
      exact defined_bind (defined_toJNI s1.pre (e := e) (by
          show ((h.intern c).1.alloc _).1.envs t = some e
          simp only [alloc, setObj_envs, intern_envs]; exact he) (alloc_live _ _) (by simp))
        fun _ _ => defined_ok _
  | getObjectArrayElement a i =>
    obtain ⟨hd, hs⟩ := defined_arrayOf hp hl.2
    refine defined_outRef (defined_bind hd fun ⟨x, o, slots⟩ hx => ?_)
    obtain ⟨h1, h2⟩ := hs x o slots hx
    simp only [h1, Res.bind_ok]
    refine defined_toJNI? hp he (fun j hj => ?_) fun c hc => hp.typeClass hc
    obtain ⟨_, ho, hk⟩ := arrayOf_ok hx
    refine hp.edges x j ⟨o, ho, ?_⟩
    rw [List.getD_eq_getElem?_getD] at hj
    simp only [List.getElem?_eq_getElem h2, Option.getD_some] at hj
    rw [hk]
    simp only [Kind.edges, List.mem_filterMap, id]
    exact ⟨some j, hj ▸ List.getElem_mem h2, rfl⟩
  | setObjectArrayElement a i v =>
    obtain ⟨hd, hs⟩ := defined_arrayOf hp hl.2.1
    refine defined_outUnit (defined_bind hd fun ⟨x, o, slots⟩ hx => ?_)
    obtain ⟨h1, h2⟩ := hs x o slots hx
    refine defined_bind (defined_denote hp hl.2.2) fun y _ => ?_
    simp only [h1, Res.bind_ok]
    exact defined_ok _
  | newRecord n ty =>
    have s1 : Step t h (h.alloc ⟨.record (List.replicate n none), none⟩).1 :=
      hp.alloc t (by simp [Kind.edges]) (by simp) (by simp)
    exact defined_outRef (defined_bind
      (defined_toJNI s1.pre (e := e) he (alloc_live h _) s1.pre.typeClass?) fun _ _ => defined_ok _)
  | newStatics n => exact defined_ok _
  | classObject n => exact defined_ok _
  | newCopy k ty =>
    have hc := hl.2
    have s1 : Step t h (h.alloc ⟨.plain, k⟩).1 := hp.alloc t (by simp [Kind.edges]) (by simp) hc
    have hb : k.all (fun c => h.classes.any fun x => x.2 == c) = true := by
      cases k with
      | none => rfl
      | some c =>
        obtain ⟨n, hn⟩ := hc c rfl
        simp only [Option.all_some, List.any_eq_true, beq_iff_eq]
        exact ⟨_, hn, rfl⟩
    simp only [HeapOp.body, newCopy, if_pos hb]
    exact defined_outRef (defined_bind
      (defined_toJNI s1.pre (e := e) he (alloc_live h _) s1.pre.typeClass?) fun _ _ => defined_ok _)
  | getVar a i c =>
    obtain ⟨x, ha⟩ := hl.2
    refine defined_outRef (defined_bind (defined_recordOf hp ha i) fun ⟨x, o, vars⟩ hx => ?_)
    obtain ⟨_, ho, hk, hlt⟩ := recordOf_ok hx
    dsimp only at hlt
    refine defined_toJNI? hp he (fun j hj => ?_) hp.typeClass?
    refine hp.edges x j ⟨o, ho, ?_⟩
    rw [List.getD_eq_getElem?_getD] at hj
    simp only [List.getElem?_eq_getElem hlt, Option.getD_some] at hj
    rw [hk]
    simp only [Kind.edges, List.mem_filterMap, id]
    exact ⟨some j, hj ▸ List.getElem_mem hlt, rfl⟩
  | setVar a i v =>
    refine defined_outUnit ?_
    cases a with
    | none => exact defined_ok _
    | some a =>
      obtain ⟨hv, hn, hv'⟩ := hl.2
      obtain ⟨x, hx, _⟩ := denote_total hp hv
      cases x with
      | none => cases hn ((denote_iff hp).1 hx)
      | some x =>
        refine defined_bind (defined_denote hp hv') fun y _ => ?_
        exact defined_bind (defined_recordOf hp ((denote_iff hp).1 hx) i) fun _ _ => defined_ok _
  | throw r =>
    exact defined_outUnit (defined_bind (defined_env he) fun _ _ =>
      defined_bind (defined_cast hp hl.2) fun _ _ => defined_ok _)
  | raise p =>
    exact defined_outUnit (defined_bind (.inl ⟨e, env_ok.2 he⟩) fun _ _ => defined_ok _)
  | exceptionOccurred =>
    refine defined_outRef (defined_bind (defined_env he) fun e' he' => ?_)
    exact defined_toJNI? hp he (fun j hj => hp.rootsEnv (env_ok.1 he') (.inr hj))
      fun c hc => hp.typeClass hc
  | exceptionClear =>
    exact defined_outUnit (defined_bind (defined_env he) fun _ _ => defined_ok _)
  | exceptionCheck =>
    exact defined_outBool (defined_bind (defined_env he) fun _ _ => defined_ok _)
  | toReflected m c id s =>
    refine defined_outRef ?_
    cases c with
    | none => exact defined_ok _
    | some c =>
      cases id with
      | none => exact defined_ok _
      | some id =>
        have hv : Valid h (some id) := hl.2
        obtain ⟨o, ho⟩ := hv
        simp only [toReflected, ho]
        generalize (if m = true then Kind.method s else Kind.field s) = k
        by_cases hok : o.kind = k
        · rw [if_pos hok]; exact defined_newLocalRef hp he ⟨o, ho⟩
        · rw [if_neg hok]; exact defined_ok _
  | fromReflected m r =>
    refine defined_outRef ?_
    cases r with
    | none => exact defined_ok _
    | some r =>
      have hv : Valid h (some r) := hl.2.1
      refine defined_bind (defined_getObjectClass hp he hv hl.2.2) fun ⟨h1, c⟩ hx1 => ?_
      have s1 := step_getObjectClass hp hx1
      have he1 : ∃ e1, h1.envs t = some e1 := ⟨_, ((pushed_getObjectClass hx1).1 e he)⟩
      obtain ⟨e1, he1⟩ := he1
      refine defined_bind (defined_findClass s1.pre he1 _) fun ⟨h2, k⟩ hx2 => ?_
      have s2 := step_findClass s1.pre hx2
      refine defined_bind (defined_isSame s2.pre (s2.valid ?_) ?_) fun _ _ => defined_ok _
      · cases c with
        | none => trivial
        | some c =>
          obtain ⟨x, hd, hx1⟩ := Res.bind_eq_ok.1 hx1
          cases x with
          | none => cases hx1
          | some j =>
            cases hoj : h.objs j with
            | none => simp [hoj] at hx1
            | some oj =>
              simp only [hoj] at hx1
              have hr := (pushed_toJNI? hx1).1
              obtain ⟨n, hn⟩ := hp.cls j oj c hoj hr.symm
              obtain ⟨_, o, ho, hk⟩ := hp.classes n c hn
              exact s1.live' ⟨o, ho⟩
      · obtain ⟨rfl, _⟩ := pushed_findClass hx2
        obtain ⟨_, hx3⟩ := findClass_ok hx2
        obtain ⟨o, _, _, _, ho'⟩ := toJNI_ok hx3
        exact ⟨_, ho'⟩
  | attach => exact defined_ok _
  | detach => exact defined_ok _

end Heap
end Jnivm
