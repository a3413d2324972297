import Verif.Lemmas.Unwind
/-!
Frames, threads and pending exceptions along programs that call hooked functions: helper lemmas.
-/
namespace Jnivm
open Spec
open Heap hiding Live

variable {w : CppTypes} {share : Bool}

/-! ### Frames -/

/-- `Evolves`, and `EvolvesAll` if `p`. -/
def Flows (t : Nat) (p : Prop) (h h' : Heap) : Prop := Evolves t h h' ∧ (p → EvolvesAll t h h')

theorem Flows.refl (t : Nat) (p : Prop) (h : Heap) : Flows t p h h := ⟨.refl t h, fun _ => .refl t h⟩

theorem EvolvesAll.flows {t : Nat} {p : Prop} {h h' : Heap} (x : EvolvesAll t h h') : Flows t p h h' :=
  ⟨x.evolves, fun _ => x⟩

theorem Flows.trans {t : Nat} {p : Prop} {a b c : Heap} (x : Flows t p a b) (y : Flows t p b c) : Flows t p a c :=
  ⟨x.1.trans y.1, fun hp => (x.2 hp).trans (y.2 hp)⟩

theorem Flows.mono {t : Nat} {p q : Prop} {a b : Heap} (x : Flows t p a b) (hq : q → p) : Flows t q a b :=
  ⟨x.1, fun h => x.2 (hq h)⟩

theorem evolves_of_eq {t : Nat} {h h' : Heap} (x : h'.envs t = h.envs t) : EvolvesAll t h h' :=
  fun e he => ⟨e, [], x.trans he, rfl, (addFront_nil _).symm⟩

theorem op_flows {h h' : Heap} (hs : Sound h) {t u : Nat} {op : HeapOp} {out : Out}
    (ho : Structured t u op) (hx : op.run h u = .ok (h', out)) : Flows t (NoDelete t u op) h h' := by
  have hp := hs.inv.toPre
  by_cases hu : u = t
  · subst hu
    obtain ⟨hd, hpu, hpo⟩ := ho rfl
    have key : ∀ e, h.envs u = some e → ∃ e', h'.envs u = some e' ∧ e'.eid = e.eid ∧
        FrameEffect h e e'.frames out op := fun e he => Heap.effect_run hp he hx hd
    constructor
    · intro e he
      obtain ⟨e', he', hid, heff⟩ := key e he
      by_cases h3 : ∃ r, op = .deleteLocalRef r
      · obtain ⟨r, rfl⟩ := h3
        obtain ⟨y, _, hf⟩ := heff
        cases y with
        | none => exact ⟨e', [], e.frames, he', hid, .refl _, by rw [addFront_nil]; exact hf⟩
        | some i => exact ⟨e', [], _, he', hid, thinned_erase i _, by rw [addFront_nil]; exact hf⟩
      · obtain ⟨l, hl⟩ := effect_add heff hpu hpo (fun r hr' => h3 ⟨r, hr'⟩)
        exact ⟨e', l, e.frames, he', hid, .refl _, hl⟩
    · intro hn e he
      obtain ⟨e', he', hid, heff⟩ := key e he
      obtain ⟨l, hl⟩ := effect_add heff hpu hpo (hn rfl)
      exact ⟨e', l, he', hid, hl⟩
  · exact (evolves_of_eq ((runStep hp hx).others t (Ne.symm hu))).flows

theorem callStmt_cases {h h' : Heap} {t u : Nat} {op : HeapOp} {x : Option Exn}
    (hx : h.callStmt t u op = .ok (h', x)) : (∃ out, op.run h u = .ok (h', out) ∧ x = none) ∨
      (h' = h ∧ ∃ e, op.run h u = .throws e ∧ x = if u = t then some e else none) := by
  unfold Heap.callStmt at hx
  split at hx
  · rename_i h1 out hrun
    injection hx with hx; injection hx with hx1 hx2; subst hx1 hx2
    exact .inl ⟨out, hrun, rfl⟩
  · rename_i e hrun
    injection hx with hx; injection hx with hx1 hx2; subst hx1 hx2
    exact .inr ⟨rfl, e, hrun, rfl⟩
  · exact nomatch hx
  · exact nomatch hx

/-- What the constructor does if it returns. -/
theorem scopeEnter_cases {h h1 : Heap} (hs : Sound h) {t : Nat} {vm made : Bool}
    (hx : h.enterFrame t vm = .ok (h1, made)) :
      (∃ e e1, h.envs t = some e ∧ made = false ∧ h1.envs t = some e1 ∧ e1.eid = e.eid ∧
        e1.frames = [] :: e.frames) ∨
      (h.envs t = none ∧ made = true ∧ ∃ e1, h1.envs t = some e1 ∧ e1.frames = [[], []]) := by
  rcases enterFrame_ops hx with ⟨e, o, he, hm, hr⟩ | ⟨h0, o, o', he, hm, hr, hr'⟩
  · obtain ⟨e1, he1, hid, hf⟩ := Heap.effect_run hs.inv.toPre he hr (by simp)
    exact .inl ⟨e, e1, he, hm, he1, hid, hf⟩
  · obtain ⟨h2, hx2, rfl⟩ := run_ok hr
    have hb := (exec_ok hx2).1
    simp only [HeapOp.body, Heap.attach, he] at hb
    injection hb with hb; injection hb with hb _
    have he0 : h2.collect.envs t = some h.newEnv := by
      rw [collect_envs, ← hb]; simp [Heap.setEnv]
    obtain ⟨e1, he1, _, hf⟩ := Heap.effect_run (hs.op hr).inv.toPre he0 hr' (by simp)
    exact .inr ⟨he, hm, e1, he1, hf⟩

/-- What the destructor does. -/
theorem scopeLeave_cases {h h1 : Heap} (hs : Sound h) {t : Nat} {e : Env} (he : h.envs t = some e) {made : Bool}
    (hx : h.leaveFrame t made = .ok h1) : (made = true → h1.envs t = none) ∧
      (made = false → ∃ e', h1.envs t = some e' ∧ e'.eid = e.eid ∧ e'.frames = dropFront e.frames) := by
  obtain ⟨h0, o, hr, hc⟩ := leaveFrame_ops hx
  obtain ⟨e1, he1, hid, x, hd, hf, _⟩ := Heap.effect_run hs.inv.toPre he hr (by simp)
  have hx0 : x = none := by simpa [Heap.denote, eq_comm] using hd
  subst hx0
  rw [show (none : Option Nat).toList = [] from rfl, addFront_nil] at hf
  rcases hc with ⟨rfl, rfl⟩ | ⟨rfl, o', hr'⟩
  · exact ⟨fun h => (nomatch h), fun _ => ⟨e1, he1, hid, hf⟩⟩
  · refine ⟨fun _ => ?_, fun h => (nomatch h)⟩
    obtain ⟨h2, hx2, rfl⟩ := run_ok hr'
    have hb := (exec_ok hx2).1
    simp only [HeapOp.body] at hb
    injection hb with hb; injection hb with hb _
    rw [collect_envs, ← hb]; simp [Heap.detach]

/-- A scope whose body keeps the outer frames restores them. -/
theorem scope_restores {h h1 h2 h3 : Heap} (hs : Sound h) {t : Nat} {vm made : Bool}
    (hx : h.enterFrame t vm = .ok (h1, made)) (hs2 : Sound h2) {p : Prop} (hf : Flows t p h1 h2)
    (hx3 : h2.leaveFrame t made = .ok h3) : Restored t h h3 ∧ (p → RestoredAll t h h3) := by
  rcases scopeEnter_cases hs hx with ⟨e, e1, he, rfl, he1, hid1, hf1⟩ | ⟨he, rfl, e1, he1, hf1⟩
  · obtain ⟨e2, l, m, he2, hid2, ht, hf2⟩ := hf.1 e1 he1
    obtain ⟨e3, he3, hid3, hf3⟩ := (scopeLeave_cases hs2 he2 hx3).2 rfl
    have hne := hs.inv.toPre.frames t e he
    unfold Restored RestoredAll
    rw [he]
    refine ⟨⟨e3, he3, hid3.trans (hid2.trans hid1), ?_⟩, fun hn => ?_⟩
    · rw [hf1] at ht
      rw [hf3, hf2, dropFront_addFront]
      exact thin_drop ht hne
    · obtain ⟨e2', l', he2', _, hf2'⟩ := hf.2 hn e1 he1
      rw [he2] at he2'; injection he2' with he2'; subst he2'
      exact ⟨e3, he3, hid3.trans (hid2.trans hid1),
        by rw [hf3, hf2', dropFront_addFront, hf1, Heap.dropFront_one hne]⟩
  · obtain ⟨e2, l, m, he2, _⟩ := hf.1 e1 he1
    unfold Restored RestoredAll
    rw [he]
    exact ⟨(scopeLeave_cases hs2 he2 hx3).1 rfl, fun _ => (scopeLeave_cases hs2 he2 hx3).1 rfl⟩

theorem restored_flows {t : Nat} {p : Prop} {h h' : Heap} (x : Restored t h h' ∧ (p → RestoredAll t h h')) :
    Flows t p h h' := by
  constructor
  · intro e he
    have h1 := x.1
    unfold Restored at h1
    rw [he] at h1
    obtain ⟨e', h2, h3, h4⟩ := h1
    exact ⟨e', [], _, h2, h3, h4, (addFront_nil _).symm⟩
  · intro hp e he
    have h1 := x.2 hp
    unfold RestoredAll at h1
    rw [he] at h1
    obtain ⟨e', h2, h3, h4⟩ := h1
    exact ⟨e', [], h2, h3, by rw [h4, addFront_nil]⟩

theorem Started.flows {h h1 : Heap} {t : Nat} {target : Recipient} {args : List InvokeArg} {js : List JArg}
    (S : Started w share t h target args h1 js) : EvolvesAll t h h1 ∧ ∀ u, u ≠ t → h1.envs u = h.envs u :=
  ⟨S.calm.all, fun u hu => S.calm.step.others u hu⟩

mutual

theorem stmt_flows {t : Nat} {h h' : Heap} (hs : Sound h) {x : Option Exn} (s : ProgStmt)
    (hc : ProgCalls (Structured t) s) (hx : s.run w share t h = .ok (h', x)) :
    Flows t (ProgCalls (NoDelete t) s) h h' := by
  cases s with
  | call u op =>
    rw [ProgStmt.run] at hx
    rcases callStmt_cases hx with ⟨out, hr, _⟩ | ⟨rfl, _⟩
    · exact op_flows hs hc hr
    · exact .refl ..
  | raise e =>
    rw [ProgStmt.run] at hx
    injection hx with hx; injection hx with hx1 _; subst hx1
    exact .refl ..
  | attempt clear body =>
    rw [ProgStmt.run] at hx
    obtain ⟨⟨h1, y⟩, hx1, hx2⟩ := Res.bind_eq_ok.1 hx
    have hf := prog_flows hs body hc hx1
    have hs1 := (prog_sound hs body hx1).1
    cases y with
    | none =>
      injection hx2 with hx2; injection hx2 with hx2 _; subst hx2
      exact hf
    | some e =>
      cases clear with
      | false =>
        simp only [Bool.false_eq_true, if_false] at hx2
        injection hx2 with hx2; injection hx2 with hx2 _; subst hx2
        exact hf
      | true =>
        simp only [if_true] at hx2
        obtain ⟨⟨h2, o⟩, hx3, hx4⟩ := Res.bind_eq_ok.1 hx2
        injection hx4 with hx4; injection hx4 with hx4 _; subst hx4
        exact hf.trans ((op_flows hs1 (t := t) (by simp [Structured]) hx3).mono (by simp [NoDelete]))
  | frame vm body =>
    rw [ProgStmt.run] at hx
    split at hx
    · rename_i h1 made hent
      obtain ⟨⟨h2, y⟩, hx1, hx2⟩ := Res.bind_eq_ok.1 hx
      obtain ⟨h3, hx3, hx4⟩ := Res.bind_eq_ok.1 hx2
      injection hx4 with hx4; injection hx4 with hx4 _; subst hx4
      have hs1 := (enterFrame_sound hs hent).1
      exact restored_flows (scope_restores hs hent (prog_sound hs1 body hx1).1 (prog_flows hs1 body hc hx1) hx3)
    · injection hx with hx; injection hx with hx1 _; subst hx1
      exact .refl ..
    · exact nomatch hx
    · exact nomatch hx
  | invoke target args this ps body ret =>
    obtain ⟨h1, js, S, hcs⟩ := invoke_stages hs hx
    rcases hcs with ⟨h2, temps, xs, h3, y, h4, _, W, hb, hlv, hen⟩ | ⟨e, h4, _, hca, hen⟩
    · have hf := prog_flows W.sound body hc hb
      obtain ⟨hs3, hp3⟩ := prog_sound W.sound body hb
      obtain ⟨env4, he4⟩ := end_env hen
      obtain ⟨hs4, hp4, hev, _⟩ := leave_stage S W hs3 hp3 he4 hlv
      have C := close hs.inv hs4 hp4 hen
      exact (((S.flows.1.flows.trans W.envs.1.flows).trans hf).trans hev.flows).trans
        (evolves_of_eq (by rw [C.envs])).flows
    · obtain ⟨hs4, hp4, hev, _⟩ := refuse_stage S hca
      have C := close hs.inv hs4 hp4 hen
      exact (S.flows.1.flows.trans hev.flows).trans (evolves_of_eq (by rw [C.envs])).flows

theorem prog_flows {t : Nat} {h h' : Heap} (hs : Sound h) {x : Option Exn} (l : List ProgStmt)
    (hc : AllProgCalls (Structured t) l) (hx : runProg w share t h l = .ok (h', x)) :
    Flows t (AllProgCalls (NoDelete t) l) h h' := by
  cases l with
  | nil =>
    rw [runProg] at hx
    injection hx with hx; injection hx with hx1 _; subst hx1
    exact .refl ..
  | cons s l =>
    rw [runProg] at hx
    obtain ⟨⟨h1, y⟩, hx1, hx2⟩ := Res.bind_eq_ok.1 hx
    have hf := (stmt_flows hs s hc.1 hx1).mono (q := AllProgCalls (NoDelete t) (s :: l)) fun hn => hn.1
    cases y with
    | none =>
      exact hf.trans ((prog_flows (stmt_sound hs s hx1).1 l hc.2 hx2).mono fun hn => hn.2)
    | some e =>
      injection hx2 with hx2; injection hx2 with hx2 _; subst hx2
      exact hf

end

/-! ### Other threads -/

mutual

theorem stmt_apart {t u : Nat} (hu : u ≠ t) {h h' : Heap} (hs : Sound h) {x : Option Exn} (s : ProgStmt)
    (hc : ProgCalls (fun v _ => v ≠ u) s) (hx : s.run w share t h = .ok (h', x)) : h'.envs u = h.envs u := by
  cases s with
  | call v op =>
    rw [ProgStmt.run] at hx
    rcases callStmt_cases hx with ⟨out, hr, _⟩ | ⟨rfl, _⟩
    · exact (runStep hs.inv.toPre hr).others u (Ne.symm hc)
    · rfl
  | raise e =>
    rw [ProgStmt.run] at hx
    injection hx with hx; injection hx with hx1 _; subst hx1
    rfl
  | attempt clear body =>
    rw [ProgStmt.run] at hx
    obtain ⟨⟨h1, y⟩, hx1, hx2⟩ := Res.bind_eq_ok.1 hx
    have hf := prog_apart hu hs body hc hx1
    have hs1 := (prog_sound hs body hx1).1
    cases y with
    | none =>
      injection hx2 with hx2; injection hx2 with hx2 _; subst hx2
      exact hf
    | some e =>
      cases clear with
      | false =>
        simp only [Bool.false_eq_true, if_false] at hx2
        injection hx2 with hx2; injection hx2 with hx2 _; subst hx2
        exact hf
      | true =>
        simp only [if_true] at hx2
        obtain ⟨⟨h2, o⟩, hx3, hx4⟩ := Res.bind_eq_ok.1 hx2
        injection hx4 with hx4; injection hx4 with hx4 _; subst hx4
        exact ((runStep hs1.inv.toPre hx3).others u hu).trans hf
  | frame vm body =>
    rw [ProgStmt.run] at hx
    split at hx
    · rename_i h1 made hent
      obtain ⟨⟨h2, y⟩, hx1, hx2⟩ := Res.bind_eq_ok.1 hx
      obtain ⟨h3, hx3, hx4⟩ := Res.bind_eq_ok.1 hx2
      injection hx4 with hx4; injection hx4 with hx4 _; subst hx4
      have hs1 := (enterFrame_sound hs hent).1
      have hs2 := (prog_sound hs1 body hx1).1
      have e1 : h1.envs u = h.envs u := by
        rcases enterFrame_ops hent with ⟨_, _, _, _, hr⟩ | ⟨h0, _, _, _, _, hr, hr'⟩
        · exact (runStep hs.inv.toPre hr).others u hu
        · exact ((runStep (hs.op hr).inv.toPre hr').others u hu).trans ((runStep hs.inv.toPre hr).others u hu)
      have e2 := prog_apart hu hs1 body hc hx1
      have e3 : h3.envs u = h2.envs u := by
        obtain ⟨h0, o, hr, hc'⟩ := leaveFrame_ops hx3
        have e0 := (runStep hs2.inv.toPre hr).others u hu
        rcases hc' with ⟨_, rfl⟩ | ⟨_, o', hr'⟩
        · exact e0
        · exact ((runStep (hs2.op hr).inv.toPre hr').others u hu).trans e0
      exact e3.trans (e2.trans e1)
    · injection hx with hx; injection hx with hx1 _; subst hx1
      rfl
    · exact nomatch hx
    · exact nomatch hx
  | invoke target args this ps body ret =>
    obtain ⟨h1, js, S, hcs⟩ := invoke_stages hs hx
    rcases hcs with ⟨h2, temps, xs, h3, y, h4, _, W, hb, hlv, hen⟩ | ⟨e, h4, _, hca, hen⟩
    · have hf := prog_apart hu W.sound body hc hb
      obtain ⟨hs3, hp3⟩ := prog_sound W.sound body hb
      obtain ⟨env4, he4⟩ := end_env hen
      obtain ⟨hs4, hp4, _, ho, _⟩ := leave_stage S W hs3 hp3 he4 hlv
      have C := close hs.inv hs4 hp4 hen
      rw [C.envs, ho u hu, hf, W.envs.2.1 u hu, S.flows.2 u hu]
    · obtain ⟨hs4, hp4, _, ho, _⟩ := refuse_stage S hca
      have C := close hs.inv hs4 hp4 hen
      rw [C.envs, ho u hu, S.flows.2 u hu]

theorem prog_apart {t u : Nat} (hu : u ≠ t) {h h' : Heap} (hs : Sound h) {x : Option Exn} (l : List ProgStmt)
    (hc : AllProgCalls (fun v _ => v ≠ u) l) (hx : runProg w share t h l = .ok (h', x)) :
    h'.envs u = h.envs u := by
  cases l with
  | nil =>
    rw [runProg] at hx
    injection hx with hx; injection hx with hx1 _; subst hx1
    rfl
  | cons s l =>
    rw [runProg] at hx
    obtain ⟨⟨h1, y⟩, hx1, hx2⟩ := Res.bind_eq_ok.1 hx
    have hf := stmt_apart hu hs s hc.1 hx1
    cases y with
    | none => exact (prog_apart hu (stmt_sound hs s hx1).1 l hc.2 hx2).trans hf
    | some e =>
      injection hx2 with hx2; injection hx2 with hx2 _; subst hx2
      exact hf

end

/-! ### Pending exceptions -/

theorem op_nonePends {h h' : Heap} (hs : Sound h) {t u : Nat} {op : HeapOp} {out : Out} (hn : NonePends h t)
    (ho : u = t → (∀ r, op ≠ .throw r) ∧ ∀ e, op ≠ .raise e) (hx : op.run h u = .ok (h', out)) :
    NonePends h' t := by
  by_cases hu : u = t
  · subst hu
    obtain ⟨hth, hra⟩ := ho rfl
    obtain ⟨h1, hx1, rfl⟩ := run_ok hx
    intro env' he'
    rw [collect_envs] at he'
    by_cases hd : op = .detach
    · subst hd
      have hb := (exec_ok hx1).1
      simp only [HeapOp.body] at hb
      injection hb with hb; injection hb with hb _
      rw [← hb] at he'
      simp [Heap.detach] at he'
    · cases he : h.envs u with
      | some env =>
        obtain ⟨⟨e1, he1, _, _, hpe⟩, _⟩ := effect_exec hs.inv.toPre he hx1 hd
        rw [he1] at he'; injection he' with he'; subst he'
        have h0 := hn env he
        cases op <;> simp only [PendingEffect] at hpe <;>
          first
            | exact absurd rfl (hth _)
            | exact absurd rfl (hra _)
            | exact hpe
            | exact hpe.trans h0
            | exact hpe.elim
      | none =>
        obtain ⟨hb, hne⟩ := exec_ok hx1
        by_cases ha : op = .attach
        · subst ha
          simp only [HeapOp.body, Heap.attach, he] at hb
          injection hb with hb; injection hb with hb _
          rw [← hb] at he'
          simp [Heap.setEnv] at he'
          rw [← he']; rfl
        · have : op.needsEnv = true := by cases op <;> first | rfl | exact absurd rfl ha | exact absurd rfl hd
          obtain ⟨e, he2⟩ := hne this
          rw [he] at he2; exact nomatch he2
  · intro env he
    rw [(runStep hs.inv.toPre hx).others t (Ne.symm hu)] at he
    exact hn env he

theorem enter_nonePends {h h1 : Heap} (hs : Sound h) {t : Nat} {vm made : Bool} (hn : NonePends h t)
    (hx : h.enterFrame t vm = .ok (h1, made)) : NonePends h1 t := by
  rcases enterFrame_ops hx with ⟨_, _, _, _, hr⟩ | ⟨h0, _, _, _, _, hr, hr'⟩
  · exact op_nonePends hs hn (by simp) hr
  · exact op_nonePends (hs.op hr) (op_nonePends hs hn (by simp) hr) (by simp) hr'

theorem leave_nonePends {h h1 : Heap} (hs : Sound h) {t : Nat} {made : Bool} (hn : NonePends h t)
    (hx : h.leaveFrame t made = .ok h1) : NonePends h1 t := by
  obtain ⟨h0, o, hr, hc⟩ := leaveFrame_ops hx
  have h1 := op_nonePends hs hn (by simp) hr
  rcases hc with ⟨_, rfl⟩ | ⟨_, o', hr'⟩
  · exact h1
  · exact op_nonePends (hs.op hr) h1 (by simp) hr'

theorem clear_nonePends {h h' : Heap} (hs : Sound h) {t : Nat} {out : Out}
    (hx : HeapOp.exceptionClear.run h t = .ok (h', out)) : NonePends h' t := by
  obtain ⟨h1, hx1, rfl⟩ := run_ok hx
  obtain ⟨env, he⟩ := (exec_ok hx1).2 rfl
  obtain ⟨⟨e1, he1, _, _, hpe⟩, _⟩ := effect_exec hs.inv.toPre he hx1 (by simp)
  intro env' he'
  rw [collect_envs, he1] at he'; injection he' with he'; subst he'
  exact hpe

mutual

theorem stmt_tidy {t : Nat} {h h' : Heap} (hs : Sound h) {x : Option Exn} (s : ProgStmt) (hn : NonePends h t)
    (ht : Clears t s) (hx : s.run w share t h = .ok (h', x)) (hq : x = none ∨ Plain s) : NonePends h' t := by
  cases s with
  | call u op =>
    rw [ProgStmt.run] at hx
    rcases callStmt_cases hx with ⟨out, hr, _⟩ | ⟨rfl, _⟩
    · exact op_nonePends hs hn ht hr
    · exact hn
  | raise e =>
    rw [ProgStmt.run] at hx
    injection hx with hx; injection hx with hx1 _; subst hx1
    exact hn
  | attempt clear body =>
    rw [ProgStmt.run] at hx
    obtain ⟨⟨h1, y⟩, hx1, hx2⟩ := Res.bind_eq_ok.1 hx
    have hs1 := (prog_sound hs body hx1).1
    cases y with
    | none =>
      injection hx2 with hx2; injection hx2 with hx2 _; subst hx2
      exact prog_tidy hs body hn ht.1 hx1 (.inl rfl)
    | some e =>
      cases clear with
      | false =>
        simp only [Bool.false_eq_true, if_false] at hx2
        injection hx2 with hx2; injection hx2 with hx2 _; subst hx2
        exact prog_tidy hs body hn ht.1 hx1 (.inr (ht.2.resolve_left (by simp)))
      | true =>
        simp only [if_true] at hx2
        obtain ⟨⟨h2, o⟩, hx3, hx4⟩ := Res.bind_eq_ok.1 hx2
        injection hx4 with hx4; injection hx4 with hx4 _; subst hx4
        exact clear_nonePends hs1 hx3
  | frame vm body =>
    rw [ProgStmt.run] at hx
    split at hx
    · rename_i h1 made hent
      obtain ⟨⟨h2, y⟩, hx1, hx2⟩ := Res.bind_eq_ok.1 hx
      obtain ⟨h3, hx3, hx4⟩ := Res.bind_eq_ok.1 hx2
      injection hx4 with hx4; injection hx4 with hx4 hx5; subst hx4 hx5
      have hs1 := (enterFrame_sound hs hent).1
      exact leave_nonePends (prog_sound hs1 body hx1).1
        (prog_tidy hs1 body (enter_nonePends hs hn hent) ht hx1 hq) hx3
    · injection hx with hx; injection hx with hx1 _; subst hx1
      exact hn
    · exact nomatch hx
    · exact nomatch hx
  | invoke target args this ps body ret =>
    rcases hq with rfl | hq
    · obtain ⟨h1, js, S, hcs⟩ := invoke_stages hs hx
      have key : ∀ {h4}, Closed t h (invokeOwned target args) h4 h' none → NonePends h' t := by
        intro h4 C env he
        rcases C.ends with ⟨_, env', he', hpe⟩ | ⟨_, h0, _⟩
        · rw [C.envs, he'] at he; injection he with he; subst he; exact hpe
        · exact nomatch h0
      rcases hcs with ⟨h2, temps, xs, h3, y, h4, _, W, hb, hlv, hen⟩ | ⟨e, h4, _, hca, hen⟩
      · obtain ⟨hs3, hp3⟩ := prog_sound W.sound body hb
        obtain ⟨env4, he4⟩ := end_env hen
        obtain ⟨hs4, hp4, _⟩ := leave_stage S W hs3 hp3 he4 hlv
        exact key (close hs.inv hs4 hp4 hen)
      · obtain ⟨hs4, hp4, _⟩ := refuse_stage S hca
        exact key (close hs.inv hs4 hp4 hen)
    · exact hq.elim

theorem prog_tidy {t : Nat} {h h' : Heap} (hs : Sound h) {x : Option Exn} (l : List ProgStmt) (hn : NonePends h t)
    (ht : AllClears t l) (hx : runProg w share t h l = .ok (h', x)) (hq : x = none ∨ AllPlain l) :
    NonePends h' t := by
  cases l with
  | nil =>
    rw [runProg] at hx
    injection hx with hx; injection hx with hx1 _; subst hx1
    exact hn
  | cons s l =>
    rw [runProg] at hx
    obtain ⟨⟨h1, y⟩, hx1, hx2⟩ := Res.bind_eq_ok.1 hx
    cases y with
    | none =>
      exact prog_tidy (stmt_sound hs s hx1).1 l (stmt_tidy hs s hn ht.1 hx1 (.inl rfl)) ht.2 hx2
        (hq.imp id fun hp => hp.2)
    | some e =>
      injection hx2 with hx2; injection hx2 with hx2 hx3; subst hx2 hx3
      exact stmt_tidy hs s hn ht.1 hx1 (hq.imp (fun h => (nomatch h)) fun hp => hp.1)

end

/-! ### Programs do not end by `throws` -/

structure Silent {α : Type} (r : Res α) : Prop where
  never : ∀ e, r ≠ .throws e

theorem Silent.ok {α : Type} (a : α) : Silent (.ok a) := ⟨fun _ h => nomatch h⟩
theorem Silent.ub {α : Type} (u : UB) : Silent (.ub u : Res α) := ⟨fun _ h => nomatch h⟩
theorem Silent.div {α : Type} : Silent (.diverges : Res α) := ⟨fun _ h => nomatch h⟩

theorem Silent.bind {α β : Type} {r : Res α} {f : α → Res β} (h1 : Silent r) (h2 : ∀ a, r = .ok a → Silent (f a)) :
    Silent (r.bind f) := by
  cases r with
  | ok a => exact h2 a rfl
  | throws e => exact absurd rfl (h1.never e)
  | ub u => exact .ub u
  | diverges => exact .div

theorem silent_env (h : Heap) (t : Nat) : Silent (h.env t) := by
  unfold Heap.env; cases h.envs t <;> first | exact .ok _ | exact .ub _

theorem silent_pushLocal (h : Heap) (t i : Nat) : Silent (h.pushLocal t i) :=
  (silent_env h t).bind fun e _ => by cases e.frames <;> first | exact .ok _ | exact .ub _

theorem silent_toJNI (h : Heap) (t : Nat) (s : Option Nat) (i : Nat) : Silent (h.toJNI t s i) := by
  unfold Heap.toJNI
  cases h.objs i with
  | none => exact .ub _
  | some o => exact silent_pushLocal ..

theorem silent_toJNI? (h : Heap) (t : Nat) (s i : Option Nat) : Silent (h.toJNI? t s i) := by
  cases i with
  | none => exact .ok _
  | some i => exact (silent_toJNI h t s i).bind fun _ _ => .ok _

theorem silent_convertResult (h : Heap) (t : Nat) (ret : ObjRet) : Silent (h.convertResult w t ret) := by
  cases ret with
  | void => exact .ok _
  | jobject r => exact .ok _
  | shared c o => exact silent_toJNI? ..
  | value c o =>
    refine Silent.bind ?_ fun _ _ => silent_toJNI? ..
    cases o with
    | none => exact .ok _
    | some i =>
      dsimp only [copyOf]
      cases h.objs i <;> first | exact .ok _ | exact .ub _

theorem silent_hookLeave (h : Heap) (t : Nat) (temps : List Nat) (ret : ObjRet) :
    Silent (h.hookLeave w t temps ret) := by
  unfold hookLeave
  by_cases hc : (ret.owned.all fun i => (h.objs i).isSome) = true
  · rw [if_pos hc]; exact (silent_convertResult ..).bind fun _ _ => .ok _
  · rw [if_neg hc]; exact .ub _

theorem silent_raise (h : Heap) (t : Nat) (e : Exn) : Silent ((HeapOp.raise e).run h t) := by
  refine Silent.bind ?_ fun _ _ => .ok _
  unfold HeapOp.exec
  split
  · exact .ub _
  · exact Silent.bind (Silent.bind (silent_env ..) fun _ _ => .ok _) fun _ _ => .ok _

theorem silent_clear (h : Heap) (t : Nat) : Silent (HeapOp.exceptionClear.run h t) := by
  refine Silent.bind ?_ fun _ _ => .ok _
  unfold HeapOp.exec
  split
  · exact .ub _
  · exact Silent.bind (Silent.bind (silent_env ..) fun _ _ => .ok _) fun _ _ => .ok _

theorem silent_catchAll (h : Heap) (t : Nat) (temps : List Nat) (e : Exn) : Silent (h.catchAll t temps e) :=
  (silent_raise ..).bind fun _ _ => .ok _

theorem silent_invokeEnd (h : Heap) (t : Nat) (os : List Nat) : Silent (h.invokeEnd t os) := by
  unfold invokeEnd
  split
  · exact .ub _
  · split
    · exact .ok _
    · split <;> first | exact .ok _ | exact .ub _

theorem silent_begin {h : Heap} (hs : Sound h) (t : Nat) {target : Recipient} {args : List InvokeArg}
    (hl : Ordinary h target.ref ∧ ∀ a ∈ args, ArgOk h a) : Silent (h.invokeBegin w share t target args) := by
  cases he : h.envs t with
  | some e =>
    obtain ⟨h1, js, hx⟩ := invokeBegin_exists (w := w) (share := share) hs.inv he hl.1 hl.2
    rw [hx]; exact .ok _
  | none =>
    unfold invokeBegin
    have : (h.hold (invokeOwned target args)).toJNI? t ((h.hold (invokeOwned target args)).typeClass target.type)
        (some target.ref) = .ub .dangling := by
      obtain ⟨o, ho, _⟩ := hl.1
      have ho' : (h.hold (invokeOwned target args)).objs target.ref = some o := ho
      simp only [toJNI?, toJNI, ho']
      have hn : ∀ c, ((if o.cls.isNone then (h.hold (invokeOwned target args)).setObj target.ref { o with cls := c }
          else h.hold (invokeOwned target args)).envs t) = none := fun c => by
        cases o.cls.isNone
        · exact he
        · exact he
      simp only [pushLocal, Heap.env, hn]
      rfl
    dsimp only
    rw [this]
    exact .ub _

mutual

theorem stmt_silent {t : Nat} {h : Heap} (hs : Sound h) (s : ProgStmt) : Silent (s.run w share t h) := by
  cases s with
  | call u op =>
    rw [ProgStmt.run, Heap.callStmt]
    split <;> first | exact .ok _ | exact .ub _ | exact .div
  | raise e => rw [ProgStmt.run]; exact .ok _
  | attempt clear body =>
    rw [ProgStmt.run]
    refine (prog_silent hs body).bind fun y _ => ?_
    obtain ⟨h1, y⟩ := y
    cases y with
    | none => exact .ok _
    | some e =>
      cases clear with
      | false => exact .ok _
      | true => exact (silent_clear h1 t).bind fun _ _ => .ok _
  | frame vm body =>
    rw [ProgStmt.run]
    split
    · rename_i h1 made hent
      have hs1 := (enterFrame_sound hs hent).1
      exact (prog_silent hs1 body).bind fun y _ => Silent.bind ⟨leave_no_throw _ _ _⟩ fun _ _ => .ok _
    · exact .ok _
    · exact .ub _
    · exact .div
  | invoke target args this ps body ret =>
    rw [ProgStmt.run]
    by_cases hl : (h.isOrdinary target.ref && args.all h.isGiven) = true
    · rw [if_pos hl]
      refine (silent_begin hs t (legal_iff.1 hl)).bind fun y hy => ?_
      obtain ⟨h1, js⟩ := y
      dsimp only
      have S := started hs (legal_iff.1 hl) hy
      rw [enter_returns (b' := []) (r' := .void), enterStop_returns (b' := []) (r' := .void)]
      split
      · rename_i h2 temps xs hent
        refine (prog_silent (within S hent).sound body).bind fun z _ => ?_
        obtain ⟨h3, z⟩ := z
        cases z with
        | none => exact (silent_hookLeave ..).bind fun _ _ => silent_invokeEnd ..
        | some e => exact (silent_catchAll ..).bind fun _ _ => silent_invokeEnd ..
      · exact (silent_catchAll ..).bind fun _ _ => silent_invokeEnd ..
      · exact .ub _
      · exact .div
    · rw [if_neg hl]; exact .ub _

theorem prog_silent {t : Nat} {h : Heap} (hs : Sound h) (l : List ProgStmt) : Silent (runProg w share t h l) := by
  cases l with
  | nil => rw [runProg]; exact .ok _
  | cons s l =>
    rw [runProg]
    refine (stmt_silent hs s).bind fun y hy => ?_
    obtain ⟨h1, y⟩ := y
    cases y with
    | none => exact prog_silent (stmt_sound hs s hy).1 l
    | some e => exact .ok _

end

/-! ### Progress -/

/-- A function that returns normally ends, if it does not return a released object. -/
theorem hookLeave_exists {h : Heap} (hi : h.Inv) {t : Nat} {temps : List Nat} (hh : Holding temps h) {e : Env}
    (he : h.envs t = some e) {ret : ObjRet} (hl : ∀ i ∈ ret.owned, Spec.Live h i) :
    ∃ h' r, h.hookLeave w t temps ret = .ok (h', r) := by
  have hp1 := hi.toPre.letGo hh
  have hp2 : (h.letGo temps |>.hold ret.owned).Pre := hp1.hold hl
  have hi3 := hp2.collect
  have hh3 := (hp1.holding ret.owned).collect
  have he3 : (h.letGo temps |>.hold ret.owned).collect.envs t = some e := by
    rw [(collect_rest _).envs]; exact he
  have key : ∃ p, (h.letGo temps |>.hold ret.owned).collect.convertResult w t ret = .ok p := by
    cases ret with
    | void => exact ⟨_, rfl⟩
    | jobject r => exact ⟨_, rfl⟩
    | shared c o =>
      obtain ⟨h4, hx⟩ := toJNI?_exists (i := o) hi3.toPre he3
        (fun i hi => hh3.live hi3.toPre (by simp [ObjRet.owned, hi])) (staticClass_ok (w := w) (c := c) hi3.toPre)
      exact ⟨_, hx⟩
    | value c o =>
      have : ∃ p, (h.letGo temps |>.hold (ObjRet.value c o).owned).collect.copyOf o = .ok p := by
        cases o with
        | none => exact ⟨_, rfl⟩
        | some i =>
          obtain ⟨oi, hoi⟩ := hh3.live hi3.toPre (i := i) (by simp [ObjRet.owned])
          exact ⟨_, by rw [copyOf, hoi]⟩
      obtain ⟨⟨h4, k⟩, hx⟩ := this
      obtain ⟨s, rfl, _, cls, rfl, _⟩ := copyOf_ok hi3.toPre t hx
      obtain ⟨h5, hx5⟩ := toJNI?_exists (t := t) (e := e) (i := some _) s.pre he3
        (fun i hi => by cases hi; exact alloc_live _ _) (staticClass_ok (w := w) (c := c) s.pre)
      exact ⟨_, by rw [convertResult, hx, Res.bind_ok]; exact hx5⟩
  obtain ⟨⟨h4, r⟩, hx⟩ := key
  refine ⟨(h4.letGo ret.owned).collect, r, ?_⟩
  rw [hookLeave, if_pos, hx, Res.bind_ok]
  rw [List.all_eq_true]
  intro i hm
  obtain ⟨o, ho⟩ := hl i hm
  simp [ho]

/-- With matching parameters the conversions succeed or throw. -/
theorem enters_or_refuses {h h1 : Heap} {t : Nat} {target : Recipient} {args : List InvokeArg}
    {js : List JArg} (S : Started w share t h target args h1 js) {this : Option CppClass} {ps : List Param}
    (hm : MatchesAll args ps) :
    (∃ r, h1.invokeEnter w t target ⟨this, ps, [], .void⟩ js = .ok r) ∨
      ∃ ex, h1.invokeEnter w t target ⟨this, ps, [], .void⟩ js = .throws ex := by
  have B := S.begun
  obtain ⟨e, he⟩ := S.env
  obtain ⟨k, hpu, _⟩ := B.locals
  have hp1 := B.inv.toPre
  have he1 := hpu.env e he
  have hrd : ReadyAll h1 args js ps := readyAll_of_handed (h := h)
    (fun ho => ordinary_step (h := h.hold (invokeOwned target args)) B.step ho) B.handed hm S.legal.2
    (fun r hr => B.step.valid (h := h.hold (invokeOwned target args)) (S.legal.2 _ hr)) fun i _ ho => ho
  have ht1 : Ordinary h1 target.ref := ordinary_step (h := h.hold (invokeOwned target args)) B.step S.legal.1
  have hd : h1.denote (some target.ref) = .ok (some target.ref) := (denote_iff hp1).2 (ordinary_denotes ht1)
  have hself : (∃ l, h1.receiver w (this.map fun c => (c, some target.ref)) = .ok l) ∨
      ∃ ex, h1.receiver w (this.map fun c => (c, some target.ref)) = .throws ex := by
    cases this with
    | none => exact .inl ⟨[], rfl⟩
    | some c =>
      cases hw : w.isa target.ref c with
      | true => exact .inl ⟨[target.ref], by simp [receiver, unpack, hd, hw, Res.bind_ok]⟩
      | false =>
        refine .inr ⟨.badCast, ?_⟩
        simp only [Option.map_some, receiver, unpack, hd, Res.bind_ok, hw, Bool.false_eq_true, if_false]
        rfl
  rcases hself with ⟨l, hs⟩ | ⟨ex, hs⟩
  · rcases hrd.cases (w := w) hp1 he1 with ⟨h3, xs, hxs, _⟩ | ⟨⟨ex, hxs⟩, _⟩
    · refine .inl ⟨((h3.hold (l ++ xs.filterMap Arg.owned)).collect, l ++ xs.filterMap Arg.owned, xs), ?_⟩
      rw [invokeEnter, hs, Res.bind_ok, hxs, Res.bind_ok]
    · exact .inr ⟨ex, by rw [invokeEnter, hs, Res.bind_ok, hxs]; rfl⟩
  · exact .inr ⟨ex, by rw [invokeEnter, hs]; rfl⟩

/-- The parts of `invoke`, put together. -/
theorem run_invoke {h h1 : Heap} {t : Nat} {target : Recipient} {args : List InvokeArg} {js : List JArg}
    {this : Option CppClass} {ps : List Param} {body : List ProgStmt} {ret : ObjRet}
    (hl : Ordinary h target.ref ∧ ∀ a ∈ args, ArgOk h a)
    (hb : h.invokeBegin w share t target args = .ok (h1, js)) :
    (ProgStmt.invoke target args this ps body ret).run w share t h =
      match h1.invokeEnter w t target ⟨this, ps, [], .void⟩ js with
        | .ok (h, temps, _) =>
          (runProg w share t h body).bind fun
            | (h, none) => (h.hookLeave w t temps ret).bind fun (h, _) =>
                h.invokeEnd t (invokeOwned target args)
            | (h, some e) => (h.catchAll t temps e).bind fun h => h.invokeEnd t (invokeOwned target args)
        | .throws e =>
          ((h1.enterStop w t target ⟨this, ps, [], .void⟩ js).catchAll t [] e).bind fun h =>
            h.invokeEnd t (invokeOwned target args)
        | .ub x => .ub x
        | .diverges => .diverges := by
  rw [ProgStmt.run, if_pos (legal_iff.2 hl), hb, Res.bind_ok]
  rfl

theorem runProg_calls {t : Nat} {ops : List (Nat × HeapOp)} {h h' : Heap} (hx : runHeap h ops = .ok h') :
    runProg w share t h (ops.map fun x => .call x.1 x.2) = .ok (h', none) := by
  induction ops generalizing h with
  | nil => cases hx; rw [List.map_nil, runProg]
  | cons x ops ih =>
    obtain ⟨⟨h1, out⟩, hx1, hx2⟩ := Res.bind_eq_ok.1 hx
    rw [List.map_cons, runProg, ProgStmt.run, Heap.callStmt, hx1, Res.bind_ok]
    exact ih hx2

theorem _root_.Spec.ProgReachable.of_heap {h : Heap} (hr : HeapReachable h) : ProgReachable w h := by
  obtain ⟨ops, hx⟩ := hr
  exact .run .initial (runProg_calls (share := true) (t := 0) hx)

end Jnivm
