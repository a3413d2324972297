import Verif.Spec.Registration
import Verif.Props.HookSig
/-! Lemmas about class descriptors. -/
namespace Jnivm
open Spec

/-- Keep a promise: one call of `hookMethod` or `hookField`. -/
def World.keep (c : Nat) (w : World) (p : Promise) : World :=
  match p.use with
  | .call => w.hookMethod c p.static p.name p.type p.fn
  | .get => w.hookField c true p.static p.name p.type p.fn
  | .set => w.hookField c false p.static p.name p.type p.fn

/-- The tables agree. -/
structure SameTables (w w' : World) : Prop where
  mem : w'.mem = w.mem
  next : w'.next = w.next

theorem hookField_frame (w : World) (c : Nat) (g st : Bool) (name t : Str) (fn : Nat) :
    (w.hookField c g st name t fn).types = w.types ∧ (w.hookField c g st name t fn).reg = w.reg := by
  cases hf : (w.mem c).fields.find? (FieldKey.hits ⟨st, name, t⟩) with
  | none => rw [hookField_new hf]; exact ⟨rfl, rfl⟩
  | some m => rw [hookField_found hf]; exact ⟨rfl, rfl⟩

theorem keep_same {w w' : World} (h : SameTables w w') (c : Nat) (p : Promise) :
    SameTables (w.keep c p) (w'.keep c p) := by
  obtain ⟨h1, h2⟩ := h
  unfold World.keep
  cases p.use with
  | call =>
    simp only
    cases hf : (w.mem c).methods.find? (hookHits p.static p.name p.type) with
    | none =>
      rw [hookMethod_new hf, hookMethod_new (by rw [h1]; exact hf)]
      exact ⟨by simp only [World.setMem, h1, h2], by simp only [h2]⟩
    | some m =>
      rw [hookMethod_found hf, hookMethod_found (by rw [h1]; exact hf)]
      exact ⟨by simp only [World.setMem, h1], h2⟩
  | get =>
    simp only
    cases hf : (w.mem c).fields.find? (FieldKey.hits ⟨p.static, p.name, p.type⟩) with
    | none =>
      rw [hookField_new hf, hookField_new (by rw [h1]; exact hf)]
      exact ⟨by simp only [World.setMem, h1, h2], by simp only [h2]⟩
    | some m =>
      rw [hookField_found hf, hookField_found (by rw [h1]; exact hf)]
      exact ⟨by simp only [World.setMem, h1], h2⟩
  | set =>
    simp only
    cases hf : (w.mem c).fields.find? (FieldKey.hits ⟨p.static, p.name, p.type⟩) with
    | none =>
      rw [hookField_new hf, hookField_new (by rw [h1]; exact hf)]
      exact ⟨by simp only [World.setMem, h1, h2], by simp only [h2]⟩
    | some m =>
      rw [hookField_found hf, hookField_found (by rw [h1]; exact hf)]
      exact ⟨by simp only [World.setMem, h1], h2⟩

theorem keepAll_same {c : Nat} (ps : List Promise) : ∀ {w w' : World}, SameTables w w' →
    SameTables (ps.foldl (World.keep c) w) (ps.foldl (World.keep c) w') := by
  induction ps with
  | nil => exact fun h => h
  | cons p ps ih => exact fun h => ih (keep_same h c p)

theorem _root_.Spec.OnlyClasses.same {w w' : World} {a : List Str} (h : OnlyClasses w w' a) : SameTables w w' :=
  ⟨h.mem, h.next⟩

theorem SameTables.trans {w w1 w2 : World} (h : SameTables w w1) (h' : SameTables w1 w2) : SameTables w w2 :=
  ⟨h'.mem.trans h.mem, h'.next.trans h.next⟩

theorem Keeps.trans {w w1 w2 : World} (h : Keeps w w1) (h' : Keeps w1 w2) : Keeps w w2 :=
  ⟨h'.types.trans h.types, fun n c k => h'.keep n c (h.keep n c k)⟩

theorem hookMethod_keeps (w : World) (c : Nat) (st : Bool) (name sig : Str) (fn : Nat) :
    Keeps w (w.hookMethod c st name sig fn) :=
  ⟨hook_types .., fun n k h => by unfold World.IsClass; rw [hookMethod_reg]; exact h⟩

theorem hookField_keeps (w : World) (c : Nat) (g st : Bool) (name t : Str) (fn : Nat) :
    Keeps w (w.hookField c g st name t fn) :=
  ⟨(hookField_frame ..).1, fun n k h => by unfold World.IsClass; rw [(hookField_frame ..).2]; exact h⟩

/-- One form of a method. -/
theorem installOne_call {ci : CppInfo} {w : World} (hr : MemReachable w) (c : Nat) {b : Bind}
    (hb : b.what = .method) {f : CppFn} (name : Str) (fn : Nat → Nat) {lead : Nat} {tys : List Ty}
    {ret : Option Ty} (hp : JavaTypes ci w (f.params.drop lead) tys) (hret : JavaRet ci w f.ret ret) :
    ∃ w', f.installOne ci w c b name fn lead = .ok w' ∧ MemReachable w' ∧ Keeps w w' ∧
      SameTables (w.keep c ⟨.call, !b.inst, name, renderSig tys ret, fn lead⟩) w' := by
  obtain ⟨w1, h1, hr1, g1⟩ := hook_signature hr f lead hp hret
  refine ⟨w1.hookMethod c (!b.inst) name (renderSig tys ret) (fn lead), ?_,
    hr1.step (op := .hookMethod c (!b.inst) name (renderSig tys ret) (fn lead)) rfl,
    g1.keeps.trans (hookMethod_keeps ..), ?_⟩
  · simp only [CppFn.installOne, hb, h1, Res.bind_ok]
  · exact keep_same g1.same c ⟨.call, !b.inst, name, renderSig tys ret, fn lead⟩

/-- The kind of target that `Hook` and `HookInstance` choose. -/
theorem what_iff (k : FnKind) : (k.bind.what = .method ↔ k = .plain ∨ k = .member) ∧
    (k.bind.what = .property ↔ k = .variable ∨ k = .dataMember) := by
  cases k <;> simp [FnKind.bind]

theorem install_promises {ci : CppInfo} {w : World} (hr : MemReachable w) {c : Nat} {b : Bind} {f : CppFn}
    (hb : b.what = f.kind.bind.what) {name : Str} {fn : Nat → Nat} {ps : List Promise}
    (h : Promises ci w c f (!b.inst) name fn ps) :
    ∃ w', f.install ci w c b name fn = .ok w' ∧ MemReachable w' ∧ Keeps w w' ∧
      SameTables (ps.foldl (World.keep c) w) w' := by
  cases h with
  | @fn tys ret hk hp hret hself =>
    have hm : b.what = .method := hb.trans ((what_iff _).1.2 hk)
    obtain ⟨w1, e1, hr1, k1, s1⟩ := installOne_call hr c hm name fn hp hret
    have hneed : f.needsSelf b = false := by simp [CppFn.needsSelf, hm]
    have ht : f.takesSelf ci w c b.inst f.envArg = false := by
      cases hts : f.takesSelf ci w c b.inst f.envArg with
      | false => rfl
      | true =>
        exfalso
        unfold CppFn.takesSelf at hts
        rw [Bool.and_eq_true, beq_iff_eq, envArg_envParams] at hts
        obtain ⟨hpl, hts⟩ := hts
        cases hg : f.params[envParams f.params]? with
        | none => rw [hg] at hts; cases hts
        | some p =>
          rw [hg] at hts
          have := hself hpl p hg
          rw [Bool.not_not] at this
          exact this ((isSelf_iff ..).1 hts)
    rw [envArg_envParams] at ht
    refine ⟨w1, ?_, hr1, k1, s1⟩
    simp only [CppFn.install, CppFn.leads, hneed, ht, Bool.false_eq_true, if_false,
      List.append_nil, List.foldl, Res.bind_ok, envArg_envParams, e1]
  | @self t tys ret p hk hp hret hg hself =>
    have hm : b.what = .method := hb.trans ((what_iff _).1.2 (.inl hk))
    obtain ⟨w1, e1, hr1, k1, s1⟩ := installOne_call hr c hm name fn hp hret
    have hneed : f.needsSelf b = false := by simp [CppFn.needsSelf, hm]
    have ht : f.takesSelf ci w c b.inst f.envArg = true := by
      unfold CppFn.takesSelf
      rw [Bool.and_eq_true, beq_iff_eq, envArg_envParams]
      refine ⟨hk, ?_⟩
      rw [hg]
      rw [Bool.not_not] at hself
      exact (isSelf_iff ..).2 hself
    have hp1 : JavaTypes ci w1 (f.params.drop (envParams f.params + 1)) tys := by
      have : f.params.drop (envParams f.params + 1) = (f.params.drop (envParams f.params)).tail := by
        rw [List.tail_drop]
      rw [this]
      cases hp' : f.params.drop (envParams f.params) with
      | nil => rw [hp'] at hp; cases hp
      | cons q qs =>
        rw [hp'] at hp
        cases hp with
        | cons h1 h2 => exact JavaTypes.mono k1 h2
    obtain ⟨w2, e2, hr2, k2, s2⟩ := installOne_call hr1 c hm name fn hp1 (JavaRet.mono k1 hret)
    rw [envArg_envParams] at ht
    refine ⟨w2, ?_, hr2, k1.trans k2, ?_⟩
    · simp only [CppFn.install, CppFn.leads, hneed, ht, Bool.false_eq_true, if_false, if_true,
        List.cons_append, List.nil_append, List.foldl, Res.bind_ok, envArg_envParams, e1, e2]
    · exact (keep_same s1 c _).trans s2
  | @var t hk hp ht =>
    have hm : b.what = .property := hb.trans ((what_iff _).2.2 hk)
    have hneed : f.needsSelf b = false := by simp [CppFn.needsSelf, hm, hp]
    have hts : f.takesSelf ci w c b.inst f.envArg = false := by
      unfold CppFn.takesSelf
      rcases hk with hk | hk <;> rw [hk] <;> rfl
    have henv : f.envArg = 0 := by simp [CppFn.envArg, hp]
    rw [henv] at hts
    obtain ⟨w1, h1, hr1, g1⟩ := ty_sig hr ht
    have hr2 := hr1.step (op := .hookField c true (!b.inst) name t.render (fn 0)) rfl
    have k2 := g1.keeps.trans (hookField_keeps w1 c true (!b.inst) name t.render (fn 0))
    obtain ⟨w3, h3, hr3, g3⟩ := ty_sig hr2 (JavaType.mono k2 ht)
    have hr4 := hr3.step (op := .hookField c false (!b.inst) name t.render (fn 0)) rfl
    refine ⟨_, ?_, hr4, (k2.trans g3.keeps).trans (hookField_keeps ..), ?_⟩
    · have hset : f.setterSig ci (w1.hookField c true (!b.inst) name t.render (fn 0)) 0 = .ok (w3, t.render) := by
        unfold CppFn.setterSig
        rcases hk with hk | hk <;> rw [hk] <;> exact h3
      simp only [CppFn.install, CppFn.leads, hneed, hts, henv, Bool.false_eq_true, if_false,
        List.append_nil, List.foldl, Res.bind_ok, CppFn.installOne, hm, CppFn.getterSig, h1, hset]
    · have a := (keep_same g1.same c ⟨.get, !b.inst, name, t.render, fn 0⟩).trans
        (g3.same (w := w1.keep c ⟨.get, !b.inst, name, t.render, fn 0⟩))
      exact keep_same a c ⟨.set, !b.inst, name, t.render, fn 0⟩

theorem saysStatic_iff (compat : Bool) (f : CppFn) (flags : Option (BitVec 32)) :
    (flags.getD (f.kind.defaultFlags compat)) &&& staticFlag ≠ 0 ↔ SaysStatic compat f flags := by
  have bit : ∀ v : BitVec 32, v &&& staticFlag ≠ 0 ↔ v.getLsbD 3 = true := by
    intro v
    have e : v &&& staticFlag = if v.getLsbD 3 then staticFlag else 0 := by
      apply BitVec.eq_of_getLsbD_eq
      intro i hi
      rw [BitVec.getLsbD_and]
      have hs : staticFlag.getLsbD i = decide (i = 3) := by
        revert i
        decide
      by_cases h3 : i = 3
      · subst h3
        cases hv : v.getLsbD 3
        · simp only [Bool.false_and, Bool.false_eq_true, if_false]; decide
        · simp only [Bool.true_and, if_true]
      · have hs' : staticFlag.getLsbD i = false := by rw [hs]; simp [h3]
        cases v.getLsbD 3 <;> simp [hs']
    rw [e]
    cases v.getLsbD 3 <;> simp [staticFlag]
  rw [bit]
  cases flags with
  | some v => exact Iff.rfl
  | none =>
    show (f.kind.defaultFlags compat).getLsbD 3 = true ↔ (compat = true ∧ f.kind.isInstance = false)
    cases f.kind <;> cases compat <;> decide

theorem make_inv {compat : Bool} {ci : CppInfo} {w : World} {c : Nat} {e : DescEntry} {ps : List Promise}
    (h : EntryPromises compat ci w c e ps) : ∃ r, e.make compat = .ok r ∧ r.bind.what = r.f.kind.bind.what ∧
      Promises ci w c r.f (!r.bind.inst) r.name r.fn ps := by
  cases h with
  | @static f name flags fn _ h1 h2 h3 =>
    refine ⟨⟨f, name, f.kind.bind, fn⟩, ?_, rfl, ?_⟩
    · simp only [DescEntry.make, h2, Bool.false_eq_true, if_false]
      rw [if_pos ((saysStatic_iff ..).2 h1)]
    · have : f.kind.bind.inst = false := by
        revert h2
        cases f.kind <;> simp [FnKind.bind, FnKind.isInstance]
      simp only [this, Bool.not_false]
      exact h3
  | @inst f name flags fn _ h1 h2 =>
    refine ⟨⟨f, name, f.kind.bindInstance, fn⟩, ?_, rfl, h2⟩
    simp only [DescEntry.make]
    rw [if_neg (fun h => h1 ((saysStatic_iff ..).1 h))]
  | ctor h1 => exact ⟨_, rfl, rfl, h1⟩

theorem _root_.Spec.SelfParam.congr {ci : CppInfo} {w w' : World} (h : w'.types = w.types) {c : Nat} {i : Bool}
    {p : CppTy} (hp : SelfParam ci w c i p) : SelfParam ci w' c i p := by
  cases hp with
  | jobject => exact .jobject
  | object h => exact .object h
  | own h1 h2 h3 => exact .own h1 h2 (by rw [h]; exact h3)
  | jclass => exact .jclass
  | clazz => exact .clazz

theorem _root_.Spec.Promises.mono {ci : CppInfo} {w w' : World} (g : Keeps w w') {c : Nat} {f : CppFn} {st : Bool}
    {name : Str} {fn : Nat → Nat} {ps : List Promise} (h : Promises ci w c f st name fn ps) :
    Promises ci w' c f st name fn ps := by
  cases h with
  | fn h1 h2 h3 h4 =>
    exact .fn h1 (JavaTypes.mono g h2) (JavaRet.mono g h3) fun hk p hp hs =>
      h4 hk p hp (SelfParam.congr g.types.symm hs)
  | self h1 h2 h3 h4 h5 => exact .self h1 (JavaTypes.mono g h2) (JavaRet.mono g h3) h4 (SelfParam.congr g.types h5)
  | var h1 h2 h3 => exact .var h1 h2 (JavaType.mono g h3)

theorem _root_.Spec.EntryPromises.mono {compat : Bool} {ci : CppInfo} {w w' : World} (g : Keeps w w') {c : Nat}
    {e : DescEntry} {ps : List Promise} (h : EntryPromises compat ci w c e ps) : EntryPromises compat ci w' c e ps := by
  cases h with
  | static h1 h2 h3 => exact .static h1 h2 (Promises.mono g h3)
  | inst h1 h2 => exact .inst h1 (Promises.mono g h2)
  | ctor h => exact .ctor (Promises.mono g h)

theorem _root_.Spec.AllPromises.mono {compat : Bool} {ci : CppInfo} {w w' : World} (g : Keeps w w') {c : Nat}
    {es : List DescEntry} {ps : List Promise} (h : AllPromises compat ci w c es ps) :
    AllPromises compat ci w' c es ps := by
  induction h with
  | nil => exact .nil
  | cons h _ ih => exact .cons (EntryPromises.mono g h) ih

theorem register_promises {compat : Bool} {ci : CppInfo} {c : Nat} {es : List DescEntry} :
    ∀ {w : World} {ps : List Promise}, MemReachable w → AllPromises compat ci w c es ps →
    ∃ rs, makeAll compat es = .ok rs ∧ ∃ w', w.registerAll ci c rs = .ok w' ∧ MemReachable w' ∧ Keeps w w' ∧
      SameTables (ps.foldl (World.keep c) w) w' := by
  induction es with
  | nil =>
    intro w ps hr h
    cases h
    exact ⟨[], rfl, w, rfl, hr, ⟨rfl, fun _ _ h => h⟩, ⟨rfl, rfl⟩⟩
  | cons e es ih =>
    intro w ps hr h
    cases h with
    | @cons _ _ ps qs h1 h2 =>
      obtain ⟨r, m1, m2, m3⟩ := make_inv h1
      obtain ⟨w1, e1, hr1, k1, s1⟩ := install_promises hr m2 m3
      obtain ⟨rs, m4, w2, e2, hr2, k2, s2⟩ := ih hr1 (AllPromises.mono k1 h2)
      refine ⟨r :: rs, ?_, w2, ?_, hr2, k1.trans k2, ?_⟩
      · simp only [makeAll, m1, m4, Res.bind_ok]
      · simp only [World.registerAll, e1, Res.bind_ok, e2]
      · rw [List.foldl_append]
        exact (keepAll_same qs s1).trans s2

/-! ### Lookups after keeping promises -/

/-- The record of a method in the table of `c`. -/
def World.callRec (w : World) (c : Nat) (st : Bool) (name sig : Str) : Option MethodRec :=
  (w.mem c).methods.find? (hookHits st name sig)

/-- The record of a field in the table of `c`. -/
def World.fieldRec (w : World) (c : Nat) (st : Bool) (name type : Str) : Option FieldRec :=
  (w.mem c).fields.find? (FieldKey.hits ⟨st, name, type⟩)

theorem find_append_miss {α : Type} {p : α → Bool} (l : List α) {x : α} (h : p x = false) :
    (l ++ [x]).find? p = l.find? p := by
  rw [List.find?_append, List.find?_cons_of_neg (by simp [h])]
  cases l.find? p <;> rfl

theorem hookMethod_callRec (w : World) (c : Nat) (st : Bool) (name sig : Str) (fn : Nat) (st' : Bool)
    (name' sig' : Str) : (w.hookMethod c st name sig fn).callRec c st' name' sig' =
      if st = st' ∧ name = name' ∧ sig = sig' then
        some { (w.callRec c st name sig).getD ⟨w.next, name, sig, st, none, none⟩ with handle := some fn }
      else w.callRec c st' name' sig' := by
  by_cases hk : st = st' ∧ name = name' ∧ sig = sig'
  · obtain ⟨rfl, rfl, rfl⟩ := hk
    rw [if_pos ⟨rfl, rfl, rfl⟩]
    unfold World.callRec
    cases hf : (w.mem c).methods.find? (hookHits st name sig) with
    | none =>
      rw [hookMethod_new hf]
      simp only [setMem_mem, if_true]
      rw [List.find?_append, hf, List.find?_cons_of_pos (p := hookHits st name sig) (hookHits_iff.2 ⟨rfl, rfl, rfl⟩)]
      rfl
    | some m =>
      rw [hookMethod_found hf]
      simp only [setMem_mem, if_true]
      have := List.find?_some hf
      exact find_updateFirst (fun _ h => h) hf (hookHits_iff.2 (hookHits_iff.1 this))
  · rw [if_neg hk]
    have key : ∀ a, hookHits st name sig a = true → hookHits st' name' sig' a = false := by
      intro a ha
      cases hb : hookHits st' name' sig' a with
      | false => rfl
      | true =>
        obtain ⟨a1, a2, a3⟩ := hookHits_iff.1 ha
        obtain ⟨b1, b2, b3⟩ := hookHits_iff.1 hb
        exact absurd ⟨a1.symm.trans b1, a2.symm.trans b2, a3.symm.trans b3⟩ hk
    unfold World.callRec
    cases hf : (w.mem c).methods.find? (hookHits st name sig) with
    | none =>
      rw [hookMethod_new hf]
      simp only [setMem_mem, if_true]
      exact find_append_miss _ (key _ (hookHits_iff.2 ⟨rfl, rfl, rfl⟩))
    | some m =>
      rw [hookMethod_found hf]
      simp only [setMem_mem, if_true]
      exact find_updateFirst_other (f := fun m => { m with handle := some fn }) key (fun a ha => key a ha)

theorem hookField_callRec (w : World) (c : Nat) (g st : Bool) (name t : Str) (fn : Nat) (d : Nat) (st' : Bool)
    (name' sig' : Str) : (w.hookField c g st name t fn).callRec d st' name' sig' = w.callRec d st' name' sig' := by
  unfold World.callRec
  by_cases hd : d = c
  · subst hd
    cases hf : (w.mem d).fields.find? (FieldKey.hits ⟨st, name, t⟩) with
    | none => rw [hookField_new hf]; simp
    | some m => rw [hookField_found hf]; simp
  · cases hf : (w.mem c).fields.find? (FieldKey.hits ⟨st, name, t⟩) with
    | none => rw [hookField_new hf]; simp [hd]
    | some m => rw [hookField_found hf]; simp [hd]

theorem hookMethod_fieldRec (w : World) (c : Nat) (st : Bool) (name t : Str) (fn : Nat) (d : Nat) (st' : Bool)
    (name' sig' : Str) : (w.hookMethod c st name t fn).fieldRec d st' name' sig' = w.fieldRec d st' name' sig' := by
  unfold World.fieldRec
  by_cases hd : d = c
  · subst hd
    cases hf : (w.mem d).methods.find? (hookHits st name t) with
    | none => rw [hookMethod_new hf]; simp
    | some m => rw [hookMethod_found hf]; simp
  · cases hf : (w.mem c).methods.find? (hookHits st name t) with
    | none => rw [hookMethod_new hf]; simp [hd]
    | some m => rw [hookMethod_found hf]; simp [hd]

theorem setHandle_hits (g : Bool) (fn : Nat) (k : FieldKey) (f : FieldRec) :
    k.hits (f.setHandle g fn) = k.hits f := by
  cases g <;> rfl

theorem hookField_fieldRec (w : World) (c : Nat) (g st : Bool) (name sig : Str) (fn : Nat) (st' : Bool)
    (name' sig' : Str) : (w.hookField c g st name sig fn).fieldRec c st' name' sig' =
      if st = st' ∧ name = name' ∧ sig = sig' then
        some (FieldRec.setHandle g fn ((w.fieldRec c st name sig).getD ⟨w.next, name, sig, st, none, none⟩))
      else w.fieldRec c st' name' sig' := by
  by_cases hk : st = st' ∧ name = name' ∧ sig = sig'
  · obtain ⟨rfl, rfl, rfl⟩ := hk
    rw [if_pos ⟨rfl, rfl, rfl⟩]
    unfold World.fieldRec
    cases hf : (w.mem c).fields.find? (FieldKey.hits ⟨st, name, sig⟩) with
    | none =>
      rw [hookField_new hf]
      simp only [setMem_mem, if_true]
      rw [List.find?_append, hf, List.find?_cons_of_pos (by rw [setHandle_hits]; exact fhits_iff.2 ⟨rfl, rfl, rfl⟩)]
      rfl
    | some m =>
      rw [hookField_found hf]
      simp only [setMem_mem, if_true]
      have := List.find?_some hf
      exact find_updateFirst (fun _ h => h) hf (by rw [setHandle_hits]; exact this)
  · rw [if_neg hk]
    have key : ∀ a, FieldKey.hits ⟨st, name, sig⟩ a = true → FieldKey.hits ⟨st', name', sig'⟩ a = false := by
      intro a ha
      cases hb : FieldKey.hits ⟨st', name', sig'⟩ a with
      | false => rfl
      | true =>
        obtain ⟨a1, a2, a3⟩ := fhits_iff.1 ha
        obtain ⟨b1, b2, b3⟩ := fhits_iff.1 hb
        exact absurd ⟨a1.symm.trans b1, a2.symm.trans b2, a3.symm.trans b3⟩ hk
    unfold World.fieldRec
    cases hf : (w.mem c).fields.find? (FieldKey.hits ⟨st, name, sig⟩) with
    | none =>
      rw [hookField_new hf]
      simp only [setMem_mem, if_true]
      exact find_append_miss _ (by rw [setHandle_hits]; exact key _ (fhits_iff.2 ⟨rfl, rfl, rfl⟩))
    | some m =>
      rw [hookField_found hf]
      simp only [setMem_mem, if_true]
      exact find_updateFirst_other (f := FieldRec.setHandle g fn) key (fun a ha => by rw [setHandle_hits]; exact key a ha)

/-! ### The promises that were kept -/

theorem lastPromise_snoc (use : Use) (st : Bool) (name type : Str) (ps : List Promise) (p : Promise) :
    lastPromise use st name type (ps ++ [p]) =
      if p.use = use ∧ p.static = st ∧ p.name = name ∧ p.type = type then some p.fn
      else lastPromise use st name type ps := by
  unfold lastPromise
  rw [List.filter_append]
  by_cases h : p.use = use ∧ p.static = st ∧ p.name = name ∧ p.type = type
  · rw [if_pos h]
    obtain ⟨rfl, rfl, rfl, rfl⟩ := h
    simp
  · rw [if_neg h]
    have : (p.use == use && p.static == st && p.name == name && p.type == type) = false := by
      rw [Bool.eq_false_iff]
      intro h'
      simp only [Bool.and_eq_true, beq_iff_eq] at h'
      exact h ⟨h'.1.1.1, h'.1.1.2, h'.1.2, h'.2⟩
    simp [this]

/-- The method after the promises: the last function answers, the rest of an existing record stays. -/
theorem keepAll_call (c : Nat) (w : World) (st : Bool) (name sig : Str) (ps : List Promise) :
    match lastPromise .call st name sig ps with
    | none => (ps.foldl (World.keep c) w).callRec c st name sig = w.callRec c st name sig
    | some fn => ∃ id, (ps.foldl (World.keep c) w).callRec c st name sig =
        some { (w.callRec c st name sig).getD ⟨id, name, sig, st, none, none⟩ with handle := some fn } := by
  induction ps using snoc_induction with
  | h0 => rfl
  | h1 ps p ih =>
    rw [lastPromise_snoc, List.foldl_append]
    simp only [List.foldl]
    obtain ⟨use, st', name', type, fn⟩ := p
    cases use with
    | get =>
      rw [if_neg (fun h => nomatch h.1)]
      simp only [World.keep, hookField_callRec]
      exact ih
    | set =>
      rw [if_neg (fun h => nomatch h.1)]
      simp only [World.keep, hookField_callRec]
      exact ih
    | call =>
      simp only [World.keep, hookMethod_callRec]
      by_cases h : st' = st ∧ name' = name ∧ type = sig
      · obtain ⟨rfl, rfl, rfl⟩ := h
        simp only [if_true, true_and]
        cases hl : lastPromise .call st' name' type ps with
        | none =>
          rw [hl] at ih
          simp only at ih
          exact ⟨_, by rw [ih]⟩
        | some g =>
          rw [hl] at ih
          obtain ⟨id, ih⟩ := ih
          exact ⟨id, by rw [ih]; rfl⟩
      · simp only [true_and, if_neg h]
        exact ih

/-- The field after the promises. -/
theorem keepAll_field (c : Nat) (w : World) (st : Bool) (name type : Str) (ps : List Promise) :
    match lastPromise .get st name type ps, lastPromise .set st name type ps with
    | none, none => (ps.foldl (World.keep c) w).fieldRec c st name type = w.fieldRec c st name type
    | g, s => ∃ id, let old := (w.fieldRec c st name type).getD ⟨id, name, type, st, none, none⟩
        (ps.foldl (World.keep c) w).fieldRec c st name type =
          some { old with getter := g.or old.getter, setter := s.or old.setter } := by
  induction ps using snoc_induction with
  | h0 => rfl
  | h1 ps p ih =>
    rw [lastPromise_snoc, lastPromise_snoc, List.foldl_append]
    simp only [List.foldl]
    obtain ⟨use, st', name', type', fn⟩ := p
    cases use with
    | call =>
      rw [if_neg (fun h => nomatch h.1), if_neg (fun h => nomatch h.1)]
      simp only [World.keep, hookMethod_fieldRec]
      exact ih
    | get =>
      simp only [reduceCtorEq, false_and, if_false, World.keep, hookField_fieldRec]
      by_cases h : st' = st ∧ name' = name ∧ type' = type
      · obtain ⟨rfl, rfl, rfl⟩ := h
        simp only [if_true, true_and]
        cases hg : lastPromise .get st' name' type' ps <;> cases hs : lastPromise .set st' name' type' ps <;>
          rw [hg, hs] at ih
        · simp only at ih
          exact ⟨_, by rw [ih]; rfl⟩
        all_goals
          obtain ⟨id, ih⟩ := ih
          exact ⟨id, by rw [ih]; rfl⟩
      · simp only [true_and, if_neg h]
        exact ih
    | set =>
      simp only [reduceCtorEq, false_and, if_false, World.keep, hookField_fieldRec]
      by_cases h : st' = st ∧ name' = name ∧ type' = type
      · obtain ⟨rfl, rfl, rfl⟩ := h
        simp only [if_true, true_and]
        cases hg : lastPromise .get st' name' type' ps <;> cases hs : lastPromise .set st' name' type' ps <;>
          rw [hg, hs] at ih
        · simp only at ih
          exact ⟨_, by rw [ih]; rfl⟩
        all_goals
          obtain ⟨id, ih⟩ := ih
          exact ⟨id, by rw [ih]; rfl⟩
      · simp only [true_and, if_neg h]
        exact ih

/-! ### What promises leave alone -/

theorem hookField_mem_other (w : World) (c : Nat) (g st : Bool) (name type : Str) (fn : Nat) (d : Nat) (f : FieldRec)
    (h : ¬ (d = c ∧ f.static = st ∧ f.name = name ∧ f.type = type)) :
    f ∈ ((w.hookField c g st name type fn).mem d).fields ↔ f ∈ (w.mem d).fields := by
  by_cases hd : d = c
  · subst hd
    have hm : FieldKey.hits ⟨st, name, type⟩ f = false := by
      cases hh : FieldKey.hits ⟨st, name, type⟩ f with
      | false => rfl
      | true => exact absurd ⟨rfl, fhits_iff.1 hh⟩ h
    cases hf : (w.mem d).fields.find? (FieldKey.hits ⟨st, name, type⟩) with
    | none =>
      rw [hookField_new hf]
      simp only [setMem_mem, if_true, List.mem_append, List.mem_singleton]
      refine ⟨fun hx => hx.resolve_right ?_, .inl⟩
      rintro rfl
      rw [setHandle_hits] at hm
      exact absurd (fhits_iff.2 ⟨rfl, rfl, rfl⟩) (by rw [hm]; decide)
    | some m =>
      rw [hookField_found hf]
      simp only [setMem_mem, if_true]
      have hx := List.find?_some hf
      constructor
      · intro hh
        rcases mem_updateFirst hf hh with hh | hh
        · subst hh
          rw [setHandle_hits] at hm
          exact absurd hx (by rw [hm]; decide)
        · exact hh
      · intro hh
        rcases mem_updateFirst_of (f := FieldRec.setHandle g fn) hf hh with hh | hh
        · subst hh; exact absurd hx (by rw [hm]; decide)
        · exact hh
  · cases hf : (w.mem c).fields.find? (FieldKey.hits ⟨st, name, type⟩) with
    | none => rw [hookField_new hf]; simp [hd]
    | some m => rw [hookField_found hf]; simp [hd]

theorem hookMethod_rest (w : World) (c : Nat) (st : Bool) (name sig : Str) (fn d : Nat) :
    let t := (w.hookMethod c st name sig fn).mem d
    t.fields = (w.mem d).fields ∧ t.natives = (w.mem d).natives ∧ t.bases = (w.mem d).bases ∧
      (d ≠ c → t.methods = (w.mem d).methods) := by
  by_cases hd : d = c
  · subst hd
    cases hf : (w.mem d).methods.find? (hookHits st name sig) with
    | none => rw [hookMethod_new hf]; simp
    | some m => rw [hookMethod_found hf]; simp
  · cases hf : (w.mem c).methods.find? (hookHits st name sig) with
    | none => rw [hookMethod_new hf]; simp [hd]
    | some m => rw [hookMethod_found hf]; simp [hd]

theorem hookField_rest (w : World) (c : Nat) (g st : Bool) (name type : Str) (fn d : Nat) :
    let t := (w.hookField c g st name type fn).mem d
    t.methods = (w.mem d).methods ∧ t.natives = (w.mem d).natives ∧ t.bases = (w.mem d).bases ∧
      (d ≠ c → t.fields = (w.mem d).fields) := by
  by_cases hd : d = c
  · subst hd
    cases hf : (w.mem d).fields.find? (FieldKey.hits ⟨st, name, type⟩) with
    | none => rw [hookField_new hf]; simp
    | some m => rw [hookField_found hf]; simp
  · cases hf : (w.mem c).fields.find? (FieldKey.hits ⟨st, name, type⟩) with
    | none => rw [hookField_new hf]; simp [hd]
    | some m => rw [hookField_found hf]; simp [hd]

/-- Promises leave the natives and base types of all classes, and the members they do not name. -/
theorem keepAll_rest (c : Nat) (w : World) (d : Nat) (ps : List Promise) :
    let t := (ps.foldl (World.keep c) w).mem d
    t.natives = (w.mem d).natives ∧ t.bases = (w.mem d).bases ∧
    (∀ m : MethodRec, (∀ p ∈ ps, p.use = .call → ¬ (d = c ∧ m.static = p.static ∧ m.name = p.name ∧ m.signature = p.type)) →
      (m ∈ t.methods ↔ m ∈ (w.mem d).methods)) ∧
    (∀ f : FieldRec, (∀ p ∈ ps, p.use ≠ .call → ¬ (d = c ∧ f.static = p.static ∧ f.name = p.name ∧ f.type = p.type)) →
      (f ∈ t.fields ↔ f ∈ (w.mem d).fields)) := by
  induction ps using snoc_induction with
  | h0 => exact ⟨rfl, rfl, fun _ _ => Iff.rfl, fun _ _ => Iff.rfl⟩
  | h1 ps p ih =>
    obtain ⟨i1, i2, i3, i4⟩ := ih
    simp only [List.foldl_append, List.foldl]
    obtain ⟨use, st, name, type, fn⟩ := p
    cases use with
    | call =>
      simp only [World.keep]
      obtain ⟨a1, a2, a3, _⟩ := hookMethod_rest (ps.foldl (World.keep c) w) c st name type fn d
      refine ⟨a2.trans i1, a3.trans i2, fun m hm => ?_, fun f hf => ?_⟩
      · rw [hook_mem_other _ _ _ _ _ _ _ _ (hm ⟨.call, st, name, type, fn⟩ (by simp) rfl)]
        exact i3 m fun p hp => hm p (List.mem_append_left _ hp)
      · rw [a1]
        exact i4 f fun p hp => hf p (List.mem_append_left _ hp)
    | get =>
      simp only [World.keep]
      obtain ⟨a1, a2, a3, _⟩ := hookField_rest (ps.foldl (World.keep c) w) c true st name type fn d
      refine ⟨a2.trans i1, a3.trans i2, fun m hm => ?_, fun f hf => ?_⟩
      · rw [a1]
        exact i3 m fun p hp => hm p (List.mem_append_left _ hp)
      · rw [hookField_mem_other _ _ _ _ _ _ _ _ _ (hf ⟨.get, st, name, type, fn⟩ (by simp) (by simp))]
        exact i4 f fun p hp => hf p (List.mem_append_left _ hp)
    | set =>
      simp only [World.keep]
      obtain ⟨a1, a2, a3, _⟩ := hookField_rest (ps.foldl (World.keep c) w) c false st name type fn d
      refine ⟨a2.trans i1, a3.trans i2, fun m hm => ?_, fun f hf => ?_⟩
      · rw [a1]
        exact i3 m fun p hp => hm p (List.mem_append_left _ hp)
      · rw [hookField_mem_other _ _ _ _ _ _ _ _ _ (hf ⟨.set, st, name, type, fn⟩ (by simp) (by simp))]
        exact i4 f fun p hp => hf p (List.mem_append_left _ hp)

/-! ### Keeping promises twice -/

/-- The effect of a promise on tables that have the member already. -/
def _root_.Spec.Promise.onTable (p : Promise) (t : Members) : Members :=
  match p.use with
  | .call => { t with methods := updateFirst (hookHits p.static p.name p.type) (fun m => { m with handle := some p.fn }) t.methods }
  | .get => { t with fields := updateFirst (FieldKey.hits ⟨p.static, p.name, p.type⟩) (FieldRec.setHandle true p.fn) t.fields }
  | .set => { t with fields := updateFirst (FieldKey.hits ⟨p.static, p.name, p.type⟩) (FieldRec.setHandle false p.fn) t.fields }

/-- The tables have the member of a promise. -/
def _root_.Spec.Promise.InTable (p : Promise) (t : Members) : Prop :=
  match p.use with
  | .call => (t.methods.find? (hookHits p.static p.name p.type)).isSome
  | _ => (t.fields.find? (FieldKey.hits ⟨p.static, p.name, p.type⟩)).isSome

/-- The tables keep a promise. -/
def _root_.Spec.Promise.Kept (p : Promise) (t : Members) : Prop :=
  match p.use with
  | .call => ∃ m, t.methods.find? (hookHits p.static p.name p.type) = some m ∧ m.handle = some p.fn
  | .get => ∃ f, t.fields.find? (FieldKey.hits ⟨p.static, p.name, p.type⟩) = some f ∧ f.getter = some p.fn
  | .set => ∃ f, t.fields.find? (FieldKey.hits ⟨p.static, p.name, p.type⟩) = some f ∧ f.setter = some p.fn

/-- The same use of the same member. -/
def _root_.Spec.Promise.Same (p q : Promise) : Prop :=
  p.use = q.use ∧ p.static = q.static ∧ p.name = q.name ∧ p.type = q.type

theorem updateFirst_id {α : Type} {p : α → Bool} {f : α → α} {l : List α} {x : α} (h : l.find? p = some x)
    (hx : f x = x) : updateFirst p f l = l := by
  induction l with
  | nil => rfl
  | cons a l ih =>
    unfold updateFirst
    cases ha : p a with
    | true =>
      rw [List.find?_cons_of_pos ha] at h
      cases h
      simp only [if_true, hx]
    | false =>
      rw [List.find?_cons_of_neg (by simp [ha])] at h
      simp only [Bool.false_eq_true, if_false, ih h]

theorem updateFirst_twice {α : Type} {p : α → Bool} {f g : α → α} (hg : ∀ a, p (g a) = p a)
    (hfg : ∀ a, f (g a) = f a) (l : List α) : updateFirst p f (updateFirst p g l) = updateFirst p f l := by
  induction l with
  | nil => rfl
  | cons a l ih =>
    cases ha : p a with
    | true => simp [updateFirst, ha, hg, hfg]
    | false => simp [updateFirst, ha, ih]

theorem updateFirst_comm {α : Type} {p q : α → Bool} {f g : α → α} (hpg : ∀ a, p (g a) = p a) (hqf : ∀ a, q (f a) = q a)
    (h : ∀ a, p a = true → q a = true → f (g a) = g (f a)) (l : List α) :
    updateFirst p f (updateFirst q g l) = updateFirst q g (updateFirst p f l) := by
  induction l with
  | nil => rfl
  | cons a l ih =>
    cases hp : p a <;> cases hq : q a <;> simp [updateFirst, hp, hq, hpg, hqf, ih]
    exact h a hp hq

theorem _root_.Spec.Promise.onTable_same {p q : Promise} (h : p.Same q) (t : Members) : q.onTable (p.onTable t) = q.onTable t := by
  obtain ⟨u, s, n, ty, fn⟩ := p
  obtain ⟨u', s', n', ty', fn'⟩ := q
  obtain ⟨rfl, rfl, rfl, rfl⟩ := h
  cases u <;> simp only [Promise.onTable]
  · refine congrArg (fun x => { t with methods := x }) (updateFirst_twice ?_ ?_ _) <;> exact fun _ => rfl
  · refine congrArg (fun x => { t with fields := x }) (updateFirst_twice ?_ ?_ _) <;> exact fun _ => rfl
  · refine congrArg (fun x => { t with fields := x }) (updateFirst_twice ?_ ?_ _) <;> exact fun _ => rfl

theorem _root_.Spec.Promise.onTable_comm {p q : Promise} (h : ¬ p.Same q) (t : Members) :
    q.onTable (p.onTable t) = p.onTable (q.onTable t) := by
  obtain ⟨u, s, n, ty, fn⟩ := p
  obtain ⟨u', s', n', ty', fn'⟩ := q
  cases u <;> cases u' <;> simp only [Promise.onTable]
  · refine congrArg (fun x => { t with methods := x }) (updateFirst_comm ?_ ?_ ?_ _)
    · exact fun _ => rfl
    · exact fun _ => rfl
    intro a h1 h2
    obtain ⟨a1, a2, a3⟩ := hookHits_iff.1 h1
    obtain ⟨b1, b2, b3⟩ := hookHits_iff.1 h2
    exact absurd ⟨rfl, b1.symm.trans a1, b2.symm.trans a2, b3.symm.trans a3⟩ h
  · refine congrArg (fun x => { t with fields := x }) (updateFirst_comm ?_ ?_ ?_ _)
    · exact fun _ => rfl
    · exact fun _ => rfl
    intro a h1 h2
    obtain ⟨a1, a2, a3⟩ := fhits_iff.1 h1
    obtain ⟨b1, b2, b3⟩ := fhits_iff.1 h2
    exact absurd ⟨rfl, b1.symm.trans a1, b2.symm.trans a2, b3.symm.trans a3⟩ h
  · refine congrArg (fun x => { t with fields := x }) (updateFirst_comm ?_ ?_ ?_ _) <;> intros <;> rfl
  · refine congrArg (fun x => { t with fields := x }) (updateFirst_comm ?_ ?_ ?_ _) <;> intros <;> rfl
  · refine congrArg (fun x => { t with fields := x }) (updateFirst_comm ?_ ?_ ?_ _)
    · exact fun _ => rfl
    · exact fun _ => rfl
    intro a h1 h2
    obtain ⟨a1, a2, a3⟩ := fhits_iff.1 h1
    obtain ⟨b1, b2, b3⟩ := fhits_iff.1 h2
    exact absurd ⟨rfl, b1.symm.trans a1, b2.symm.trans a2, b3.symm.trans a3⟩ h

theorem _root_.Spec.Promise.onTable_kept {p : Promise} {t : Members} (h : p.Kept t) : p.onTable t = t := by
  obtain ⟨u, s, n, ty, fn⟩ := p
  cases u <;> simp only [Promise.Kept] at h <;> simp only [Promise.onTable]
  · obtain ⟨m, h1, h2⟩ := h
    rw [updateFirst_id h1 (by rw [← h2])]
  · obtain ⟨m, h1, h2⟩ := h
    rw [updateFirst_id h1 (by show { m with getter := some fn } = m; rw [← h2])]
  · obtain ⟨m, h1, h2⟩ := h
    rw [updateFirst_id h1 (by show { m with setter := some fn } = m; rw [← h2])]

theorem onTables_drop {p : Promise} : ∀ (ps : List Promise), (∃ q ∈ ps, p.Same q) → ∀ t : Members,
    ps.foldl (fun t q => q.onTable t) (p.onTable t) = ps.foldl (fun t q => q.onTable t) t := by
  intro ps
  induction ps with
  | nil => rintro ⟨_, h, _⟩; cases h
  | cons q ps ih =>
    intro h t
    simp only [List.foldl]
    by_cases hs : p.Same q
    · rw [Promise.onTable_same hs]
    · rw [Promise.onTable_comm hs]
      obtain ⟨x, hx, hx'⟩ := h
      rcases List.mem_cons.1 hx with rfl | hx
      · exact absurd hx' hs
      · exact ih ⟨x, hx, hx'⟩ _

/-- A promise that no later one replaces. -/
def LastIn (p : Promise) (ps : List Promise) : Prop :=
  lastPromise p.use p.static p.name p.type ps = some p.fn

theorem lastPromise_cons (use : Use) (st : Bool) (name type : Str) (p : Promise) (ps : List Promise) :
    lastPromise use st name type (p :: ps) = (lastPromise use st name type ps).or
      (if p.use = use ∧ p.static = st ∧ p.name = name ∧ p.type = type then some p.fn else none) := by
  have h1 := lastPromise_snoc use st name type
  induction ps using snoc_induction with
  | h0 =>
    have := h1 [] p
    simp only [List.nil_append] at this
    rw [this]
    rfl
  | h1 ps q ih =>
    rw [← List.cons_append, h1, h1, ih]
    by_cases hq : q.use = use ∧ q.static = st ∧ q.name = name ∧ q.type = type
    · rw [if_pos hq, if_pos hq]; rfl
    · rw [if_neg hq, if_neg hq]

theorem lastPromise_isSome {p : Promise} {ps : List Promise} :
    (lastPromise p.use p.static p.name p.type ps).isSome ↔ ∃ q ∈ ps, p.Same q := by
  induction ps with
  | nil => simp [lastPromise]
  | cons q ps ih =>
    rw [lastPromise_cons]
    constructor
    · intro h
      by_cases hq : q.use = p.use ∧ q.static = p.static ∧ q.name = p.name ∧ q.type = p.type
      · exact ⟨q, List.mem_cons_self, hq.1.symm, hq.2.1.symm, hq.2.2.1.symm, hq.2.2.2.symm⟩
      · rw [if_neg hq, Option.or_none] at h
        obtain ⟨x, hx, hx'⟩ := ih.1 h
        exact ⟨x, List.mem_cons_of_mem _ hx, hx'⟩
    · rintro ⟨x, hx, hx'⟩
      rcases List.mem_cons.1 hx with rfl | hx
      · obtain ⟨a, b, c, d⟩ := hx'
        rw [if_pos ⟨a.symm, b.symm, c.symm, d.symm⟩]
        cases lastPromise p.use p.static p.name p.type ps <;> rfl
      · have := ih.2 ⟨x, hx, hx'⟩
        cases h : lastPromise p.use p.static p.name p.type ps with
        | none => rw [h] at this; cases this
        | some _ => rfl

/-- If the last promise for each use is kept already, nothing changes. -/
theorem onTables_id : ∀ (ps : List Promise) (t : Members), (∀ p ∈ ps, LastIn p ps → p.Kept t) →
    ps.foldl (fun t q => q.onTable t) t = t := by
  intro ps
  induction ps with
  | nil => intros; rfl
  | cons p ps ih =>
    intro t h
    simp only [List.foldl]
    have hrest : ∀ q ∈ ps, LastIn q ps → q.Kept t := by
      intro q hq hl
      refine h q (List.mem_cons_of_mem _ hq) ?_
      unfold LastIn at hl ⊢
      rw [lastPromise_cons, hl]
      rfl
    by_cases hs : ∃ q ∈ ps, p.Same q
    · rw [onTables_drop ps hs]
      exact ih t hrest
    · rw [Promise.onTable_kept (h p List.mem_cons_self ?_)]
      · exact ih t hrest
      · unfold LastIn
        have hn : lastPromise p.use p.static p.name p.type ps = none := by
          cases hl : lastPromise p.use p.static p.name p.type ps with
          | none => rfl
          | some _ => exact absurd (lastPromise_isSome.1 (by rw [hl]; rfl)) hs
        rw [lastPromise_cons, hn, if_pos ⟨rfl, rfl, rfl, rfl⟩]
        rfl

theorem keep_inTable {c : Nat} {w : World} {p : Promise} (h : p.InTable (w.mem c)) :
    w.keep c p = w.setMem c (p.onTable (w.mem c)) := by
  obtain ⟨u, s, n, ty, fn⟩ := p
  cases u <;> simp only [Promise.InTable] at h <;> obtain ⟨m, h⟩ := Option.isSome_iff_exists.1 h
  · exact hookMethod_found h fn
  · exact hookField_found h fn
  · exact hookField_found h fn

theorem onTable_inTable {p q : Promise} {t : Members} (h : q.InTable t) : q.InTable (p.onTable t) := by
  have main : ∀ {α : Type} {a b : α → Bool} {f : α → α} (_ : ∀ x, b (f x) = b x) (l : List α),
      ((updateFirst a f l).find? b).isSome = (l.find? b).isSome := by
    intro α a b f hb l
    induction l with
    | nil => rfl
    | cons x l ih =>
      unfold updateFirst
      cases ha : a x with
      | true => cases hx : b x <;> simp [hb, hx]
      | false => cases hx : b x <;> simp [hx, ih]
  obtain ⟨u, s, n, ty, fn⟩ := p
  obtain ⟨u', s', n', ty', fn'⟩ := q
  cases u <;> cases u' <;> simp only [Promise.InTable, Promise.onTable] at h ⊢
  · rw [main]
    · exact h
    · exact fun _ => rfl
  · exact h
  · exact h
  · exact h
  · rw [main]
    · exact h
    · exact fun _ => rfl
  · rw [main]
    · exact h
    · exact fun _ => rfl
  · exact h
  · rw [main]
    · exact h
    · exact fun _ => rfl
  · rw [main]
    · exact h
    · exact fun _ => rfl

theorem setMem_setMem (w : World) (c : Nat) (a b : Members) : (w.setMem c a).setMem c b = w.setMem c b := by
  unfold World.setMem
  congr 1
  funext d
  by_cases h : d = c <;> simp [h]

theorem setMem_self (w : World) (c : Nat) : w.setMem c (w.mem c) = w := by
  obtain ⟨reg, mem, types, loose, next⟩ := w
  unfold World.setMem
  congr 1
  funext d
  by_cases h : d = c <;> simp [h]

theorem keepAll_inTable {c : Nat} : ∀ (ps : List Promise) (w : World), (∀ p ∈ ps, p.InTable (w.mem c)) →
    ps.foldl (World.keep c) w = w.setMem c (ps.foldl (fun t q => q.onTable t) (w.mem c)) := by
  intro ps
  induction ps with
  | nil => intro w _; exact (setMem_self w c).symm
  | cons p ps ih =>
    intro w h
    simp only [List.foldl]
    rw [keep_inTable (h p List.mem_cons_self), ih, setMem_setMem]
    · simp only [setMem_mem, if_true]
    · intro q hq
      simp only [setMem_mem, if_true]
      exact onTable_inTable (h q (List.mem_cons_of_mem _ hq))

/-- Keeping the last promises again changes nothing. -/
theorem keepAll_id {c : Nat} {ps : List Promise} {w : World} (h : ∀ p ∈ ps, LastIn p ps → p.Kept (w.mem c)) :
    ps.foldl (World.keep c) w = w := by
  have hin : ∀ p ∈ ps, p.InTable (w.mem c) := by
    intro p hp
    obtain ⟨g, hg⟩ := Option.isSome_iff_exists.1 (lastPromise_isSome.2 ⟨p, hp, rfl, rfl, rfl, rfl⟩)
    have hex : ∃ q ∈ ps, p.Same q ∧ q.fn = g := by
      unfold lastPromise at hg
      rw [Option.map_eq_some_iff] at hg
      obtain ⟨q, hq, rfl⟩ := hg
      have := List.mem_of_getLast? hq
      rw [List.mem_filter] at this
      simp only [Bool.and_eq_true, beq_iff_eq] at this
      exact ⟨q, this.1, ⟨this.2.1.1.1.symm, this.2.1.1.2.symm, this.2.1.2.symm, this.2.2.symm⟩, rfl⟩
    obtain ⟨q, hq, ⟨a, b, e, d⟩, rfl⟩ := hex
    rw [a, b, e, d] at hg
    have := h q hq hg
    obtain ⟨u, s, n, ty, fn⟩ := p
    obtain ⟨u', s', n', ty', fn'⟩ := q
    dsimp only at a b e d
    subst a b e d
    cases u <;> obtain ⟨m, h1, _⟩ := this <;> simp only [Promise.InTable] <;> exact Option.isSome_iff_exists.2 ⟨m, h1⟩
  rw [keepAll_inTable ps w hin, onTables_id ps _ h, setMem_self]

theorem keepAll_kept (c : Nat) (ps : List Promise) (w : World) :
    ∀ p ∈ ps, LastIn p ps → p.Kept ((ps.foldl (World.keep c) w).mem c) := by
  intro p _ hl
  obtain ⟨u, s, n, ty, fn⟩ := p
  unfold LastIn at hl
  dsimp only at hl
  cases u <;> simp only [Promise.Kept]
  · have := keepAll_call c w s n ty ps
    rw [hl] at this
    obtain ⟨id, h⟩ := this
    exact ⟨_, h, rfl⟩
  · have := keepAll_field c w s n ty ps
    rw [hl] at this
    cases hs : lastPromise .set s n ty ps <;> rw [hs] at this <;> obtain ⟨id, h⟩ := this <;> exact ⟨_, h, rfl⟩
  · have := keepAll_field c w s n ty ps
    rw [hl] at this
    cases hs : lastPromise .get s n ty ps <;> rw [hs] at this <;> obtain ⟨id, h⟩ := this <;> exact ⟨_, h, rfl⟩

end Jnivm
