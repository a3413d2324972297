import Verif.Lemmas.Hooks
import Verif.Props.Members
/-!
Properties of hooks (C20), native registration (C21) and assignability (C26).
-/
namespace Jnivm
open Spec

/-! ### C20 -/

theorem hook_target {w : World} {c : Nat} {st : Bool} {name sig : Str}
    (hn : ∀ m, (w.mem c).methods.find? (hookHits st name sig) = some m → m.native = none) (fn : Nat) :
    ∃ m, ((w.hookMethod c st name sig fn).mem c).methods.find? (hookHits st name sig) = some m ∧
      m.native = none ∧ m.handle = some fn := by
  cases hf : (w.mem c).methods.find? (hookHits st name sig) with
  | none =>
    refine ⟨⟨w.next, name, sig, st, none, some fn⟩, ?_, rfl, rfl⟩
    rw [hookMethod_new hf]
    simp only [setMem_mem, if_true]
    rw [List.find?_append, hf, List.find?_cons_of_pos (by simp [hookHits])]
    rfl
  | some m =>
    refine ⟨{ m with handle := some fn }, ?_, hn m hf, rfl⟩
    rw [hookMethod_found hf]
    simp only [setMem_mem, if_true]
    have hx : hookHits st name sig m = true := List.find?_some hf
    exact find_updateFirst (fun _ h => h) hf hx

theorem lookup_of_own {w : World} (inv : MemInv w) {n : Str} {c : Nat} (hc : w.IsClass n c) {st : Bool}
    {name sig : Str} (hinit : name = "<init>".toList → st = true) {m : MethodRec}
    (h : (w.mem c).methods.find? (MethodKey.hits ⟨st, false, name, sig⟩) = some m) (depth : Nat) (rn : Bool) :
    w.getMethodID (depth + 1) st rn false (some c) name sig = .ok (w, some m.id) := by
  rw [getMethodID_isClass inv hc, effKey_plain hinit]
  unfold World.methodOf
  have : w.ownMethod ⟨st, false, name, sig⟩ c = some m.id := by
    unfold World.ownMethod; rw [h]; rfl
  rw [dfs_own this]; rfl

theorem declares_of_own {w : World} {c : Nat} {st : Bool} {name sig : Str} {m : MethodRec}
    (h : (w.mem c).methods.find? (MethodKey.hits ⟨st, false, name, sig⟩) = some m) :
    w.Declares c st false name sig m := by
  have h1 := List.mem_of_find?_eq_some h
  obtain ⟨a, b, c', d⟩ := hits_iff.1 (List.find?_some h)
  exact ⟨h1, a, b, c', d⟩

/-- The condition under which hooks work: no native method of the class has the same name and
signature.  Static methods meet it always, since natives are registered as non-static. -/
def HookFree (w : World) (c : Nat) (st : Bool) (name sig : Str) : Prop :=
  st = true ∨ ∀ m ∈ (w.mem c).methods, m.native.isSome → ¬ (m.name = name ∧ m.signature = sig)

theorem HookFree.native {w : World} (hr : MemReachable w) {c : Nat} {st : Bool} {name sig : Str}
    (h : HookFree w c st name sig) (m : MethodRec)
    (hm : (w.mem c).methods.find? (hookHits st name sig) = some m) : m.native = none := by
  have hmem := List.mem_of_find?_eq_some hm
  obtain ⟨e1, e2, e3⟩ := hookHits_iff.1 (List.find?_some hm)
  cases hn : m.native with
  | none => rfl
  | some p =>
    rcases h with h | h
    · have := hr.native_not_static hmem (by simp [hn])
      rw [e1, h] at this; cases this
    · exact absurd ⟨e2, e3⟩ (h m hmem (by simp [hn]))

/-- C20, effect: after hooking a method, and any later history without another hook of the same
method, the lookup on that class returns a method of that name, signature and staticness that runs
the hooked function.  Not covered (and false, see `hook_after_native_ineffective`): an instance
method for which a native method with the same name and signature is registered. -/
theorem hook_effective_partial {w : World} (hr : MemReachable w) {n : Str} {c : Nat} (hc : w.IsClass n c)
    {st : Bool} {name sig : Str} (hinit : name = "<init>".toList → st = true)
    (hfree : HookFree w c st name sig) (fn : Nat) {ops : List MemOp} {w2 : World}
    (hops : runMem (w.hookMethod c st name sig fn) ops = .ok w2)
    (hno : ∀ g, .hookMethod c st name sig g ∉ ops) :
    ∃ m, w2.Declares c st false name sig m ∧ m.handle = some fn ∧
      ∀ depth rn, w2.getMethodID (depth + 1) st rn false (some c) name sig = .ok (w2, some m.id) := by
  obtain ⟨m, h1, h2, h3⟩ := hook_target (hfree.native hr) fn
  have hrun : (MemOp.hookMethod c st name sig fn).run w = .ok (w.hookMethod c st name sig fn) := rfl
  have inv1 := step_memInv hr.inv hrun
  have inv2 := runMem_inv inv1 hops
  have hc2 := isClass_run inv1 hops (isClass_step hr.inv hrun hc)
  obtain ⟨e1, e2, e3⟩ := hookHits_iff.1 (List.find?_some h1)
  have hmem := run_method_keep hops (List.mem_of_find?_eq_some h1) h2 (by rw [e1, e2, e3]; exact hno)
  obtain ⟨m', h1', h2', h3'⟩ := hookTarget_iff.1 (run_hookTarget hops (hookTarget_iff.2 ⟨m, h1, h2, rfl⟩))
  obtain rfl := (method_unique inv2 (List.mem_of_find?_eq_some h1') hmem h3').2
  have hown := target_own h1' h2'
  exact ⟨m', declares_of_own hown, h3, fun depth rn => lookup_of_own inv2 hc2 hinit hown depth rn⟩

/-- C20, re-hooking: whatever happens in between, hooking the same method again keeps its id and
replaces the function. -/
theorem rehook_keeps_id_partial {w : World} (hr : MemReachable w) {n : Str} {c : Nat} (hc : w.IsClass n c)
    {st : Bool} {name sig : Str} (hinit : name = "<init>".toList → st = true)
    (hfree : HookFree w c st name sig) (fn fn' : Nat) {ops : List MemOp} {w2 : World}
    (hops : runMem (w.hookMethod c st name sig fn) ops = .ok w2) :
    let w1 := w.hookMethod c st name sig fn
    let w3 := w2.hookMethod c st name sig fn'
    ∃ id m, w3.Declares c st false name sig m ∧ m.id = id ∧ m.handle = some fn' ∧
      ∀ depth rn, w1.getMethodID (depth + 1) st rn false (some c) name sig = .ok (w1, some id) ∧
        w3.getMethodID (depth + 1) st rn false (some c) name sig = .ok (w3, some id) := by
  intro w1 w3
  obtain ⟨m, h1, h2, h3⟩ := hook_target (hfree.native hr) fn
  have hrun : (MemOp.hookMethod c st name sig fn).run w = .ok w1 := rfl
  have inv1 : MemInv w1 := step_memInv hr.inv hrun
  have inv2 := runMem_inv inv1 hops
  have hc1 := isClass_step hr.inv hrun hc
  have hc2 := isClass_run inv1 hops hc1
  have hrun3 : (MemOp.hookMethod c st name sig fn').run w2 = .ok w3 := rfl
  have inv3 : MemInv w3 := step_memInv inv2 hrun3
  have hc3 := isClass_step inv2 hrun3 hc2
  obtain ⟨m', h1', h2', h3'⟩ := hookTarget_iff.1 (run_hookTarget hops (hookTarget_iff.2 ⟨m, h1, h2, rfl⟩))
  obtain ⟨m3, t1, t2, t3⟩ := hook_target (w := w2) (fun x hx => by rw [h1'] at hx; cases hx; exact h2') fn'
  have hid : m3.id = m.id := by
    obtain ⟨m4, q1, q2, q3⟩ := hookTarget_iff.1 (step_hookTarget hrun3 (hookTarget_iff.2 ⟨m', h1', h2', h3'⟩))
    have : some m3 = some m4 := t1.symm.trans q1
    cases this
    exact q3
  have hown3 := target_own t1 t2
  refine ⟨m.id, m3, declares_of_own hown3, hid, t3, fun depth rn => ⟨?_, ?_⟩⟩
  · exact lookup_of_own inv1 hc1 hinit (target_own h1 h2) depth rn
  · rw [← hid]; exact lookup_of_own inv3 hc3 hinit hown3 depth rn

/-- The hypotheses are met by an overloaded instance method beside a native of another signature. -/
example : ∃ w a, MemReachable w ∧ w.IsClass "A".toList a ∧
    (∃ m ∈ (w.mem a).methods, m.native.isSome ∧ m.name = "f".toList) ∧
    HookFree w a false "f".toList "()V".toList := by
  obtain ⟨w0, a, d, hr, ha, hd, had, ba, bd, bo, hm⟩ := sample_single
  have hrun : (MemOp.registerNatives (some a) [⟨"f".toList, "(I)V".toList, some 7⟩]).run w0 =
    .ok (w0.registerNatives (some a) [⟨"f".toList, "(I)V".toList, some 7⟩]) := rfl
  have hmem : ((w0.registerNatives (some a) [⟨"f".toList, "(I)V".toList, some 7⟩]).mem a).methods =
      [⟨w0.next, "f".toList, "(I)V".toList, false, some 7, none⟩] := by
    simp [World.registerNatives, World.registerOne, (hm a).1]
  refine ⟨_, a, hr.step hrun, isClass_step hr.inv hrun ha, ⟨_, by rw [hmem]; exact List.mem_singleton.2 rfl, rfl, rfl⟩, .inr ?_⟩
  rw [hmem]
  intro m hmm _
  rw [List.mem_singleton.1 hmm]
  show ¬ ("f".toList = "f".toList ∧ "(I)V".toList = "()V".toList)
  decide

/-- C20, isolation: a hook changes at most one method record, one of the hooked class with the
hooked name, signature and staticness; all fields, other tables and the hierarchy stay. -/
theorem hook_other_members (w : World) (c : Nat) (st : Bool) (name sig : Str) (fn : Nat) :
    let w' := w.hookMethod c st name sig fn
    ∃ m0 ∈ (w'.mem c).methods, m0.static = st ∧ m0.name = name ∧ m0.signature = sig ∧ m0.handle = some fn ∧
      (∀ d m, m.id ≠ m0.id → (m ∈ (w'.mem d).methods ↔ m ∈ (w.mem d).methods)) ∧
      (∀ d, (w'.mem d).fields = (w.mem d).fields ∧ (w'.mem d).natives = (w.mem d).natives) ∧
      w'.bases = w.bases ∧ w'.reg = w.reg := by
  intro w'
  cases hf : (w.mem c).methods.find? (hookHits st name sig) with
  | none =>
    have e : w' = _ := hookMethod_new hf fn
    refine ⟨⟨w.next, name, sig, st, none, some fn⟩, ?_, rfl, rfl, rfl, rfl, ?_, ?_, hookMethod_bases .., hookMethod_reg ..⟩
    · rw [e]; simp
    · intro d m hid
      rw [e]
      by_cases hd : d = c
      · subst hd
        simp only [setMem_mem, if_true, List.mem_append, List.mem_singleton]
        constructor
        · rintro (h | h)
          · exact h
          · subst h; exact absurd rfl hid
        · exact .inl
      · simp [hd]
    · intro d
      rw [e]
      by_cases hd : d = c
      · subst hd; simp
      · simp [hd]
  | some x =>
    have e : w' = _ := hookMethod_found hf fn
    obtain ⟨e1, e2, e3⟩ := hookHits_iff.1 (List.find?_some hf)
    refine ⟨{ x with handle := some fn }, ?_, e1, e2, e3, rfl, ?_, ?_, hookMethod_bases .., hookMethod_reg ..⟩
    · rw [e]
      simp only [setMem_mem, if_true]
      have hx : hookHits st name sig x = true := List.find?_some hf
      exact List.mem_of_find?_eq_some
        (find_updateFirst (f := fun m => { m with handle := some fn }) (fun _ h => h) hf hx)
    · intro d m hid
      rw [e]
      by_cases hd : d = c
      · subst hd
        simp only [setMem_mem, if_true]
        constructor
        · intro h
          rcases mem_updateFirst hf h with h | h
          · subst h; exact absurd rfl hid
          · exact h
        · intro h
          rcases mem_updateFirst_of (f := fun m => { m with handle := some fn }) hf h with h | h
          · subst h; exact absurd rfl hid
          · exact h
      · simp [hd]
    · intro d
      rw [e]
      by_cases hd : d = c
      · subst hd; simp
      · simp [hd]

/-- C20 is false in general: `FunctionBase::install` compares only staticness, name and signature,
so hooking an instance method after registering a native with the same name and signature changes
the record of the native, and `GetMethodID` creates a method that runs nothing. -/
theorem hook_after_native_ineffective : ∃ w a w2 id, MemReachable w ∧ w.IsClass "A".toList a ∧
    (w.hookMethod a false "f".toList "()V".toList 5).getMethodID 1 false false false (some a)
      "f".toList "()V".toList = .ok (w2, some id) ∧
    ∀ m ∈ (w2.mem a).methods, m.id = id → m.handle = none := by
  obtain ⟨w0, a, d, hr, ha, hd, had, ba, bd, bo, hm⟩ := sample_single
  let w := w0.registerNatives (some a) [⟨"f".toList, "()V".toList, some 7⟩]
  have hrun : (MemOp.registerNatives (some a) [⟨"f".toList, "()V".toList, some 7⟩]).run w0 = .ok w := rfl
  have hrw := hr.step hrun
  have haw := isClass_step hr.inv hrun ha
  have hmem : (w.mem a).methods = [⟨w0.next, "f".toList, "()V".toList, false, some 7, none⟩] := by
    simp [w, World.registerNatives, World.registerOne, (hm a).1]
  have hf : (w.mem a).methods.find? (hookHits false "f".toList "()V".toList) =
      some ⟨w0.next, "f".toList, "()V".toList, false, some 7, none⟩ := by rw [hmem]; rfl
  let w1 := w.hookMethod a false "f".toList "()V".toList 5
  have hrun1 : (MemOp.hookMethod a false "f".toList "()V".toList 5).run w = .ok w1 := rfl
  have hr1 := hrw.step hrun1
  have ha1 := isClass_step hrw.inv hrun1 haw
  have hw1 : w1 = _ := hookMethod_found hf 5
  have hmem1 : (w1.mem a).methods = [⟨w0.next, "f".toList, "()V".toList, false, some 7, some 5⟩] := by
    rw [hw1]; simp only [setMem_mem, if_true, hmem]; rfl
  have hn1 : w1.next = w0.next + 1 := by rw [hw1]; rfl
  have hb1 : w1.bases a = some [none] := by
    rw [show w1.bases = w.bases from hookMethod_bases ..]
    rw [show w.bases = w0.bases from registerOne_bases ..]
    exact ba
  have hd : declare w1.reg "()V".toList = .ok w1.reg := declare_unit _
  refine ⟨w, a, w1.addMethod a ⟨w1.next, "f".toList, "()V".toList, false, none, none⟩ w1.reg, w1.next,
    hrw, haw, ?_, ?_⟩
  · rw [getMethodID_isClass hr1.inv ha1, effKey_plain (by decide)]
    unfold World.methodOf
    have : dfs w1.bases (w1.ownMethod ⟨false, false, "f".toList, "()V".toList⟩) 1 a = .ok none := by
      simp only [dfs, World.ownMethod, hmem1, hb1]; rfl
    rw [this]
    simp only [Res.bind_ok, Bool.false_eq_true, if_false, World.createMethod, hd]
    rfl
  · intro m h hid
    simp only [World.addMethod, setMem_mem, if_true, hmem1, List.mem_append, List.mem_singleton] at h
    rcases h with h | h
    · subst h; simp only [hn1] at hid; omega
    · subst h; rfl

/-- C20 for fields: hooking a getter or setter sets exactly that handle of the field found by the
lookup, keeps its id and the other handle, and leaves every other field and all methods. -/
theorem field_hook_effective {w : World} (hr : MemReachable w) {n : Str} {c : Nat} (hc : w.IsClass n c)
    (isGetter st : Bool) (name type : Str) (fn : Nat) :
    let w' := w.hookField c isGetter st name type fn
    ∃ f, w'.DeclaresField c st name type f ∧
      (if isGetter then f.getter = some fn else f.setter = some fn) ∧
      (∀ depth rn, w'.getFieldID (depth + 1) st rn (some c) name type = .ok (w', some f.id)) ∧
      (∀ depth rn id, w.getFieldID (depth + 1) st rn (some c) name type = .ok (w, some id) →
        ∀ f0 ∈ (w.mem c).fields, f0.id = id → f.id = id ∧
          (if isGetter then f.setter = f0.setter else f.getter = f0.getter)) ∧
      (∀ d f', f'.id ≠ f.id → (f' ∈ (w'.mem d).fields ↔ f' ∈ (w.mem d).fields)) ∧
      (∀ d, (w'.mem d).methods = (w.mem d).methods) := by
  intro w'
  have hrun : (MemOp.hookField c isGetter st name type fn).run w = .ok w' := rfl
  have inv' := step_memInv hr.inv hrun
  have hc' := isClass_step hr.inv hrun hc
  have look : ∀ {f : FieldRec}, (w'.mem c).fields.find? (FieldKey.hits ⟨st, name, type⟩) = some f →
      ∀ depth rn, w'.getFieldID (depth + 1) st rn (some c) name type = .ok (w', some f.id) := by
    intro f h depth rn
    rw [getFieldID_isClass inv' hc']
    have : w'.ownField ⟨st, name, type⟩ c = some f.id := by unfold World.ownField; rw [h]; rfl
    rw [dfs_own this]; rfl
  have decl : ∀ {f : FieldRec}, (w'.mem c).fields.find? (FieldKey.hits ⟨st, name, type⟩) = some f →
      w'.DeclaresField c st name type f := by
    intro f h
    obtain ⟨a, b, d⟩ := fhits_iff.1 (List.find?_some h)
    exact ⟨List.mem_of_find?_eq_some h, a, b, d⟩
  cases hf : (w.mem c).fields.find? (FieldKey.hits ⟨st, name, type⟩) with
  | none =>
    have e : w' = _ := hookField_new hf fn
    have hfind : (w'.mem c).fields.find? (FieldKey.hits ⟨st, name, type⟩) =
        some (FieldRec.setHandle isGetter fn ⟨w.next, name, type, st, none, none⟩) := by
      rw [e]
      simp only [setMem_mem, if_true]
      rw [List.find?_append, hf, List.find?_cons_of_pos]
      · rfl
      · cases isGetter <;> exact fhits_iff.2 ⟨rfl, rfl, rfl⟩
    refine ⟨_, decl hfind, ?_, look hfind, ?_, ?_, ?_⟩
    · cases isGetter <;> rfl
    · intro depth rn id h f0 hf0 hid
      exfalso
      obtain ⟨c', cd, e0, _, ⟨_, hd, _⟩ | ⟨_, _, e1, _, _, e2⟩⟩ := getFieldID_ok h
      · cases e0
        obtain ⟨d, _, ho⟩ := dfs_some hd
        unfold World.ownField at ho
        rw [Option.map_eq_some_iff] at ho
        obtain ⟨f1, h1, h2⟩ := ho
        obtain ⟨rfl, rfl⟩ := field_unique hr.inv hf0 (List.mem_of_find?_eq_some h1) (by rw [hid, h2])
        rw [hf] at h1; cases h1
      · have := congrArg World.next e2
        simp [World.addField] at this
    · intro d f' hid
      rw [e]
      by_cases hd : d = c
      · subst hd
        simp only [setMem_mem, if_true, List.mem_append, List.mem_singleton]
        constructor
        · rintro (h | h)
          · exact h
          · subst h; exact absurd rfl hid
        · exact .inl
      · simp [hd]
    · intro d
      rw [e]
      by_cases hd : d = c
      · subst hd; simp
      · simp [hd]
  | some x =>
    have e : w' = _ := hookField_found hf fn
    have hx := List.find?_some hf
    have hfind : (w'.mem c).fields.find? (FieldKey.hits ⟨st, name, type⟩) =
        some (FieldRec.setHandle isGetter fn x) := by
      rw [e]
      simp only [setMem_mem, if_true]
      exact find_updateFirst (fun _ h => h) hf (by cases isGetter <;> exact hx)
    have hidx : (FieldRec.setHandle isGetter fn x).id = x.id := by cases isGetter <;> rfl
    refine ⟨_, decl hfind, ?_, look hfind, ?_, ?_, ?_⟩
    · cases isGetter <;> rfl
    · intro depth rn id h f0 hf0 hid
      have ho : w.ownField ⟨st, name, type⟩ c = some x.id := by unfold World.ownField; rw [hf]; rfl
      rw [getFieldID_isClass hr.inv hc, dfs_own ho] at h
      simp only [Res.bind_ok, Res.ok.injEq, Prod.mk.injEq, Option.some.injEq, true_and] at h
      obtain ⟨_, rfl⟩ := field_unique hr.inv hf0 (List.mem_of_find?_eq_some hf) (by rw [hid, h])
      refine ⟨by rw [hidx, h], ?_⟩
      cases isGetter <;> rfl
    · intro d f' hid
      rw [hidx] at hid
      rw [e]
      by_cases hd : d = c
      · subst hd
        simp only [setMem_mem, if_true]
        constructor
        · intro h
          rcases mem_updateFirst hf h with h | h
          · subst h; exact absurd hidx hid
          · exact h
        · intro h
          rcases mem_updateFirst_of (f := FieldRec.setHandle isGetter fn) hf h with h | h
          · subst h; exact absurd rfl hid
          · exact h
      · simp [hd]
    · intro d
      rw [e]
      by_cases hd : d = c
      · subst hd; simp
      · simp [hd]

example : ∃ w a, MemReachable w ∧ w.IsClass "A".toList a := by
  obtain ⟨w, a, d, hr, ha, _⟩ := sample_single
  exact ⟨w, a, hr, ha⟩

/-! ### C21 -/

/-- The newest binding of a name in the `natives` map. -/
def World.nativePointer (w : World) (c : Nat) (name : Str) : Option (Option Nat) :=
  (w.mem c).natives.lookup name

theorem register_methods (c : Nat) (l : List NativeMethod) : ∀ w : World,
    ∃ adds : List MethodRec, ((w.registerNatives (some c) l).mem c).methods = (w.mem c).methods ++ adds ∧
      adds.map (fun m => (m.static, m.name, m.signature, m.native, m.handle)) =
        l.map (fun n => (false, n.name, n.signature, n.fnPtr, none)) := by
  induction l with
  | nil => intro w; exact ⟨[], by simp [World.registerNatives], rfl⟩
  | cons n l ih =>
    intro w
    obtain ⟨adds, h1, h2⟩ := ih (w.registerOne c n)
    refine ⟨⟨w.next, n.name, n.signature, false, n.fnPtr, none⟩ :: adds, ?_, by simp [h2]⟩
    have e : w.registerNatives (some c) (n :: l) = (w.registerOne c n).registerNatives (some c) l := rfl
    rw [e, h1]
    simp [World.registerOne]

theorem find_zip {α β : Type} {p : α → Bool} {q : β → Bool} {g : α → β} (h : ∀ a, q (g a) = p a)
    (l : List α) : (l.find? p).map g = (l.map g).find? q := by
  rw [List.find?_map]
  congr 2
  funext a
  exact (h a).symm

/-- C21, effect: if the class has no native with this name and signature yet, then after
registering a list whose first entry for that name and signature has the function pointer `p`, the
native lookup returns a method with that name, signature and pointer.  Not covered (and false, see
`register_stale`): a later registration of the same name and signature. -/
theorem register_effective_partial {w : World} (hr : MemReachable w) {n : Str} {c : Nat} (hc : w.IsClass n c)
    (l : List NativeMethod) {name sig : Str} (hinit : name ≠ "<init>".toList)
    (hold : ∀ m, ¬ w.Declares c false true name sig m) {p : Nat}
    (hl : l.find? (fun e => e.fnPtr.isSome && (e.name == name && e.signature == sig)) = some ⟨name, sig, some p⟩) :
    let w' := w.registerNatives (some c) l
    ∃ m, w'.Declares c false true name sig m ∧ m.native = some p ∧
      ∀ depth rn, w'.getMethodID (depth + 1) false rn true (some c) name sig = .ok (w', some m.id) := by
  intro w'
  have hrun : (MemOp.registerNatives (some c) l).run w = .ok w' := rfl
  have inv' := step_memInv hr.inv hrun
  have hc' := isClass_step hr.inv hrun hc
  obtain ⟨adds, h1, h2⟩ := register_methods c l w
  let key : MethodKey := ⟨false, true, name, sig⟩
  let q : Bool × Str × Str × Option Nat × Option Nat → Bool :=
    fun t => t.2.2.2.1.isSome && (t.2.1 == name && t.2.2.1 == sig)
  have hadds : ∀ m ∈ adds, m.static = false := by
    intro m hm
    have : (m.static, m.name, m.signature, m.native, m.handle) ∈
        l.map (fun n => (false, n.name, n.signature, n.fnPtr, (none : Option Nat))) := by
      rw [← h2]; exact List.mem_map_of_mem hm
    obtain ⟨e, _, he⟩ := List.mem_map.1 this
    exact (congrArg Prod.fst he).symm
  have hk : adds.find? key.hits = adds.find? (fun m => m.native.isSome && (m.name == name && m.signature == sig)) := by
    clear h1 h2
    induction adds with
    | nil => rfl
    | cons a l ih =>
      have e : key.hits a = (a.native.isSome && (a.name == name && a.signature == sig)) := by
        simp only [key, MethodKey.hits, hadds a (by simp)]
        cases a.native.isSome <;> cases a.name == name <;> cases a.signature == sig <;> rfl
      rw [List.find?_cons, List.find?_cons, e, ih fun m hm => hadds m (by simp [hm])]
  have hz1 := find_zip (p := fun m : MethodRec => m.native.isSome && (m.name == name && m.signature == sig)) (q := q)
    (g := fun m => (m.static, m.name, m.signature, m.native, m.handle)) (fun _ => rfl) adds
  have hz2 := find_zip (p := fun e : NativeMethod => e.fnPtr.isSome && (e.name == name && e.signature == sig)) (q := q)
    (g := fun n => (false, n.name, n.signature, n.fnPtr, (none : Option Nat))) (fun _ => rfl) l
  rw [h2, ← hz2, hl, ← hk] at hz1
  simp only [Option.map_some, Option.map_eq_some_iff] at hz1
  obtain ⟨m, hm, e⟩ := hz1
  simp only [Prod.mk.injEq] at e
  have hfind : (w'.mem c).methods.find? key.hits = some m := by
    rw [show (w'.mem c).methods = _ from h1, List.find?_append]
    have : (w.mem c).methods.find? key.hits = none := by
      rw [List.find?_eq_none]
      intro x hx hh
      obtain ⟨a1, a2, a3, a4⟩ := hits_iff.1 hh
      exact hold x ⟨hx, a1, a2, a3, a4⟩
    rw [this, Option.none_or]; exact hm
  obtain ⟨a1, a2, a3, a4⟩ := hits_iff.1 (List.find?_some hfind)
  refine ⟨m, ⟨List.mem_of_find?_eq_some hfind, a1, a2, a3, a4⟩, e.2.2.2.1, ?_⟩
  intro depth rn
  rw [getMethodID_isClass inv' hc', effKey_plain (fun h => absurd h hinit)]
  unfold World.methodOf
  have : w'.ownMethod key c = some m.id := by unfold World.ownMethod; rw [hfind]; rfl
  rw [dfs_own this]; rfl

/-- The hypotheses are met by a list with two natives of the same name. -/
example : ∃ w a, MemReachable w ∧ w.IsClass "A".toList a ∧
    (∀ m, ¬ w.Declares a false true "f".toList "(I)V".toList m) ∧
    [(⟨"f".toList, "()V".toList, some 1⟩ : NativeMethod), ⟨"f".toList, "(I)V".toList, some 2⟩].find?
      (fun e => e.fnPtr.isSome && (e.name == "f".toList && e.signature == "(I)V".toList)) =
      some ⟨"f".toList, "(I)V".toList, some 2⟩ := by
  obtain ⟨w, a, d, hr, ha, hd, had, ba, bd, bo, hm⟩ := sample_single
  refine ⟨w, a, hr, ha, ?_, by decide⟩
  intro m h
  have := h.1
  rw [(hm a).1] at this
  cases this

/-- C21, isolation: registering natives keeps every existing method and its id, and all methods of
other classes, fields and the hierarchy. -/
theorem register_keeps (w : World) (c : Nat) (l : List NativeMethod) :
    let w' := w.registerNatives (some c) l
    (∃ adds, (w'.mem c).methods = (w.mem c).methods ++ adds ∧ adds.length = l.length) ∧
    (∀ d, d ≠ c → w'.mem d = w.mem d) ∧ (w'.mem c).fields = (w.mem c).fields ∧
    w'.bases = w.bases ∧ w'.reg = w.reg := by
  intro w'
  have gen : ∀ (l : List NativeMethod) (w : World),
      (∀ d, d ≠ c → (w.registerNatives (some c) l).mem d = w.mem d) ∧
      ((w.registerNatives (some c) l).mem c).fields = (w.mem c).fields ∧
      (w.registerNatives (some c) l).bases = w.bases ∧ (w.registerNatives (some c) l).reg = w.reg := by
    intro l
    induction l with
    | nil => intro w; exact ⟨fun _ _ => rfl, rfl, rfl, rfl⟩
    | cons n l ih =>
      intro w
      obtain ⟨i1, i2, i3, i4⟩ := ih (w.registerOne c n)
      have e : w.registerNatives (some c) (n :: l) = (w.registerOne c n).registerNatives (some c) l := rfl
      rw [e]
      refine ⟨fun d hd => ?_, ?_, ?_, ?_⟩
      · rw [i1 d hd]; simp [World.registerOne, hd]
      · rw [i2]; simp [World.registerOne]
      · rw [i3, registerOne_bases]
      · rw [i4]; rfl
  obtain ⟨adds, h1, h2⟩ := register_methods c l w
  have hlen := congrArg List.length h2
  simp only [List.length_map] at hlen
  exact ⟨⟨adds, h1, hlen⟩, gen l w⟩

/-- The `natives` map has the pointer registered last for a name; it does not look at the
signature. -/
theorem natives_latest (w : World) (c : Nat) (l : List NativeMethod) (e : NativeMethod) :
    (w.registerNatives (some c) (l ++ [e])).nativePointer c e.name = some e.fnPtr := by
  unfold World.nativePointer World.registerNatives
  simp only [List.foldl_append, List.foldl_cons, List.foldl_nil]
  generalize List.foldl (fun w n => w.registerOne c n) w l = w1
  simp [World.registerOne]

/-- C21 is false for repeated registrations: the native lookup keeps returning the first one. -/
theorem register_stale : ∃ w a id, MemReachable w ∧ w.IsClass "A".toList a ∧
    let w' := (w.registerNatives (some a) [⟨"f".toList, "()V".toList, some 1⟩]).registerNatives (some a)
      [⟨"f".toList, "()V".toList, some 2⟩]
    w'.getMethodID 1 false true true (some a) "f".toList "()V".toList = .ok (w', some id) ∧
    ∀ m ∈ (w'.mem a).methods, m.id = id → m.native = some 1 := by
  obtain ⟨w, a, d, hr, ha, hd, had, ba, bd, bo, hm⟩ := sample_single
  refine ⟨w, a, w.next, hr, ha, ?_⟩
  intro w'
  have hrun : (MemOp.registerNatives (some a) [⟨"f".toList, "()V".toList, some 1⟩]).run w = .ok _ := rfl
  have hrun' : (MemOp.registerNatives (some a) [⟨"f".toList, "()V".toList, some 2⟩]).run _ = .ok w' := rfl
  have inv' := step_memInv (step_memInv hr.inv hrun) hrun'
  have ha' := isClass_step (step_memInv hr.inv hrun) hrun' (isClass_step hr.inv hrun ha)
  have hmem : (w'.mem a).methods = [⟨w.next, "f".toList, "()V".toList, false, some 1, none⟩,
      ⟨w.next + 1, "f".toList, "()V".toList, false, some 2, none⟩] := by
    simp [w', World.registerNatives, World.registerOne, (hm a).1]
  constructor
  · rw [getMethodID_isClass inv' ha', effKey_plain (by decide)]
    unfold World.methodOf
    have : w'.ownMethod ⟨false, true, "f".toList, "()V".toList⟩ a = some w.next := by
      unfold World.ownMethod; rw [hmem]; rfl
    rw [dfs_own this]; rfl
  · intro m h hid
    rw [hmem] at h
    rcases List.mem_cons.1 h with h | h
    · subst h; rfl
    · rw [List.mem_singleton.1 h] at hid; simp at hid

/-- C21, unregistering: exactly the native methods of the class disappear; every other method keeps
its record (hence its id), in the same order. -/
theorem unregister_exact (w : World) (c : Nat) :
    let w' := w.unregisterNatives (some c)
    (∀ m, m ∈ (w'.mem c).methods ↔ m ∈ (w.mem c).methods ∧ m.native = none) ∧
    (w'.mem c).methods.Sublist (w.mem c).methods ∧
    (w'.mem c).natives = [] ∧ (w'.mem c).fields = (w.mem c).fields ∧
    (∀ d, d ≠ c → w'.mem d = w.mem d) ∧ w'.bases = w.bases ∧ w'.reg = w.reg := by
  intro w'
  refine ⟨?_, ?_, ?_, ?_, ?_, unregister_bases .., rfl⟩
  · intro m; simp [w', World.unregisterNatives, List.mem_filter]
  · simp [w', World.unregisterNatives]
  · simp [w', World.unregisterNatives]
  · simp [w', World.unregisterNatives]
  · intro d hd; simp [w', World.unregisterNatives, hd]

/-- C21, unregistering does not change the answer of any lookup for a method that is not native. -/
theorem unregister_lookup {w : World} (hr : MemReachable w) (c : Nat) {n : Str} {d : Nat} (hd : w.IsClass n d)
    (depth : Nat) (st : Bool) (name sig : Str) (r : Option Nat) :
    w.getMethodID depth st true false (some d) name sig = .ok (w, r) ↔
    (w.unregisterNatives (some c)).getMethodID depth st true false (some d) name sig =
      .ok (w.unregisterNatives (some c), r) := by
  have hrun : (MemOp.unregisterNatives (some c)).run w = .ok (w.unregisterNatives (some c)) := rfl
  rw [getMethodID_isClass hr.inv hd, getMethodID_isClass (step_memInv hr.inv hrun) (isClass_step hr.inv hrun hd)]
  unfold World.methodOf
  have hk : (effKey n st false name sig).native = false := by unfold effKey; split <;> rfl
  generalize effKey n st false name sig = k at hk
  have : (w.unregisterNatives (some c)).ownMethod k = w.ownMethod k := by
    funext e
    unfold World.ownMethod World.unregisterNatives
    by_cases he : e = c
    · subst he
      simp only [setMem_mem, if_true]
      rw [List.find?_filter]
      congr 2
      funext m
      simp only [MethodKey.hits, hk]
      rw [Bool.eq_iff_iff]
      cases m.native <;> simp
    · simp [he]
  rw [unregister_bases, this]
  cases dfs w.bases (w.ownMethod k) depth d with
  | ok o => cases o <;> simp [Res.bind]
  | throws e => simp [Res.bind]
  | ub u => simp [Res.bind]
  | diverges => simp [Res.bind]

/-- C21, after unregistering, the class itself answers no native lookup, so that
`register_effective_partial` applies again. -/
theorem unregister_forgets (w : World) (c : Nat) (name sig : Str) (m : MethodRec) :
    ¬ (w.unregisterNatives (some c)).Declares c false true name sig m := by
  rintro ⟨h, _, hn, _⟩
  have := ((unregister_exact w c).1 m).1 h
  rw [this.2] at hn
  cases hn

/-! ### C26 -/

/-- C26: whenever it answers, `IsAssignableFrom` is reachability in the hierarchy. -/
theorem assignable_iff {w : World} {depth c1 c2 : Nat} {b : Bool}
    (h : w.isAssignableFrom depth (some c1) (some c2) = .ok b) : b = true ↔ Super w.bases c1 c2 := by
  simp only [World.isAssignableFrom, World.hasBaseClass] at h
  obtain ⟨r, h1, h2⟩ := Res.bind_eq_ok.1 h
  cases h2
  cases r with
  | some u =>
    obtain ⟨d, hs, ho⟩ := dfs_some h1
    have : d = c2 := by
      by_cases e : d = c2
      · exact e
      · rw [if_neg e] at ho; cases ho
    subst this
    simp [hs]
  | none =>
    simp only [Option.isSome_none, Bool.false_eq_true, false_iff]
    intro hs
    have := dfs_none h1 c2 hs
    simp at this

/-- C26: it answers on every acyclic hierarchy. -/
theorem assignable_total {w : World} (ha : Acyclic w.bases) (c1 : Nat) :
    ∃ N, ∀ depth, N ≤ depth → ∀ c2, ∃ b, w.isAssignableFrom depth (some c1) (some c2) = .ok b := by
  obtain ⟨l, hl⟩ := acyclic_searchOrder ha c1
  refine ⟨l.length, fun depth hd c2 => ?_⟩
  simp only [World.isAssignableFrom, World.hasBaseClass, dfs_searchOrder hl hd]
  exact ⟨_, rfl⟩

theorem assignable_refl (w : World) (depth c : Nat) :
    w.isAssignableFrom (depth + 1) (some c) (some c) = .ok true := by
  simp only [World.isAssignableFrom, World.hasBaseClass, dfs, if_true]
  rfl

theorem assignable_trans {w : World} {d1 d2 d3 a b c : Nat} {r : Bool}
    (h1 : w.isAssignableFrom d1 (some a) (some b) = .ok true)
    (h2 : w.isAssignableFrom d2 (some b) (some c) = .ok true)
    (h3 : w.isAssignableFrom d3 (some a) (some c) = .ok r) : r = true :=
  (assignable_iff h3).2 (Super.trans ((assignable_iff h1).1 rfl) ((assignable_iff h2).1 rfl))

/-- C26: `IsInstanceOf` agrees with it on the class of the object. -/
theorem instanceOf_iff {w : World} {depth c cl : Nat} {b : Bool}
    (h : w.isInstanceOf depth (some (some c)) (some cl) = .ok b) : b = true ↔ Super w.bases c cl :=
  assignable_iff h

/-- An object without a class (for example one made with `make_shared` by the VM itself) makes
`IsInstanceOf` dereference null. -/
theorem instanceOf_classless_ub (w : World) (depth cl : Nat) :
    w.isInstanceOf depth (some none) (some cl) = .ub .nullDeref := rfl

/-- C26, null classes: null is assignable to itself, a class is never assignable to null, and null to a class is
undefined. -/
theorem assignable_null (w : World) (depth c : Nat) :
    w.isAssignableFrom depth none none = .ok true ∧
    w.isAssignableFrom depth none (some c) = .ub .nullDeref ∧
    (∀ b, w.isAssignableFrom depth (some c) none = .ok b → b = false) ∧
    (Acyclic w.bases → ∃ N, ∀ depth, N ≤ depth → w.isAssignableFrom depth (some c) none = .ok false) := by
  have no : ∀ depth b, w.isAssignableFrom depth (some c) none = .ok b → b = false := by
    intro depth b h
    simp only [World.isAssignableFrom] at h
    obtain ⟨r, h1, h2⟩ := Res.bind_eq_ok.1 h
    cases h2
    cases r with
    | none => rfl
    | some u => obtain ⟨d, _, ho⟩ := dfs_some h1; cases ho
  refine ⟨rfl, rfl, no depth, fun ha => ?_⟩
  obtain ⟨l, hl⟩ := acyclic_searchOrder ha c
  refine ⟨l.length, fun depth hd => ?_⟩
  have : ∃ b, w.isAssignableFrom depth (some c) none = .ok b := by
    simp only [World.isAssignableFrom, dfs_searchOrder hl hd]
    exact ⟨_, rfl⟩
  obtain ⟨b, hb⟩ := this
  rw [hb, no depth b hb]

/-- `GetSuperclass` answers the first direct superclass, if there is one. -/
theorem superclass_first {w : World} {c d : Nat} :
    w.getSuperclass c = .ok (some d) ↔ ∃ bs, w.bases c = some (some d :: bs) := by
  unfold World.getSuperclass
  split <;> simp_all

/-- A hierarchy with two bases: reflexive, proper and failing queries. -/
example : ∃ w a b d, MemReachable w ∧ w.isAssignableFrom 2 (some d) (some a) = .ok true ∧
    w.isAssignableFrom 2 (some d) (some b) = .ok true ∧ w.isAssignableFrom 2 (some a) (some d) = .ok false := by
  obtain ⟨w, a, b, d, hr, ha, hb, hd, hab, had, hbd, ba, bb, bd, hm⟩ := sample_multi
  refine ⟨w, a, b, d, hr, ?_, ?_, ?_⟩
  · simp only [World.isAssignableFrom, World.hasBaseClass, dfs, bd, if_neg had.symm, firstAnswer, if_true]; rfl
  · simp only [World.isAssignableFrom, World.hasBaseClass, dfs, bd, ba, if_neg hbd.symm, if_neg hab, firstAnswer, if_true]; rfl
  · simp only [World.isAssignableFrom, World.hasBaseClass, dfs, ba, if_neg had, firstAnswer]; rfl

end Jnivm
