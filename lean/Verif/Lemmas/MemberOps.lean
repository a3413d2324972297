import Verif.Model.MemberOps
import Verif.Lemmas.Members
/-! How each operation changes the tables; invariants of histories. -/
namespace Jnivm
open Spec

theorem nodup_map_inj {α β : Type} {f : α → β} {l : List α} (h : (l.map f).Nodup) {a b : α}
    (ha : a ∈ l) (hb : b ∈ l) (e : f a = f b) : a = b := by
  induction l with
  | nil => simp at ha
  | cons x l ih =>
    simp only [List.map_cons, List.nodup_cons] at h
    rcases List.mem_cons.1 ha with ea | ha' <;> rcases List.mem_cons.1 hb with eb | hb'
    · rw [ea, eb]
    · subst ea; exact absurd (e ▸ List.mem_map_of_mem hb') h.1
    · subst eb; exact absurd (e ▸ List.mem_map_of_mem ha') h.1
    · exact ih h.2 ha' hb'

/-- The key a method lookup on a class with this path compares. -/
def effKey (path : Str) (isStatic allowNative : Bool) (name sig : Str) : MethodKey :=
  if !isStatic && name == "<init>".toList then ⟨true, allowNative, name, initSignature path sig⟩
  else ⟨isStatic, allowNative, name, sig⟩

/-- The world after appending a method record. -/
def World.addMethod (w : World) (c : Nat) (m : MethodRec) (reg : Registry) : World :=
  { w.setMem c { w.mem c with methods := (w.mem c).methods ++ [m] } with reg := reg, next := w.next + 1 }

def World.addField (w : World) (c : Nat) (f : FieldRec) (reg : Registry) : World :=
  { w.setMem c { w.mem c with fields := (w.mem c).fields ++ [f] } with reg := reg, next := w.next + 1 }

theorem getMethodID_class {w : World} {c : Nat} {cd : ClassNode} (hc : w.reg.cls[c]? = some cd)
    (depth : Nat) (st rn nat : Bool) (name sig : Str) :
    w.getMethodID depth st rn nat (some c) name sig =
      w.methodOf depth rn c (effKey cd.nativeprefix st nat name sig) := by
  simp only [World.getMethodID, hc, effKey]
  split <;> rfl

theorem methodOf_ok {w w' : World} {depth c : Nat} {rn : Bool} {k : MethodKey} {r : Option Nat}
    (h : w.methodOf depth rn c k = .ok (w', r)) :
    (w' = w ∧ dfs w.bases (w.ownMethod k) depth c = .ok r ∧ (r = none → rn = true)) ∨
    (rn = false ∧ dfs w.bases (w.ownMethod k) depth c = .ok none ∧ r = some w.next ∧
      ∃ reg, declare w.reg k.signature = .ok reg ∧
        w' = w.addMethod c ⟨w.next, k.name, k.signature, k.static, none, none⟩ reg) := by
  unfold World.methodOf at h
  obtain ⟨o, h1, h2⟩ := Res.bind_eq_ok.1 h
  cases o with
  | some id => simp at h2; obtain ⟨rfl, rfl⟩ := h2; exact .inl ⟨rfl, h1, by simp⟩
  | none =>
    cases rn with
    | true => simp at h2; obtain ⟨rfl, rfl⟩ := h2; exact .inl ⟨rfl, h1, by simp⟩
    | false =>
      simp only [World.createMethod, Bool.false_eq_true, if_false] at h2
      obtain ⟨reg, h3, h4⟩ := Res.bind_eq_ok.1 h2
      simp only [Res.ok.injEq, Prod.mk.injEq] at h4
      exact .inr ⟨rfl, h1, h4.2.symm, reg, h3, h4.1.symm⟩

theorem getMethodID_ok {w w' : World} {depth : Nat} {st rn nat : Bool} {cl : Option Nat}
    {name sig : Str} {r : Option Nat} (h : w.getMethodID depth st rn nat cl name sig = .ok (w', r)) :
    (cl = none ∧ rn = true ∧ w' = w ∧ r = none) ∨
    (cl = none ∧ rn = false ∧ r = some w.next ∧ ∃ reg, declare w.reg sig = .ok reg ∧
      w' = { w with reg := reg, next := w.next + 1,
                    loose := w.loose ++ [⟨w.next, name, sig, st, none, none⟩] }) ∨
    (∃ c cd, cl = some c ∧ w.reg.cls[c]? = some cd ∧
      w.methodOf depth rn c (effKey cd.nativeprefix st nat name sig) = .ok (w', r)) := by
  cases cl with
  | none =>
    unfold World.getMethodID at h
    cases rn with
    | true => simp at h; obtain ⟨rfl, rfl⟩ := h; exact .inl ⟨rfl, rfl, rfl, rfl⟩
    | false =>
      simp only [Bool.false_eq_true, if_false] at h
      obtain ⟨reg, h3, h4⟩ := Res.bind_eq_ok.1 h
      simp only [Res.ok.injEq, Prod.mk.injEq] at h4
      exact .inr (.inl ⟨rfl, rfl, h4.2.symm, reg, h3, h4.1.symm⟩)
  | some c =>
    cases hc : w.reg.cls[c]? with
    | none => simp [World.getMethodID, hc] at h
    | some cd => rw [getMethodID_class hc] at h; exact .inr (.inr ⟨c, cd, rfl, hc, h⟩)

theorem getFieldID_ok {w w' : World} {depth : Nat} {st rn : Bool} {cl : Option Nat}
    {name type : Str} {r : Option Nat} (h : w.getFieldID depth st rn cl name type = .ok (w', r)) :
    ∃ c cd, cl = some c ∧ w.reg.cls[c]? = some cd ∧
    ((w' = w ∧ dfs w.bases (w.ownField ⟨st, name, type⟩) depth c = .ok r ∧ (r = none → rn = true)) ∨
    (rn = false ∧ dfs w.bases (w.ownField ⟨st, name, type⟩) depth c = .ok none ∧ r = some w.next ∧
      ∃ reg, declare w.reg type = .ok reg ∧
        w' = w.addField c ⟨w.next, name, type, st, none, none⟩ reg)) := by
  unfold World.getFieldID at h
  split at h
  · cases h
  · rename_i c
    split at h
    · cases h
    · rename_i cd hcd
      refine ⟨c, cd, rfl, hcd, ?_⟩
      obtain ⟨o, h1, h2⟩ := Res.bind_eq_ok.1 h
      cases o with
      | some id => simp at h2; obtain ⟨rfl, rfl⟩ := h2; exact .inl ⟨rfl, h1, by simp⟩
      | none =>
        cases rn with
        | true => simp at h2; obtain ⟨rfl, rfl⟩ := h2; exact .inl ⟨rfl, h1, by simp⟩
        | false =>
          simp only [World.createField, Bool.false_eq_true, if_false] at h2
          obtain ⟨reg, h3, h4⟩ := Res.bind_eq_ok.1 h2
          simp only [Res.ok.injEq, Prod.mk.injEq] at h4
          exact .inr ⟨rfl, h1, h4.2.symm, reg, h3, h4.1.symm⟩

/-! ### Single additions -/

section
variable (w : World) (c : Nat) (m : MethodRec) (f : FieldRec) (reg : Registry)

@[simp] theorem addMethod_cores (d : Nat) : (w.addMethod c m reg).cores d =
    if d = c then w.cores c ++ [m.core] else w.cores d := by
  unfold World.cores World.addMethod
  by_cases h : d = c
  · subst h; simp
  · simp [h]
@[simp] theorem addMethod_fcores (d : Nat) : (w.addMethod c m reg).fcores d = w.fcores d := by
  unfold World.fcores World.addMethod
  by_cases h : d = c
  · subst h; simp
  · simp [h]
@[simp] theorem addMethod_bases : (w.addMethod c m reg).bases = w.bases := by
  refine bases_congr (w := w) (w' := w.addMethod c m reg) (fun d => ?_) rfl
  unfold World.addMethod
  by_cases h : d = c
  · subst h; simp
  · simp [h]
@[simp] theorem addField_cores (d : Nat) : (w.addField c f reg).cores d = w.cores d := by
  unfold World.cores World.addField
  by_cases h : d = c
  · subst h; simp
  · simp [h]
@[simp] theorem addField_fcores (d : Nat) : (w.addField c f reg).fcores d =
    if d = c then w.fcores c ++ [f.core] else w.fcores d := by
  unfold World.fcores World.addField
  by_cases h : d = c
  · subst h; simp
  · simp [h]
@[simp] theorem addField_bases : (w.addField c f reg).bases = w.bases := by
  refine bases_congr (w := w) (w' := w.addField c f reg) (fun d => ?_) rfl
  unfold World.addField
  by_cases h : d = c
  · subst h; simp
  · simp [h]
@[simp] theorem addMethod_next : (w.addMethod c m reg).next = w.next + 1 := rfl
@[simp] theorem addField_next : (w.addField c f reg).next = w.next + 1 := rfl
@[simp] theorem addMethod_reg : (w.addMethod c m reg).reg = reg := rfl
@[simp] theorem addField_reg : (w.addField c f reg).reg = reg := rfl
end

theorem any_hits_cores (w : World) (c : Nat) (st : Bool) (n s : Str) :
    (w.cores c).any (hookHits st n s) = (w.mem c).methods.any (hookHits st n s) := by
  unfold World.cores
  rw [List.any_map]
  rfl

theorem hookMethod_cores (w : World) (c : Nat) (st : Bool) (n s : Str) (fn d : Nat) :
    (w.hookMethod c st n s fn).cores d =
      if d = c ∧ (w.cores c).any (hookHits st n s) = false then
        w.cores c ++ [⟨w.next, n, s, st, none, none⟩] else w.cores d := by
  rw [any_hits_cores]
  unfold World.cores
  cases ha : (w.mem c).methods.any (hookHits st n s) with
  | true =>
    rw [if_neg (by simp)]
    simp only [World.hookMethod, ha, if_true, setMem_mem]
    by_cases h : d = c
    · subst h; simp only [if_true]; apply map_updateFirst; intro _; rfl
    · simp only [h, if_false]
  | false =>
    simp only [World.hookMethod, ha, Bool.false_eq_true, if_false, setMem_mem, and_true]
    by_cases h : d = c
    · subst h; simp only [if_true, List.map_append, List.map_cons, List.map_nil]; rfl
    · simp only [h, if_false]

theorem hookMethod_fcores (w : World) (c : Nat) (st : Bool) (n s : Str) (fn d : Nat) :
    (w.hookMethod c st n s fn).fcores d = w.fcores d := by
  unfold World.fcores
  cases ha : (w.mem c).methods.any (hookHits st n s) <;> by_cases h : d = c <;>
    simp only [World.hookMethod, ha, setMem_mem, h, Bool.false_eq_true, if_true, if_false]

theorem hookMethod_bases (w : World) (c : Nat) (st : Bool) (n s : Str) (fn : Nat) :
    (w.hookMethod c st n s fn).bases = w.bases := by
  apply bases_congr
  · intro d
    cases ha : (w.mem c).methods.any (hookHits st n s) <;> by_cases h : d = c <;>
      simp only [World.hookMethod, ha, setMem_mem, h, Bool.false_eq_true, if_true, if_false]
  · cases ha : (w.mem c).methods.any (hookHits st n s) <;>
      simp only [World.hookMethod, ha, setMem_types, Bool.false_eq_true, if_true, if_false]

theorem hookMethod_next (w : World) (c : Nat) (st : Bool) (n s : Str) (fn : Nat) :
    (w.hookMethod c st n s fn).next =
      if (w.cores c).any (hookHits st n s) then w.next else w.next + 1 := by
  rw [any_hits_cores]
  cases ha : (w.mem c).methods.any (hookHits st n s) <;>
    simp only [World.hookMethod, ha, setMem_next, Bool.false_eq_true, if_true, if_false]

theorem hookMethod_reg (w : World) (c : Nat) (st : Bool) (n s : Str) (fn : Nat) :
    (w.hookMethod c st n s fn).reg = w.reg := by
  cases ha : (w.mem c).methods.any (hookHits st n s) <;>
    simp only [World.hookMethod, ha, setMem_reg, Bool.false_eq_true, if_true, if_false]

theorem any_hits_fcores (w : World) (c : Nat) (k : FieldKey) :
    (w.fcores c).any k.hits = (w.mem c).fields.any k.hits := by
  unfold World.fcores
  rw [List.any_map]
  rfl

theorem hookField_fcores (w : World) (c : Nat) (g st : Bool) (n t : Str) (fn d : Nat) :
    (w.hookField c g st n t fn).fcores d =
      if d = c ∧ (w.fcores c).any (FieldKey.hits ⟨st, n, t⟩) = false then
        w.fcores c ++ [⟨w.next, n, t, st, none, none⟩] else w.fcores d := by
  rw [any_hits_fcores]
  unfold World.fcores
  have hcore : ∀ f : FieldRec, (f.setHandle g fn).core = f.core := by intro f; cases g <;> rfl
  cases ha : (w.mem c).fields.any (FieldKey.hits ⟨st, n, t⟩) with
  | true =>
    rw [if_neg (by simp)]
    simp only [World.hookField, ha, if_true, setMem_mem]
    by_cases h : d = c
    · subst h; simp only [if_true]; exact map_updateFirst _ _ _ hcore _
    · simp only [h, if_false]
  | false =>
    simp only [World.hookField, ha, Bool.false_eq_true, if_false, setMem_mem, and_true]
    by_cases h : d = c
    · subst h; simp only [if_true, List.map_append, List.map_cons, List.map_nil, hcore]; rfl
    · simp only [h, if_false]

theorem hookField_cores (w : World) (c : Nat) (g st : Bool) (n t : Str) (fn d : Nat) :
    (w.hookField c g st n t fn).cores d = w.cores d := by
  unfold World.cores
  cases ha : (w.mem c).fields.any (FieldKey.hits ⟨st, n, t⟩) <;> by_cases h : d = c <;>
    simp only [World.hookField, ha, setMem_mem, h, Bool.false_eq_true, if_true, if_false]

theorem hookField_bases (w : World) (c : Nat) (g st : Bool) (n t : Str) (fn : Nat) :
    (w.hookField c g st n t fn).bases = w.bases := by
  apply bases_congr
  · intro d
    cases ha : (w.mem c).fields.any (FieldKey.hits ⟨st, n, t⟩) <;> by_cases h : d = c <;>
      simp only [World.hookField, ha, setMem_mem, h, Bool.false_eq_true, if_true, if_false]
  · cases ha : (w.mem c).fields.any (FieldKey.hits ⟨st, n, t⟩) <;>
      simp only [World.hookField, ha, setMem_types, Bool.false_eq_true, if_true, if_false]

theorem hookField_next (w : World) (c : Nat) (g st : Bool) (n t : Str) (fn : Nat) :
    (w.hookField c g st n t fn).next =
      if (w.fcores c).any (FieldKey.hits ⟨st, n, t⟩) then w.next else w.next + 1 := by
  rw [any_hits_fcores]
  cases ha : (w.mem c).fields.any (FieldKey.hits ⟨st, n, t⟩) <;>
    simp only [World.hookField, ha, setMem_next, Bool.false_eq_true, if_true, if_false]

theorem hookField_reg (w : World) (c : Nat) (g st : Bool) (n t : Str) (fn : Nat) :
    (w.hookField c g st n t fn).reg = w.reg := by
  cases ha : (w.mem c).fields.any (FieldKey.hits ⟨st, n, t⟩) <;>
    simp only [World.hookField, ha, setMem_reg, Bool.false_eq_true, if_true, if_false]

theorem registerOne_cores (w : World) (c : Nat) (n : NativeMethod) (d : Nat) :
    (w.registerOne c n).cores d =
      if d = c then w.cores c ++ [⟨w.next, n.name, n.signature, false, n.fnPtr, none⟩] else w.cores d := by
  unfold World.registerOne World.cores
  by_cases h : d = c
  · subst h; simp [MethodRec.core]
  · simp [h]

theorem registerOne_fcores (w : World) (c : Nat) (n : NativeMethod) (d : Nat) :
    (w.registerOne c n).fcores d = w.fcores d := by
  unfold World.registerOne World.fcores
  by_cases h : d = c
  · subst h; simp
  · simp [h]

theorem registerOne_bases (w : World) (c : Nat) (n : NativeMethod) :
    (w.registerOne c n).bases = w.bases := by
  refine bases_congr (w := w) (w' := w.registerOne c n) (fun d => ?_) rfl
  unfold World.registerOne
  by_cases h : d = c
  · subst h; simp
  · simp [h]

theorem unregister_cores (w : World) (c d : Nat) :
    (w.unregisterNatives (some c)).cores d =
      if d = c then (w.cores c).filter (fun m => m.native.isNone) else w.cores d := by
  unfold World.unregisterNatives World.cores
  by_cases h : d = c
  · subst h
    simp only [setMem_mem, if_true]
    rw [List.filter_map]
    rfl
  · simp [h]

theorem unregister_fcores (w : World) (cl : Option Nat) (d : Nat) :
    (w.unregisterNatives cl).fcores d = w.fcores d := by
  unfold World.unregisterNatives World.fcores
  cases cl with
  | none => rfl
  | some c =>
    by_cases h : d = c
    · subst h; simp
    · simp [h]

theorem unregister_bases (w : World) (cl : Option Nat) : (w.unregisterNatives cl).bases = w.bases := by
  cases cl with
  | none => rfl
  | some c =>
    refine bases_congr (w := w) (w' := w.unregisterNatives (some c)) (fun d => ?_) rfl
    unfold World.unregisterNatives
    by_cases h : d = c
    · subst h; simp
    · simp [h]

/-- `RegisterNatives` in terms of the appended records. -/
theorem register_spec (c : Nat) (l : List NativeMethod) : ∀ w : World,
    (∀ d, ∃ adds, (w.registerNatives (some c) l).cores d = w.cores d ++ adds ∧
      (d ≠ c → adds = []) ∧
      (∀ m ∈ adds, w.next ≤ m.id ∧ m.id < (w.registerNatives (some c) l).next ∧ m.static = false ∧
        ∃ n ∈ l, m.name = n.name ∧ m.signature = n.signature ∧ m.native = n.fnPtr) ∧
      (adds.map (·.id)).Nodup) ∧
    (∀ d, (w.registerNatives (some c) l).fcores d = w.fcores d) ∧
    (w.registerNatives (some c) l).bases = w.bases ∧
    (w.registerNatives (some c) l).reg = w.reg ∧
    (w.registerNatives (some c) l).types = w.types ∧
    (w.registerNatives (some c) l).next = w.next + l.length := by
  induction l with
  | nil =>
    intro w
    exact ⟨fun d => ⟨[], by simp [World.registerNatives], by simp, by simp, by simp⟩, fun _ => rfl, rfl, rfl, rfl, rfl⟩
  | cons n l ih =>
    intro w
    have e : w.registerNatives (some c) (n :: l) = (w.registerOne c n).registerNatives (some c) l := rfl
    rw [e]
    obtain ⟨h1, h2, h3, h4, h5, h6⟩ := ih (w.registerOne c n)
    have hnext : (w.registerOne c n).next = w.next + 1 := rfl
    refine ⟨?_, ?_, ?_, ?_, ?_, ?_⟩
    · intro d
      obtain ⟨adds, e1, e2, e3, e4⟩ := h1 d
      by_cases hd : d = c
      · subst hd
        refine ⟨⟨w.next, n.name, n.signature, false, n.fnPtr, none⟩ :: adds, ?_, by simp, ?_, ?_⟩
        · rw [e1, registerOne_cores]; simp
        · intro m hm
          rcases List.mem_cons.1 hm with rfl | hm
          · refine ⟨Nat.le_refl _, ?_, rfl, n, by simp⟩
            rw [h6, hnext]; simp only; omega
          · obtain ⟨a, b, c', n', hn', p⟩ := e3 m hm
            exact ⟨by rw [hnext] at a; omega, b, c', n', by simp [hn'], p⟩
        · simp only [List.map_cons, List.nodup_cons]
          refine ⟨?_, e4⟩
          intro hm
          obtain ⟨m, hm, hid⟩ := List.mem_map.1 hm
          have := (e3 m hm).1
          rw [hnext] at this; omega
      · refine ⟨[], ?_, by simp, by simp, by simp⟩
        rw [e1, e2 hd, registerOne_cores, if_neg hd]
    · intro d; rw [h2 d, registerOne_fcores]
    · rw [h3, registerOne_bases]
    · rw [h4]; rfl
    · rw [h5]; rfl
    · rw [h6, hnext]; simp; omega

/-! ### One step -/

/-- Where a method record appended to class `c` comes from. -/
def MethodOrigin (w : World) (c : Nat) (m : MethodRec) : MemOp → Prop
  | .getMethodID depth _ _ _ (some d) _ _ => d = c ∧ m.native = none ∧
      dfs w.bases (w.ownMethod ⟨m.static, false, m.name, m.signature⟩) depth c = .ok none
  | .hookMethod d st n s _ => d = c ∧ m.native = none ∧ m.static = st ∧ m.name = n ∧ m.signature = s ∧
      (w.cores c).any (hookHits st n s) = false
  | .registerNatives (some d) l => d = c ∧ m.static = false ∧
      ∃ n ∈ l, m.name = n.name ∧ m.signature = n.signature ∧ m.native = n.fnPtr
  | _ => False

theorem bindType_cores (w : World) (t : Nat) (n : Str) (bs : List (Option Nat)) (d : Nat) :
    (w.bindType t n bs).1.cores d = w.cores d := by
  unfold World.bindType World.cores
  split
  · rename_i reg c h
    by_cases hd : d = c
    · subst hd; simp
    · simp [hd]
  · rfl

theorem bindType_fcores (w : World) (t : Nat) (n : Str) (bs : List (Option Nat)) (d : Nat) :
    (w.bindType t n bs).1.fcores d = w.fcores d := by
  unfold World.bindType World.fcores
  split
  · rename_i reg c h
    by_cases hd : d = c
    · subst hd; simp
    · simp [hd]
  · rfl

theorem bindType_next (w : World) (t : Nat) (n : Str) (bs : List (Option Nat)) :
    (w.bindType t n bs).1.next = w.next := by
  unfold World.bindType
  split <;> rfl

theorem bindType_reg (w : World) (t : Nat) (n : Str) (bs : List (Option Nat)) :
    (w.bindType t n bs).1.reg = (findClass false w.reg n).1 := by
  unfold World.bindType
  split <;> (rename_i h; rw [h])

theorem step_cores {w w' : World} {op : MemOp} (h : op.run w = .ok w') :
    ∃ c adds, (∀ d, d ≠ c → w'.cores d = w.cores d) ∧
      (w'.cores c = w.cores c ++ adds ∨
        (op = .unregisterNatives (some c) ∧ adds = [] ∧
          w'.cores c = (w.cores c).filter fun m => m.native.isNone)) ∧
      (∀ m ∈ adds, w.next ≤ m.id ∧ m.id < w'.next ∧ MethodOrigin w c m op) ∧
      (adds.map (·.id)).Nodup ∧ w.next ≤ w'.next := by
  have same : ∀ {w2 : World}, w' = w2 → (∀ d, w2.cores d = w.cores d) → w.next ≤ w2.next →
      ∃ c adds, (∀ d, d ≠ c → w'.cores d = w.cores d) ∧
      (w'.cores c = w.cores c ++ adds ∨
        (op = .unregisterNatives (some c) ∧ adds = [] ∧
          w'.cores c = (w.cores c).filter fun m => m.native.isNone)) ∧
      (∀ m ∈ adds, w.next ≤ m.id ∧ m.id < w'.next ∧ MethodOrigin w c m op) ∧
      (adds.map (·.id)).Nodup ∧ w.next ≤ w'.next := by
    intro w2 e hc hn
    subst e
    exact ⟨0, [], fun d _ => hc d, .inl (by simp [hc]), by simp, by simp, hn⟩
  cases op with
  | findClass z n => simp [MemOp.run] at h; exact same h.symm (fun _ => rfl) (Nat.le_refl _)
  | getMethodID depth st rn nat cl n s =>
    simp only [MemOp.run] at h
    obtain ⟨⟨w2, r⟩, h1, h2⟩ := Res.bind_eq_ok.1 h
    simp at h2; subst h2
    rcases getMethodID_ok h1 with ⟨_, _, e, _⟩ | ⟨_, _, _, reg, _, e⟩ | ⟨c, cd, e1, e2, e3⟩
    · exact same e (fun _ => rfl) (Nat.le_refl _)
    · exact same e (fun _ => rfl) (by simp)
    · subst e1
      rcases methodOf_ok e3 with ⟨e, _⟩ | ⟨hrn, hd, _, reg, _, e⟩
      · exact same e (fun _ => rfl) (Nat.le_refl _)
      · have hnf : nat = false := by cases nat <;> simp_all
        subst hnf
        subst e
        refine ⟨c, [⟨w.next, (effKey cd.nativeprefix st false n s).name, (effKey cd.nativeprefix st false n s).signature,
          (effKey cd.nativeprefix st false n s).static, none, none⟩], ?_, .inl ?_, ?_, by simp, by simp⟩
        · intro d hd; simp [hd]
        · simp only [addMethod_cores, if_true]; rfl
        · intro m hm
          simp only [List.mem_singleton] at hm
          subst hm
          refine ⟨Nat.le_refl _, by simp, rfl, rfl, ?_⟩
          simp only
          have : (effKey cd.nativeprefix st false n s) = ⟨(effKey cd.nativeprefix st false n s).static, false,
            (effKey cd.nativeprefix st false n s).name, (effKey cd.nativeprefix st false n s).signature⟩ := by
            unfold effKey; split <;> rfl
          rw [← this]; exact hd
  | getFieldID depth st rn cl n t =>
    simp only [MemOp.run] at h
    obtain ⟨⟨w2, r⟩, h1, h2⟩ := Res.bind_eq_ok.1 h
    simp at h2; subst h2
    obtain ⟨c, cd, _, _, ⟨e, _⟩ | ⟨_, _, _, reg, _, e⟩⟩ := getFieldID_ok h1
    · exact same e (fun _ => rfl) (Nat.le_refl _)
    · exact same e (fun _ => by simp) (by simp)
  | hookMethod c st n s fn =>
    simp [MemOp.run] at h
    subst h
    cases ha : (w.cores c).any (hookHits st n s) with
    | true =>
      refine same rfl (fun d => ?_) ?_
      · rw [hookMethod_cores, ha]; simp
      · rw [hookMethod_next, ha]; simp
    | false =>
      refine ⟨c, [⟨w.next, n, s, st, none, none⟩], ?_, .inl ?_, ?_, by simp, ?_⟩
      · intro d hd; rw [hookMethod_cores]; simp [hd]
      · rw [hookMethod_cores, ha]; simp
      · intro m hm
        simp only [List.mem_singleton] at hm
        subst hm
        rw [hookMethod_next, ha]
        exact ⟨Nat.le_refl _, by simp, rfl, rfl, rfl, rfl, rfl, ha⟩
      · rw [hookMethod_next, ha]; simp
  | hookField c g st n t fn =>
    simp [MemOp.run] at h
    subst h
    refine same rfl (fun d => hookField_cores ..) ?_
    rw [hookField_next]; split <;> omega
  | registerNatives cl l =>
    simp [MemOp.run] at h
    subst h
    cases cl with
    | none => exact same rfl (fun _ => rfl) (Nat.le_refl _)
    | some c =>
      obtain ⟨h1, _, _, _, _, h6⟩ := register_spec c l w
      obtain ⟨adds, a1, _, a3, a4⟩ := h1 c
      refine ⟨c, adds, ?_, .inl a1, ?_, a4, by rw [h6]; omega⟩
      · intro d hd
        obtain ⟨adds', b1, b2, _, _⟩ := h1 d
        rw [b1, b2 hd]; simp
      · intro m hm
        obtain ⟨c1, c2, c3, c4⟩ := a3 m hm
        exact ⟨c1, c2, rfl, c3, c4⟩
  | unregisterNatives cl =>
    simp [MemOp.run] at h
    subst h
    cases cl with
    | none => exact same rfl (fun _ => rfl) (Nat.le_refl _)
    | some c =>
      refine ⟨c, [], ?_, .inr ⟨rfl, rfl, ?_⟩, by simp, by simp, Nat.le_refl _⟩
      · intro d hd; rw [unregister_cores]; simp [hd]
      · rw [unregister_cores]; simp
  | bindType t n bs =>
    simp [MemOp.run] at h
    subst h
    exact same rfl (fun d => bindType_cores ..) (by rw [bindType_next]; omega)

/-- Where a field record appended to class `c` comes from. -/
def FieldOrigin (w : World) (c : Nat) (f : FieldRec) : MemOp → Prop
  | .getFieldID depth _ _ (some d) _ _ => d = c ∧
      dfs w.bases (w.ownField ⟨f.static, f.name, f.type⟩) depth c = .ok none
  | .hookField d _ st n t _ => d = c ∧ f.static = st ∧ f.name = n ∧ f.type = t ∧
      (w.fcores c).any (FieldKey.hits ⟨st, n, t⟩) = false
  | _ => False

theorem step_fcores {w w' : World} {op : MemOp} (h : op.run w = .ok w') :
    ∃ c adds, (∀ d, d ≠ c → w'.fcores d = w.fcores d) ∧ w'.fcores c = w.fcores c ++ adds ∧
      (∀ f ∈ adds, w.next ≤ f.id ∧ f.id < w'.next ∧ FieldOrigin w c f op) ∧
      (adds.map (·.id)).Nodup := by
  have same : ∀ {w2 : World}, w' = w2 → (∀ d, w2.fcores d = w.fcores d) →
      ∃ c adds, (∀ d, d ≠ c → w'.fcores d = w.fcores d) ∧ w'.fcores c = w.fcores c ++ adds ∧
      (∀ f ∈ adds, w.next ≤ f.id ∧ f.id < w'.next ∧ FieldOrigin w c f op) ∧
      (adds.map (·.id)).Nodup := by
    intro w2 e hc
    subst e
    exact ⟨0, [], fun d _ => hc d, by simp [hc], by simp, by simp⟩
  cases op with
  | findClass z n => simp [MemOp.run] at h; exact same h.symm (fun _ => rfl)
  | getMethodID depth st rn nat cl n s =>
    simp only [MemOp.run] at h
    obtain ⟨⟨w2, r⟩, h1, h2⟩ := Res.bind_eq_ok.1 h
    simp at h2; subst h2
    rcases getMethodID_ok h1 with ⟨_, _, e, _⟩ | ⟨_, _, _, reg, _, e⟩ | ⟨c, cd, e1, e2, e3⟩
    · exact same e (fun _ => rfl)
    · exact same e (fun _ => rfl)
    · rcases methodOf_ok e3 with ⟨e, _⟩ | ⟨_, hd, _, reg, _, e⟩
      · exact same e (fun _ => rfl)
      · exact same e (fun _ => by simp)
  | getFieldID depth st rn cl n t =>
    simp only [MemOp.run] at h
    obtain ⟨⟨w2, r⟩, h1, h2⟩ := Res.bind_eq_ok.1 h
    simp at h2; subst h2
    obtain ⟨c, cd, e1, _, ⟨e, _⟩ | ⟨_, hd, _, reg, _, e⟩⟩ := getFieldID_ok h1
    · exact same e (fun _ => rfl)
    · subst e; subst e1
      refine ⟨c, [⟨w.next, n, t, st, none, none⟩], ?_, ?_, ?_, by simp⟩
      · intro d hd; simp [hd]
      · simp only [addField_fcores, if_true]; rfl
      · intro m hm
        simp only [List.mem_singleton] at hm
        subst hm
        exact ⟨Nat.le_refl _, by simp, rfl, hd⟩
  | hookMethod c st n s fn =>
    simp [MemOp.run] at h
    subst h
    exact same rfl (fun d => hookMethod_fcores ..)
  | hookField c g st n t fn =>
    simp [MemOp.run] at h
    subst h
    cases ha : (w.fcores c).any (FieldKey.hits ⟨st, n, t⟩) with
    | true =>
      refine same rfl (fun d => ?_)
      rw [hookField_fcores, ha]; simp
    | false =>
      refine ⟨c, [⟨w.next, n, t, st, none, none⟩], ?_, ?_, ?_, by simp⟩
      · intro d hd; rw [hookField_fcores]; simp [hd]
      · rw [hookField_fcores, ha]; simp
      · intro m hm
        simp only [List.mem_singleton] at hm
        subst hm
        rw [hookField_next, ha]
        exact ⟨Nat.le_refl _, by simp, rfl, rfl, rfl, rfl, ha⟩
  | registerNatives cl l =>
    simp [MemOp.run] at h
    subst h
    cases cl with
    | none => exact same rfl (fun _ => rfl)
    | some c => exact same rfl (register_spec c l w).2.1
  | unregisterNatives cl =>
    simp [MemOp.run] at h
    subst h
    exact same rfl (fun d => unregister_fcores ..)
  | bindType t n bs =>
    simp [MemOp.run] at h
    subst h
    exact same rfl (fun d => bindType_fcores ..)

theorem findClass_mono {r : Registry} (inv : RegInv r) (z : Bool) (n : Str) :
    RegInv (findClass z r n).1 ∧
      ∀ m c, r.byName.lookup m = some c → (findClass z r n).1.byName.lookup m = some c := by
  cases z with
  | true => rw [findClass_find inv]; exact ⟨inv, fun _ _ h => h⟩
  | false =>
    obtain ⟨r2, c, e, _, hc⟩ := findClass_create inv n
    rw [e]
    exact ⟨hc.inv, hc.keep⟩

theorem declare_mono {r r' : Registry} (inv : RegInv r) {s : Str} (h : declare r s = .ok r') :
    RegInv r' ∧ ∀ m c, r.byName.lookup m = some c → r'.byName.lookup m = some c :=
  declareLoop_mono s 0 r inv r' h

theorem step_reg {w w' : World} {op : MemOp} (inv : RegInv w.reg) (h : op.run w = .ok w') :
    RegInv w'.reg ∧ ∀ m c, w.reg.byName.lookup m = some c → w'.reg.byName.lookup m = some c := by
  have same : w'.reg = w.reg → RegInv w'.reg ∧
      ∀ m c, w.reg.byName.lookup m = some c → w'.reg.byName.lookup m = some c := by
    intro e; rw [e]; exact ⟨inv, fun _ _ h => h⟩
  cases op with
  | findClass z n => simp [MemOp.run] at h; subst h; exact findClass_mono inv z n
  | getMethodID depth st rn nat cl n s =>
    simp only [MemOp.run] at h
    obtain ⟨⟨w2, r⟩, h1, h2⟩ := Res.bind_eq_ok.1 h
    simp at h2; subst h2
    rcases getMethodID_ok h1 with ⟨_, _, e, _⟩ | ⟨_, _, _, reg, hr, e⟩ | ⟨c, cd, e1, e2, e3⟩
    · exact same (by rw [e])
    · subst e; exact declare_mono inv hr
    · rcases methodOf_ok e3 with ⟨e, _⟩ | ⟨_, hd, _, reg, hr, e⟩
      · exact same (by rw [e])
      · subst e; exact declare_mono inv hr
  | getFieldID depth st rn cl n t =>
    simp only [MemOp.run] at h
    obtain ⟨⟨w2, r⟩, h1, h2⟩ := Res.bind_eq_ok.1 h
    simp at h2; subst h2
    obtain ⟨c, cd, e1, _, ⟨e, _⟩ | ⟨_, hd, _, reg, hr, e⟩⟩ := getFieldID_ok h1
    · exact same (by rw [e])
    · subst e; exact declare_mono inv hr
  | hookMethod c st n s fn => simp [MemOp.run] at h; subst h; exact same (hookMethod_reg ..)
  | hookField c g st n t fn => simp [MemOp.run] at h; subst h; exact same (hookField_reg ..)
  | registerNatives cl l =>
    simp [MemOp.run] at h; subst h
    cases cl with
    | none => exact same rfl
    | some c => exact same (register_spec c l w).2.2.2.1
  | unregisterNatives cl =>
    simp [MemOp.run] at h; subst h
    cases cl <;> exact same rfl
  | bindType t n bs =>
    simp [MemOp.run] at h; subst h
    rw [bindType_reg]; exact findClass_mono inv false n

theorem step_bases {w w' : World} {op : MemOp} (h : op.run w = .ok w')
    (hb : ∀ t n bs, op ≠ .bindType t n bs) : w'.bases = w.bases := by
  cases op with
  | findClass z n => simp [MemOp.run] at h; subst h; rfl
  | getMethodID depth st rn nat cl n s =>
    simp only [MemOp.run] at h
    obtain ⟨⟨w2, r⟩, h1, h2⟩ := Res.bind_eq_ok.1 h
    simp at h2; subst h2
    rcases getMethodID_ok h1 with ⟨_, _, e, _⟩ | ⟨_, _, _, reg, hr, e⟩ | ⟨c, cd, e1, e2, e3⟩
    · rw [e]
    · subst e; rfl
    · rcases methodOf_ok e3 with ⟨e, _⟩ | ⟨_, hd, _, reg, hr, e⟩
      · rw [e]
      · subst e; simp
  | getFieldID depth st rn cl n t =>
    simp only [MemOp.run] at h
    obtain ⟨⟨w2, r⟩, h1, h2⟩ := Res.bind_eq_ok.1 h
    simp at h2; subst h2
    obtain ⟨c, cd, e1, _, ⟨e, _⟩ | ⟨_, hd, _, reg, hr, e⟩⟩ := getFieldID_ok h1
    · rw [e]
    · subst e; simp
  | hookMethod c st n s fn => simp [MemOp.run] at h; subst h; exact hookMethod_bases ..
  | hookField c g st n t fn => simp [MemOp.run] at h; subst h; exact hookField_bases ..
  | registerNatives cl l =>
    simp [MemOp.run] at h; subst h
    cases cl with
    | none => rfl
    | some c => exact (register_spec c l w).2.2.1
  | unregisterNatives cl => simp [MemOp.run] at h; subst h; exact unregister_bases ..
  | bindType t n bs => exact absurd rfl (hb t n bs)

/-! ### Invariant -/

/-- Member addresses are given out once. -/
structure MemInv (w : World) : Prop where
  reg : RegInv w.reg
  lt : ∀ c m, m ∈ w.cores c → m.id < w.next
  nodup : ∀ c, ((w.cores c).map (·.id)).Nodup
  disj : ∀ c d m m', m ∈ w.cores c → m' ∈ w.cores d → m.id = m'.id → c = d
  flt : ∀ c m, m ∈ w.fcores c → m.id < w.next
  fnodup : ∀ c, ((w.fcores c).map (·.id)).Nodup
  fdisj : ∀ c d m m', m ∈ w.fcores c → m' ∈ w.fcores d → m.id = m'.id → c = d

theorem initial_memInv : MemInv World.initial :=
  ⟨initial_inv, by intro c m h; simp [World.cores, World.initial, Members.empty] at h,
   by intro c; simp [World.cores, World.initial, Members.empty],
   by intro c d m m' h; simp [World.cores, World.initial, Members.empty] at h,
   by intro c m h; simp [World.fcores, World.initial, Members.empty] at h,
   by intro c; simp [World.fcores, World.initial, Members.empty],
   by intro c d m m' h; simp [World.fcores, World.initial, Members.empty] at h⟩

theorem step_memInv {w w' : World} {op : MemOp} (inv : MemInv w) (h : op.run w = .ok w') : MemInv w' := by
  obtain ⟨c, adds, h1, h2, h3, h4, h5⟩ := step_cores h
  obtain ⟨fc, fadds, f1, f2, f3, f4⟩ := step_fcores h
  have hmem : ∀ d m, m ∈ w'.cores d → m ∈ w.cores d ∨ (d = c ∧ m ∈ adds) := by
    intro d m hm
    by_cases hd : d = c
    · subst hd
      rcases h2 with e | ⟨_, _, e⟩
      · rw [e, List.mem_append] at hm; rcases hm with hm | hm
        · exact .inl hm
        · exact .inr ⟨rfl, hm⟩
      · rw [e, List.mem_filter] at hm; exact .inl hm.1
    · rw [h1 d hd] at hm; exact .inl hm
  have hfmem : ∀ d m, m ∈ w'.fcores d → m ∈ w.fcores d ∨ (d = fc ∧ m ∈ fadds) := by
    intro d m hm
    by_cases hd : d = fc
    · subst hd
      rw [f2, List.mem_append] at hm; rcases hm with hm | hm
      · exact .inl hm
      · exact .inr ⟨rfl, hm⟩
    · rw [f1 d hd] at hm; exact .inl hm
  refine ⟨(step_reg inv.reg h).1, ?_, ?_, ?_, ?_, ?_, ?_⟩
  · intro d m hm
    rcases hmem d m hm with hm | ⟨_, hm⟩
    · have := inv.lt d m hm; omega
    · exact (h3 m hm).2.1
  · intro d
    by_cases hd : d = c
    · subst hd
      rcases h2 with e | ⟨_, _, e⟩
      · rw [e, List.map_append, List.nodup_append]
        refine ⟨inv.nodup d, h4, ?_⟩
        intro a ha b hb hab
        obtain ⟨m, hm, rfl⟩ := List.mem_map.1 ha
        obtain ⟨m', hm', rfl⟩ := List.mem_map.1 hb
        have := inv.lt d m hm
        have := (h3 m' hm').1
        omega
      · rw [e]
        exact List.Nodup.sublist (List.Sublist.map _ List.filter_sublist) (inv.nodup d)
    · rw [h1 d hd]; exact inv.nodup d
  · intro d e m m' hm hm' hid
    rcases hmem d m hm with hm | ⟨rfl, hm⟩ <;> rcases hmem e m' hm' with hm' | ⟨rfl, hm'⟩
    · exact inv.disj d e m m' hm hm' hid
    · have := inv.lt d m hm; have := (h3 m' hm').1; omega
    · have := inv.lt e m' hm'; have := (h3 m hm).1; omega
    · rfl
  · intro d m hm
    rcases hfmem d m hm with hm | ⟨_, hm⟩
    · have := inv.flt d m hm; omega
    · exact (f3 m hm).2.1
  · intro d
    by_cases hd : d = fc
    · subst hd
      rw [f2, List.map_append, List.nodup_append]
      refine ⟨inv.fnodup d, f4, ?_⟩
      intro a ha b hb hab
      obtain ⟨m, hm, rfl⟩ := List.mem_map.1 ha
      obtain ⟨m', hm', rfl⟩ := List.mem_map.1 hb
      have := inv.flt d m hm
      have := (f3 m' hm').1
      omega
    · rw [f1 d hd]; exact inv.fnodup d
  · intro d e m m' hm hm' hid
    rcases hfmem d m hm with hm | ⟨rfl, hm⟩ <;> rcases hfmem e m' hm' with hm' | ⟨rfl, hm'⟩
    · exact inv.fdisj d e m m' hm hm' hid
    · have := inv.flt d m hm; have := (f3 m' hm').1; omega
    · have := inv.flt e m' hm'; have := (f3 m hm).1; omega
    · rfl

theorem runMem_induction {P : World → World → Prop} (hrefl : ∀ w, P w w)
    (hstep : ∀ (w w1 w2 : World) (op : MemOp), MemInv w → op.run w = .ok w1 → P w1 w2 → P w w2) (ops : List MemOp) :
    ∀ {w w' : World}, MemInv w → runMem w ops = .ok w' → P w w' := by
  induction ops with
  | nil => intro w w' _ h; cases h; exact hrefl w
  | cons op ops ih =>
    intro w w' inv h
    unfold runMem at h
    obtain ⟨w1, h1, h2⟩ := Res.bind_eq_ok.1 h
    exact hstep w w1 w' op inv h1 (ih (step_memInv inv h1) h2)

theorem runMem_inv {ops : List MemOp} : ∀ {w w' : World}, MemInv w → runMem w ops = .ok w' → MemInv w' := by
  induction ops with
  | nil => intro w w' inv h; cases h; exact inv
  | cons op ops ih =>
    intro w w' inv h
    unfold runMem at h
    obtain ⟨w1, h1, h2⟩ := Res.bind_eq_ok.1 h
    exact ih (step_memInv inv h1) h2

theorem MemReachable.inv {w : World} (h : MemReachable w) : MemInv w := by
  obtain ⟨ops, h⟩ := h
  exact runMem_inv initial_memInv h

theorem runMem_append (a b : List MemOp) (w : World) :
    runMem w (a ++ b) = (runMem w a).bind fun w' => runMem w' b := by
  induction a generalizing w with
  | nil => rfl
  | cons op a ih =>
    simp only [List.cons_append, runMem]
    cases op.run w with
    | ok w1 => exact ih w1
    | throws e => rfl
    | ub u => rfl
    | diverges => rfl

theorem MemReachable.run {w w' : World} (h : MemReachable w) {ops : List MemOp}
    (h2 : runMem w ops = .ok w') : MemReachable w' := by
  obtain ⟨ops0, h0⟩ := h
  exact ⟨ops0 ++ ops, by rw [runMem_append, h0]; exact h2⟩

theorem MemReachable.step {w w' : World} (h : MemReachable w) {op : MemOp}
    (h2 : op.run w = .ok w') : MemReachable w' :=
  h.run (ops := [op]) (by simp only [runMem, h2]; rfl)

theorem isClass_iff {w : World} (inv : MemInv w) {n : Str} {c : Nat} :
    w.IsClass n c ↔ w.reg.byName.lookup n = some c := by
  unfold World.IsClass
  rw [findClass_find inv.reg]

theorem isClass_record {w : World} (inv : MemInv w) {n : Str} {c : Nat} (h : w.IsClass n c) :
    ∃ cd, w.reg.cls[c]? = some cd ∧ cd.nativeprefix = n := by
  obtain ⟨cd, h1, h2, _⟩ := lookup_record inv.reg ((isClass_iff inv).1 h)
  exact ⟨cd, h1, h2⟩

theorem isClass_run {ops : List MemOp} : ∀ {w w' : World}, MemInv w → runMem w ops = .ok w' →
    ∀ {n : Str} {c : Nat}, w.IsClass n c → w'.IsClass n c := by
  induction ops with
  | nil => intro w w' inv h; cases h; exact fun h => h
  | cons op ops ih =>
    intro w w' inv h n c hc
    unfold runMem at h
    obtain ⟨w1, h1, h2⟩ := Res.bind_eq_ok.1 h
    have inv1 := step_memInv inv h1
    exact ih inv1 h2 ((isClass_iff inv1).2 ((step_reg inv.reg h1).2 n c ((isClass_iff inv).1 hc)))

theorem isClass_step {w w' : World} {op : MemOp} (inv : MemInv w) (h : op.run w = .ok w')
    {n : Str} {c : Nat} (hc : w.IsClass n c) : w'.IsClass n c :=
  isClass_run (ops := [op]) inv (by simp only [runMem, h]; rfl) hc

theorem getMethodID_isClass {w : World} (inv : MemInv w) {n : Str} {c : Nat} (h : w.IsClass n c)
    (depth : Nat) (st rn nat : Bool) (name sig : Str) :
    w.getMethodID depth st rn nat (some c) name sig =
      w.methodOf depth rn c (effKey n st nat name sig) := by
  obtain ⟨cd, h1, rfl⟩ := isClass_record inv h
  exact getMethodID_class h1 ..

theorem firstAnswer_mono {α : Type} {f g : Nat → Res (Option α)} (h : ∀ b r, f b = .ok r → g b = .ok r) :
    ∀ {bs : List (Option Nat)} {r : Option α}, firstAnswer f bs = .ok r → firstAnswer g bs = .ok r
  | [], r, h1 => h1
  | none :: bs, r, h1 => by
    unfold firstAnswer at h1 ⊢
    exact firstAnswer_mono h h1
  | some b :: bs, r, h1 => by
    unfold firstAnswer at h1 ⊢
    obtain ⟨o, h2, h3⟩ := Res.bind_eq_ok.1 h1
    rw [h b o h2]
    cases o with
    | some x => exact h3
    | none => exact firstAnswer_mono h h3

theorem dfs_mono {α : Type} {bases : Nat → Option (List (Option Nat))} {own : Nat → Option α} :
    ∀ {n m : Nat}, n ≤ m → ∀ {c : Nat} {r : Option α}, dfs bases own n c = .ok r →
      dfs bases own m c = .ok r := by
  intro n
  induction n with
  | zero => intro m _ c r h; simp [dfs] at h
  | succ n ih =>
    intro m hm c r h
    obtain ⟨m, rfl⟩ : ∃ k, m = k + 1 := ⟨m - 1, by omega⟩
    unfold dfs at h ⊢
    cases ho : own c with
    | some x => rw [ho] at h; exact h
    | none =>
      rw [ho] at h
      cases hb : bases c with
      | none => rw [hb] at h; exact h
      | some bs =>
        rw [hb] at h
        exact firstAnswer_mono (fun b r hb => ih (by omega) hb) h

theorem step_ownMethod_keep {w w' : World} {op : MemOp} (h : op.run w = .ok w') {k : MethodKey} {c id : Nat}
    (ho : w.ownMethod k c = some id) (hn : k.native = true → op ≠ .unregisterNatives (some c)) :
    w'.ownMethod k c = some id := by
  obtain ⟨c0, adds, h1, h2, _, _, _⟩ := step_cores h
  rw [ownMethod_cores] at ho ⊢
  by_cases hc : c = c0
  · subst hc
    rcases h2 with e | ⟨e1, _, e⟩
    · rw [Option.map_eq_some_iff] at ho
      obtain ⟨m, hm, hid⟩ := ho
      rw [e, List.find?_append, hm]
      simp [hid]
    · have hk : k.native = false := by
        cases hk : k.native with
        | false => rfl
        | true => exact absurd e1 (hn hk)
      rw [e, List.find?_filter]
      have : (fun a : MethodRec => decide (a.native.isNone = true ∧ k.hits a = true)) = k.hits := by
        funext a
        cases hh : k.hits a with
        | false => simp
        | true =>
          simp only [MethodKey.hits, Bool.and_eq_true, beq_iff_eq, hk] at hh
          cases hna : a.native with
          | none => rfl
          | some x => rw [hna] at hh; simp at hh
      rw [this]; exact ho
  · rw [h1 c hc]; exact ho

theorem step_ownField_keep {w w' : World} {op : MemOp} (h : op.run w = .ok w') {k : FieldKey} {c id : Nat}
    (ho : w.ownField k c = some id) : w'.ownField k c = some id := by
  obtain ⟨c0, adds, h1, e, _, _⟩ := step_fcores h
  rw [ownField_cores] at ho ⊢
  by_cases hc : c = c0
  · subst hc
    rw [Option.map_eq_some_iff] at ho
    obtain ⟨m, hm, hid⟩ := ho
    rw [e, List.find?_append, hm]
    simp [hid]
  · rw [h1 c hc]; exact ho

/-- An address determines its class and record. -/
theorem method_unique {w : World} (inv : MemInv w) {c d : Nat} {m m' : MethodRec}
    (h : m ∈ (w.mem c).methods) (h' : m' ∈ (w.mem d).methods) (hid : m.id = m'.id) : c = d ∧ m = m' := by
  have e := inv.disj c d m.core m'.core (List.mem_map_of_mem h) (List.mem_map_of_mem h') hid
  subst e
  refine ⟨rfl, ?_⟩
  have := inv.nodup c
  have e2 : (w.cores c).map (·.id) = (w.mem c).methods.map (·.id) := by
    unfold World.cores; rw [List.map_map]; rfl
  rw [e2] at this
  exact nodup_map_inj this h h' hid

end Jnivm
