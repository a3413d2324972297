import Verif.Spec.Asserts
import Verif.Lemmas.Defaults
/-! Lemmas for C78: how each operation changes base lists, and searches that can throw. -/
namespace Jnivm
open Spec

/-! ### Base lists -/

theorem registerNatives_raw (c : Nat) (l : List NativeMethod) : ∀ (w : World) (d : Nat),
    ((w.registerNatives (some c) l).mem d).bases = (w.mem d).bases := by
  induction l with
  | nil => intro w d; rfl
  | cons n l ih =>
    intro w d
    have e : w.registerNatives (some c) (n :: l) = (w.registerOne c n).registerNatives (some c) l := rfl
    rw [e, ih]
    unfold World.registerOne
    by_cases h : d = c
    · subst h; simp
    · simp [h]

theorem step_raw {w w' : World} {op : MemOp} (h : op.run w = .ok w')
    (hb : ∀ t n bs, op ≠ .bindType t n bs) (d : Nat) : (w'.mem d).bases = (w.mem d).bases := by
  cases op with
  | findClass z n => simp [MemOp.run] at h; subst h; rfl
  | getMethodID depth st rn nat cl n s =>
    simp only [MemOp.run] at h
    obtain ⟨⟨w2, r⟩, h1, h2⟩ := Res.bind_eq_ok.1 h
    simp at h2; subst h2
    rcases getMethodID_ok h1 with ⟨_, _, e, _⟩ | ⟨_, _, _, reg, hr, e⟩ | ⟨c, cd, e1, e2, e3⟩
    · rw [e]
    · subst e; rfl
    · rcases methodOf_ok e3 with ⟨e, _⟩ | ⟨_, hd, _, reg, hr, e⟩
      · rw [e]
      · subst e
        unfold World.addMethod
        by_cases h : d = c
        · subst h; simp
        · simp [h]
  | getFieldID depth st rn cl n t =>
    simp only [MemOp.run] at h
    obtain ⟨⟨w2, r⟩, h1, h2⟩ := Res.bind_eq_ok.1 h
    simp at h2; subst h2
    obtain ⟨c, cd, e1, _, ⟨e, _⟩ | ⟨_, hd, _, reg, hr, e⟩⟩ := getFieldID_ok h1
    · rw [e]
    · subst e
      unfold World.addField
      by_cases h : d = c
      · subst h; simp
      · simp [h]
  | hookMethod c st n s fn =>
    simp [MemOp.run] at h; subst h
    cases ha : (w.mem c).methods.any (hookHits st n s) <;> by_cases h : d = c <;>
      simp only [World.hookMethod, ha, setMem_mem, h, Bool.false_eq_true, if_true, if_false]
  | hookField c g st n t fn =>
    simp [MemOp.run] at h; subst h
    cases ha : (w.mem c).fields.any (FieldKey.hits ⟨st, n, t⟩) <;> by_cases h : d = c <;>
      simp only [World.hookField, ha, setMem_mem, h, Bool.false_eq_true, if_true, if_false]
  | registerNatives cl l =>
    simp [MemOp.run] at h; subst h
    cases cl with
    | none => rfl
    | some c => exact registerNatives_raw c l w d
  | unregisterNatives cl =>
    simp [MemOp.run] at h; subst h
    cases cl with
    | none => rfl
    | some c =>
      unfold World.unregisterNatives
      by_cases h : d = c
      · subst h; simp
      · simp [h]
  | bindType t n bs => exact absurd rfl (hb t n bs)

theorem declareds_append (ops ops' : List MemOp) :
    declareds (ops ++ ops') = declareds ops ++ declareds ops' := by
  induction ops with
  | nil => rfl
  | cons op ops ih => cases op <;> simp [declareds, ih]

theorem declareds_cons (op : MemOp) (ops : List MemOp) :
    declareds (op :: ops) = declareds [op] ++ declareds ops := declareds_append [op] ops

/-- A history binds exactly the types it names, and every base list comes from it. -/
structure RawInv (w : World) (ds : List Declared) : Prop where
  reach : MemReachable w
  types : ∀ t, w.types t ≠ none ↔ ∃ d ∈ ds, d.type = t
  bases : ∀ c ts, (w.mem c).bases = some ts → ∃ d ∈ ds, d.bases = ts ∧ w.IsClass d.name c
  known : ∀ d ∈ ds, ∃ c, w.IsClass d.name c ∧ (w.mem c).bases ≠ none

theorem initial_rawInv : RawInv World.initial [] :=
  ⟨⟨[], rfl⟩, fun _ => ⟨fun h => absurd rfl h, fun ⟨_, h, _⟩ => nomatch h⟩, fun _ _ h => (nomatch h),
    fun _ h => nomatch h⟩

theorem RawInv.step {w w' : World} {ds : List Declared} (inv : RawInv w ds) {op : MemOp}
    (h : op.run w = .ok w') : RawInv w' (ds ++ declareds [op]) := by
  have other : (∀ t n bs, op ≠ .bindType t n bs) → RawInv w' ds := by
    intro hb
    have hk : ∀ n c, w.IsClass n c → w'.IsClass n c := fun n c => isClass_step inv.reach.inv h
    have ht : w'.types = w.types := by
      rcases step_types h with e | ⟨t, n, bs, e⟩
      · exact e
      · exact absurd e (hb t n bs)
    refine ⟨inv.reach.step h, fun t => by rw [ht]; exact inv.types t, fun c ts hc => ?_, fun d hd => ?_⟩
    · rw [step_raw h hb] at hc
      obtain ⟨d, hd, e, hn⟩ := inv.bases c ts hc
      exact ⟨d, hd, e, hk _ _ hn⟩
    · obtain ⟨c, hc, hb'⟩ := inv.known d hd
      exact ⟨c, hk _ _ hc, by rw [step_raw h hb]; exact hb'⟩
  cases op with
  | bindType t n bs =>
    obtain ⟨w1, c, hrun, hc, htypes, hmem, hkeep, _⟩ := bindType_spec inv.reach.inv t n bs
    rw [hrun] at h
    cases h
    refine ⟨inv.reach.step hrun, fun u => ?_, fun x ts hx => ?_, fun d hd => ?_⟩
    · rw [htypes]
      by_cases hu : u = t
      · subst hu
        simp [declareds]
      · rw [if_neg hu, inv.types]
        simp only [declareds, List.mem_append, List.mem_singleton]
        constructor
        · rintro ⟨d, hd, e⟩; exact ⟨d, .inl hd, e⟩
        · rintro ⟨d, hd | rfl, e⟩
          · exact ⟨d, hd, e⟩
          · exact absurd e.symm hu
    · rw [hmem] at hx
      by_cases hxc : x = c
      · subst hxc
        rw [if_pos rfl] at hx
        cases hx
        exact ⟨⟨t, n, bs⟩, by simp [declareds], rfl, hc⟩
      · rw [if_neg hxc] at hx
        obtain ⟨d, hd, e, hn⟩ := inv.bases x ts hx
        exact ⟨d, List.mem_append_left _ hd, e, hkeep _ _ hn⟩
    · rcases List.mem_append.1 hd with hd | hd
      · obtain ⟨x, hx, hb⟩ := inv.known d hd
        refine ⟨x, hkeep _ _ hx, ?_⟩
        rw [hmem]
        by_cases hxc : x = c
        · rw [if_pos hxc]; exact fun e => nomatch e
        · rw [if_neg hxc]; exact hb
      · simp only [declareds, List.mem_singleton] at hd
        subst hd
        exact ⟨c, hc, by rw [hmem, if_pos rfl]; exact fun e => nomatch e⟩
  | findClass z n => simpa [declareds] using other fun _ _ _ e => nomatch e
  | getMethodID d s r a cl n sig => simpa [declareds] using other fun _ _ _ e => nomatch e
  | getFieldID d s r cl n t => simpa [declareds] using other fun _ _ _ e => nomatch e
  | hookMethod c s n sig fn => simpa [declareds] using other fun _ _ _ e => nomatch e
  | hookField c g s n t fn => simpa [declareds] using other fun _ _ _ e => nomatch e
  | registerNatives cl l => simpa [declareds] using other fun _ _ _ e => nomatch e
  | unregisterNatives cl => simpa [declareds] using other fun _ _ _ e => nomatch e

theorem RawInv.run {ops : List MemOp} : ∀ {w w' : World} {ds : List Declared}, RawInv w ds →
    runMem w ops = .ok w' → RawInv w' (ds ++ declareds ops) := by
  induction ops with
  | nil => intro w w' ds inv h; cases h; simpa [declareds] using inv
  | cons op ops ih =>
    intro w w' ds inv h
    simp only [runMem] at h
    obtain ⟨w1, h1, h2⟩ := Res.bind_eq_ok.1 h
    rw [declareds_cons, ← List.append_assoc]
    exact ih (inv.step h1) h2

theorem rawInv {ops : List MemOp} {w : World} (h : runMem .initial ops = .ok w) : RawInv w (declareds ops) := by
  simpa using initial_rawInv.run h

/-- With one class for each type, the type of a declaration is bound to the class of its name. -/
def Paired (w : World) (ds : List Declared) : Prop :=
  ∀ d ∈ ds, ∀ c, w.IsClass d.name c → w.types d.type = some c

theorem Paired.step {w w' : World} {ds : List Declared} (inv : RawInv w ds) (hp : Paired w ds) {op : MemOp}
    (h : op.run w = .ok w') (h1 : OneToOne (ds ++ declareds [op])) : Paired w' (ds ++ declareds [op]) := by
  have old : ∀ d ∈ ds, ∀ c, w'.IsClass d.name c → w.IsClass d.name c := by
    intro d hd c hc
    obtain ⟨x, hx, _⟩ := inv.known d hd
    rw [isClass_fun hc (isClass_step inv.reach.inv h hx)]
    exact hx
  have other : (∀ t n bs, op ≠ .bindType t n bs) → Paired w' ds := by
    intro hb d hd c hc
    rcases step_types h with e | ⟨t, n, bs, e⟩
    · rw [e]; exact hp d hd c (old d hd c hc)
    · exact absurd e (hb t n bs)
  cases op with
  | bindType t n bs =>
    obtain ⟨w1, c, hrun, hc, htypes, hmem, hkeep, _⟩ := bindType_spec inv.reach.inv t n bs
    rw [hrun] at h
    cases h
    have hlast : (⟨t, n, bs⟩ : Declared) ∈ ds ++ declareds [MemOp.bindType t n bs] := by simp [declareds]
    intro d hd x hx
    rw [htypes]
    by_cases ht : d.type = t
    · have e := h1 d hd _ hlast (.inl ht)
      subst e
      rw [if_pos rfl, isClass_fun hx hc]
    · rw [if_neg ht]
      rcases List.mem_append.1 hd with hd | hd
      · exact hp d hd x (old d hd x hx)
      · simp only [declareds, List.mem_singleton] at hd
        subst hd
        exact absurd rfl ht
  | findClass z n => simpa [declareds] using other fun _ _ _ e => nomatch e
  | getMethodID d s r a cl n sig => simpa [declareds] using other fun _ _ _ e => nomatch e
  | getFieldID d s r cl n t => simpa [declareds] using other fun _ _ _ e => nomatch e
  | hookMethod c s n sig fn => simpa [declareds] using other fun _ _ _ e => nomatch e
  | hookField c g s n t fn => simpa [declareds] using other fun _ _ _ e => nomatch e
  | registerNatives cl l => simpa [declareds] using other fun _ _ _ e => nomatch e
  | unregisterNatives cl => simpa [declareds] using other fun _ _ _ e => nomatch e

theorem OneToOne.left {ds es : List Declared} (h : OneToOne (ds ++ es)) : OneToOne ds :=
  fun d hd e he => h d (List.mem_append_left _ hd) e (List.mem_append_left _ he)

theorem Paired.run {ops : List MemOp} : ∀ {w w' : World} {ds : List Declared}, RawInv w ds → Paired w ds →
    runMem w ops = .ok w' → OneToOne (ds ++ declareds ops) → Paired w' (ds ++ declareds ops) := by
  induction ops with
  | nil => intro w w' ds _ hp h _; cases h; simpa [declareds] using hp
  | cons op ops ih =>
    intro w w' ds inv hp h h1
    simp only [runMem] at h
    obtain ⟨w1, h2, h3⟩ := Res.bind_eq_ok.1 h
    rw [declareds_cons, ← List.append_assoc] at h1 ⊢
    exact ih (inv.step h2) (hp.step inv h2 (OneToOne.left h1)) h3 h1

theorem paired {ops : List MemOp} {w : World} (h : runMem .initial ops = .ok w) (h1 : OneToOne (declareds ops)) :
    Paired w (declareds ops) := by
  simpa using Paired.run initial_rawInv (fun _ h => nomatch h) h (by simpa using h1)

/-! ### Searches that can throw -/

theorem missing_iff {w : World} {ts : List (Option Nat)} :
    ts.any w.missing = true ↔ ∃ t, some t ∈ ts ∧ w.types t = none := by
  rw [List.any_eq_true]
  constructor
  · rintro ⟨o, ho, hm⟩
    cases o with
    | none => exact nomatch hm
    | some t =>
      refine ⟨t, ho, ?_⟩
      simpa [World.missing] using hm
  · rintro ⟨t, ht, e⟩
    exact ⟨some t, ht, by simp [World.missing, e]⟩

theorem basesA_throws {w : World} {c : Nat} (h : Unregistered w c) : w.basesA c = .throws .runtimeError := by
  obtain ⟨ts, t, h1, h2, h3⟩ := h
  unfold World.basesA
  rw [h1]
  exact if_pos (missing_iff.2 ⟨t, h2, h3⟩)

theorem basesA_ok {w : World} {c : Nat} (h : ¬ Unregistered w c) : w.basesA c = .ok (w.bases c) := by
  unfold World.basesA World.bases
  cases hb : (w.mem c).bases with
  | none => rfl
  | some ts =>
    have : ¬ (ts.any w.missing = true) := fun hm => by
      obtain ⟨t, ht, e⟩ := missing_iff.1 hm
      exact h ⟨ts, t, hb, ht, e⟩
    exact if_neg this

/-- `MeetsUnregistered` in terms of the function that is searched with. -/
def MeetsOwn {α : Type} (w : World) (own : Nat → Option α) (order : List Nat) : Prop :=
  ∃ pre c post, order = pre ++ c :: post ∧ (∀ d ∈ pre, own d = none) ∧ own c = none ∧ Unregistered w c

theorem meetsOwn_iff {α : Type} {w : World} {own : Nat → Option α} {has : Nat → Prop}
    (h : ∀ d, own d = none ↔ ¬ has d) {order : List Nat} :
    MeetsOwn w own order ↔ MeetsUnregistered w has order := by
  unfold MeetsOwn MeetsUnregistered
  simp only [h]

section DfsA
variable {α : Type} {w : World} {own : Nat → Option α}

theorem firstAnswerA_agree {f g : Nat → Res (Option α)}
    (h : ∀ b, f b = g b ∨ f b = .throws .runtimeError) : ∀ bs : List (Option Nat),
    firstAnswer f bs = firstAnswer g bs ∨ firstAnswer f bs = .throws .runtimeError
  | [] => .inl rfl
  | none :: bs => by
    simp only [firstAnswer]
    exact firstAnswerA_agree h bs
  | some b :: bs => by
    simp only [firstAnswer]
    rcases h b with e | e
    · rw [e]
      cases g b with
      | ok r =>
        cases r with
        | some x => exact .inl rfl
        | none => exact firstAnswerA_agree h bs
      | throws e => exact .inl rfl
      | ub u => exact .inl rfl
      | diverges => exact .inl rfl
    · rw [e]; exact .inr rfl

theorem dfsA_agree (n c : Nat) :
    dfsA w.basesA own n c = dfs w.bases own n c ∨ dfsA w.basesA own n c = .throws .runtimeError := by
  induction n generalizing c with
  | zero => exact .inl rfl
  | succ n ih =>
    unfold dfsA dfs
    cases own c with
    | some x => exact .inl rfl
    | none =>
      by_cases hu : Unregistered w c
      · rw [basesA_throws hu]; exact .inr rfl
      · rw [basesA_ok hu]
        cases w.bases c with
        | none => exact .inl rfl
        | some bs => exact firstAnswerA_agree ih bs

theorem dfsA_eq (h : ∀ c, ¬ Unregistered w c) (n c : Nat) : dfsA w.basesA own n c = dfs w.bases own n c := by
  induction n generalizing c with
  | zero => rfl
  | succ n ih =>
    unfold dfsA dfs
    cases own c with
    | some x => rfl
    | none =>
      rw [basesA_ok (h c)]
      have e : dfsA w.basesA own n = dfs w.bases own n := funext ih
      rw [e]
      cases w.bases c <;> rfl

theorem meets_append {l r : List Nat} : MeetsOwn w own (l ++ r) ↔
    MeetsOwn w own l ∨ ((∀ d ∈ l, own d = none) ∧ MeetsOwn w own r) := by
  constructor
  · rintro ⟨pre, c, post, e, h1, h2, h3⟩
    rcases List.append_eq_append_iff.1 e with ⟨m, rfl, e2⟩ | ⟨m, rfl, e2⟩
    · exact .inr ⟨fun d hd => h1 d (List.mem_append_left _ hd),
        m, c, post, e2, fun d hd => h1 d (List.mem_append_right _ hd), h2, h3⟩
    · cases m with
      | nil =>
        simp only [List.nil_append] at e2
        refine .inr ⟨fun d hd => h1 d (by simpa using hd), [], c, post, e2.symm, fun _ h => (nomatch h), h2, h3⟩
      | cons x m =>
        simp only [List.cons_append, List.cons.injEq] at e2
        obtain ⟨rfl, _⟩ := e2
        exact .inl ⟨pre, c, m, rfl, h1, h2, h3⟩
  · rintro (⟨pre, c, post, rfl, h1, h2, h3⟩ | ⟨h0, pre, c, post, rfl, h1, h2, h3⟩)
    · exact ⟨pre, c, post ++ r, by simp, h1, h2, h3⟩
    · refine ⟨l ++ pre, c, post, by simp, fun d hd => ?_, h2, h3⟩
      rcases List.mem_append.1 hd with h | h
      · exact h0 d h
      · exact h1 d h

theorem meets_cons {c : Nat} {r : List Nat} : MeetsOwn w own (c :: r) ↔
    own c = none ∧ (Unregistered w c ∨ MeetsOwn w own r) := by
  constructor
  · rintro ⟨pre, d, post, e, h1, h2, h3⟩
    cases pre with
    | nil =>
      simp only [List.nil_append, List.cons.injEq] at e
      obtain ⟨rfl, _⟩ := e
      exact ⟨h2, .inl h3⟩
    | cons p pre =>
      simp only [List.cons_append, List.cons.injEq] at e
      obtain ⟨rfl, rfl⟩ := e
      exact ⟨h1 _ (.head _), .inr ⟨pre, d, post, rfl, fun x hx => h1 x (.tail _ hx), h2, h3⟩⟩
  · rintro ⟨h0, h | ⟨pre, d, post, rfl, h1, h2, h3⟩⟩
    · exact ⟨[], c, r, rfl, fun _ h => (nomatch h), h0, h⟩
    · refine ⟨c :: pre, d, post, rfl, fun x hx => ?_, h2, h3⟩
      rcases List.mem_cons.1 hx with rfl | hx
      · exact h0
      · exact h1 x hx

theorem not_meets_nil : ¬ MeetsOwn w own [] := by
  rintro ⟨pre, c, post, e, _⟩
  simp at e

theorem searchOrder_dfsA {cs : List (Option Nat)} {l : List Nat} (h : SearchOrder w.bases cs l) :
    ∀ {n : Nat}, l.length ≤ n →
      (MeetsOwn w own l → firstAnswer (dfsA w.basesA own n) cs = .throws .runtimeError) ∧
      (¬ MeetsOwn w own l → firstAnswer (dfsA w.basesA own n) cs = .ok (l.findSome? own)) := by
  induction h with
  | nil => intro n _; exact ⟨fun h => absurd h not_meets_nil, fun _ => rfl⟩
  | skip _ ih => intro n hn; simp only [firstAnswer]; exact ih hn
  | @visit c cs up l hup hl ihup ihl =>
    intro n hn
    simp only [List.length_cons, List.length_append] at hn
    obtain ⟨m, rfl⟩ : ∃ m, n = m + 1 := ⟨n - 1, by omega⟩
    obtain ⟨u1, u2⟩ := ihup (n := m) (by omega)
    obtain ⟨l1, l2⟩ := ihl (n := m + 1) (by omega)
    rw [meets_cons, meets_append]
    have first : (own c = none ∧ (Unregistered w c ∨ MeetsOwn w own up) →
          dfsA w.basesA own (m + 1) c = .throws .runtimeError) ∧
        (¬ (own c = none ∧ (Unregistered w c ∨ MeetsOwn w own up)) →
          dfsA w.basesA own (m + 1) c = .ok ((c :: up).findSome? own)) := by
      unfold dfsA
      rw [List.findSome?_cons]
      cases ho : own c with
      | some x => exact ⟨fun h => (nomatch h.1), fun _ => rfl⟩
      | none =>
        by_cases hu : Unregistered w c
        · rw [basesA_throws hu]
          exact ⟨fun _ => rfl, fun h => absurd ⟨rfl, .inl hu⟩ h⟩
        · rw [basesA_ok hu]
          constructor
          · rintro ⟨_, h | h⟩
            · exact absurd h hu
            · have := u1 h
              cases hb : w.bases c with
              | none => rw [hb] at this; simp [firstAnswer] at this
              | some bs => rw [hb] at this; exact this
          · intro h
            have := u2 fun hm => h ⟨rfl, .inr hm⟩
            cases hb : w.bases c with
            | none => rw [hb] at this; exact this
            | some bs => rw [hb] at this; exact this
    unfold firstAnswer
    constructor
    · rintro ⟨h0, h | h | ⟨h, h'⟩⟩
      · rw [first.1 ⟨h0, .inl h⟩]; rfl
      · rw [first.1 ⟨h0, .inr h⟩]; rfl
      · by_cases hf : own c = none ∧ (Unregistered w c ∨ MeetsOwn w own up)
        · rw [first.1 hf]; rfl
        · rw [first.2 hf]
          have e : (c :: up).findSome? own = none := by
            rw [List.findSome?_eq_none_iff]
            intro x hx
            rcases List.mem_cons.1 hx with rfl | hx
            · exact h0
            · exact h x hx
          rw [e]
          exact l1 h'
    · intro hno
      have hf : ¬ (own c = none ∧ (Unregistered w c ∨ MeetsOwn w own up)) := by
        rintro ⟨h0, h | h⟩
        · exact hno ⟨h0, .inl h⟩
        · exact hno ⟨h0, .inr (.inl h)⟩
      rw [first.2 hf, ← List.cons_append, List.findSome?_append]
      cases he : (c :: up).findSome? own with
      | some x => rfl
      | none =>
        rw [List.findSome?_eq_none_iff] at he
        exact l2 fun hm => hno ⟨he c (.head _), .inr (.inr ⟨fun x hx => he x (.tail _ hx), hm⟩)⟩

theorem dfsA_searchOrder {c n : Nat} {l : List Nat} (h : SearchOrder w.bases [some c] l) (hn : l.length ≤ n) :
    (MeetsOwn w own l → dfsA w.basesA own n c = .throws .runtimeError) ∧
    (¬ MeetsOwn w own l → dfsA w.basesA own n c = .ok (l.findSome? own)) := by
  obtain ⟨h1, h2⟩ := searchOrder_dfsA (own := own) h hn
  unfold firstAnswer at h1 h2
  constructor
  · intro hm
    have := h1 hm
    cases hd : dfsA w.basesA own n c with
    | ok r =>
      rw [hd] at this
      cases r with
      | some x => cases this
      | none => cases this
    | throws e => rw [hd] at this; exact this
    | ub u => rw [hd] at this; cases this
    | diverges => rw [hd] at this; cases this
  · intro hm
    have := h2 hm
    cases hd : dfsA w.basesA own n c with
    | ok r =>
      rw [hd] at this
      cases r with
      | some x => exact this
      | none => exact this
    | throws e => rw [hd] at this; cases this
    | ub u => rw [hd] at this; cases this
    | diverges => rw [hd] at this; cases this
end DfsA

end Jnivm
