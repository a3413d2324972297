import Verif.Spec.WinLoader
/-!
The default library functions on Windows (C76).
-/
namespace Jnivm
open Spec

theorem takeWhile_nonzero {u : List (BitVec 16)} (h : 0 ∉ u) (l : List (BitVec 16)) :
    (u ++ 0 :: l).takeWhile (· != 0) = u := by
  induction u with
  | nil => simp
  | cons x u ih =>
    simp only [List.mem_cons, not_or] at h
    have hx : (x != 0) = true := by simpa using Ne.symm h.1
    rw [List.cons_append, List.takeWhile_cons, if_pos hx, ih h.2]

/-- C76. The conversion of a name stays within its buffer, and Windows reads exactly the converted name; a name
that cannot be converted becomes the empty one. -/
theorem win_name {conv : List (BitVec 8) → Option (List (BitVec 16))} (hc : Converts conv) (n : List (BitVec 8)) :
    wideName conv n = .ok ((conv n).getD []) := by
  unfold wideName
  cases he : conv n with
  | none => rfl
  | some u =>
    obtain ⟨h1, h2⟩ := hc n u he
    have hl : ¬ u.length + 1 + 1 > winIntMax := by unfold winIntMax; omega
    simp only [if_neg hl]
    have hd : List.drop (u.length + 1) (List.replicate (u.length + 1 + 1) (0 : BitVec 16)) = [0] := by
      rw [List.drop_replicate]; simp
    have hs : (u ++ [0] ++ [0]).set (u.length + 1) (0 : BitVec 16) = u ++ 0 :: [0] := by
      rw [List.append_assoc, List.set_append_right _ _ (by omega), Nat.add_sub_cancel_left]; rfl
    rw [hd, if_pos (by simp), hs, if_pos (List.mem_append_right _ (List.mem_cons_self ..)), takeWhile_nonzero h1]
    rfl

/-- C76 fails for names of 2^31 - 2 units: the size of the buffer overflows. -/
theorem win_name_overflow {conv : List (BitVec 8) → Option (List (BitVec 16))} {n : List (BitVec 8)}
    {u : List (BitVec 16)} (h : conv n = some u) (hl : u.length + 1 = 2147483647) :
    wideName conv n = .ub .signedOverflow := by
  unfold wideName
  rw [h]
  simp only [hl]
  rw [if_pos (by decide)]

/-- Sample for `win_name`: names of ASCII characters. -/
def asciiConv (n : List (BitVec 8)) : Option (List (BitVec 16)) :=
  if n.all (fun b => b != 0 && b.toNat < 128) ∧ n.length < 260 then some (n.map (·.zeroExtend 16)) else none

theorem asciiConv_converts : Converts asciiConv := by
  intro n u h
  unfold asciiConv at h
  split at h
  case isTrue hc =>
    cases h
    refine ⟨fun h0 => ?_, by simp; omega⟩
    obtain ⟨b, hb, e⟩ := List.mem_map.1 h0
    have := List.all_eq_true.1 hc.1 b hb
    simp only [Bool.and_eq_true, bne_iff_ne, ne_eq, decide_eq_true_eq] at this
    apply this.1
    apply BitVec.eq_of_toNat_eq
    have e := congrArg BitVec.toNat e
    simp only [BitVec.toNat_setWidth] at e
    have hb := b.isLt
    show b.toNat = 0
    change b.toNat % 2 ^ 16 = 0 at e
    omega
  case isFalse => cases h

/-- Sample for `win_name`: the name "a.dll". -/
example : Converts asciiConv ∧
    wideName asciiConv [0x61, 0x2e, 0x64, 0x6c, 0x6c] = .ok [0x61, 0x2e, 0x64, 0x6c, 0x6c] :=
  ⟨asciiConv_converts, by decide⟩

/-- The references that a call adds. -/
theorem winStep_opens {conv : List (BitVec 8) → Option (List (BitVec 16))} (hc : Converts conv)
    {exports : Nat → Str → Option Nat} (s : WinState) (name : Option (List (BitVec 8))) (self : Option Nat)
    (load : List (BitVec 16) → Option Nat) :
    (opens conv (.dlopen name self load) = none ∧
      s.step conv exports (.dlopen name self load) = .ok (s, .handle none)) ∨
    ∃ m f, opens conv (.dlopen name self load) = some m ∧
      s.step conv exports (.dlopen name self load) = .ok (s.wrap m f) := by
  have key : (opens conv (.dlopen none self load) = none ∧ s.step conv exports (.dlopen none self load) = .ok (s, .handle none)) ∨
      ∃ m f, opens conv (.dlopen none self load) = some m ∧ s.step conv exports (.dlopen none self load) = .ok (s.wrap m f) := by
    cases self with
    | none => exact .inl ⟨rfl, rfl⟩
    | some m => exact .inr ⟨m, false, rfl, rfl⟩
  match name with
  | none => exact key
  | some [] => exact key
  | some (b :: n) =>
    have e : opens conv (.dlopen (some (b :: n)) self load) = load ((conv (b :: n)).getD []) := by
      simp only [opens]
      cases conv (b :: n) <;> rfl
    rw [e]
    simp only [WinState.step, win_name hc, Res.bind_ok]
    cases load ((conv (b :: n)).getD []) with
    | none => exact .inl ⟨rfl, rfl⟩
    | some m => exact .inr ⟨m, true, rfl, rfl⟩

theorem lookup_filter_ne (l : List (Nat × WinWrapper)) (h k : Nat) :
    (l.filter (fun x => x.1 != h)).lookup k = if k = h then none else l.lookup k := by
  induction l with
  | nil => simp
  | cons x l ih =>
    obtain ⟨a, w⟩ := x
    by_cases e : a = h
    · subst e
      rw [List.filter_cons_of_neg (by simp), ih]
      split
      · rfl
      · rename_i hk
        rw [List.lookup_cons, beq_false_of_ne hk]
    · rw [List.filter_cons_of_pos (by simpa using e), List.lookup_cons, List.lookup_cons, ih]
      by_cases hk : k = a
      · subst hk; simp [e]
      · rw [beq_false_of_ne hk]

/-- The open handles are the wrappers that are allocated. -/
structure WinInv (s : WinState) (open_ : List Nat) : Prop where
  mem : ∀ h, h ∈ open_ ↔ s.wrapper? h ≠ none
  lt : ∀ h ∈ open_, h < s.next

theorem WinInv.wrap {s : WinState} {L : List Nat} (i : WinInv s L) (m : Nat) (f : Bool) :
    WinInv (s.wrap m f).1 (s.next :: L) where
  mem h := by
    simp only [List.mem_cons, WinState.wrap, WinState.wrapper?, List.lookup_cons]
    by_cases e : h = s.next
    · simp [e]
    · rw [beq_false_of_ne e]
      exact ⟨fun hh => (i.mem h).1 (hh.resolve_left e), fun hh => .inr ((i.mem h).2 hh)⟩
  lt h hh := by
    simp only [WinState.wrap]
    rcases List.mem_cons.1 hh with rfl | hh
    · omega
    · have := i.lt h hh; omega

theorem WinInv.close {s s' : WinState} {L : List Nat} (i : WinInv s L) {h : Nat}
    (hw : s'.wrappers = s.wrappers.filter (fun x => x.1 != h)) (hn : s'.next = s.next) :
    WinInv s' (L.filter (· != h)) where
  mem k := by
    rw [List.mem_filter, i.mem, WinState.wrapper?, WinState.wrapper?, hw, lookup_filter_ne]
    by_cases e : k = h <;> simp [e]
  lt k hk := by rw [hn]; exact i.lt k (List.mem_filter.1 hk).1

theorem WinInv.same {s s' : WinState} {L : List Nat} (i : WinInv s L) (hw : s'.wrappers = s.wrappers)
    (hn : s'.next = s.next) : WinInv s' L where
  mem k := by rw [i.mem, WinState.wrapper?, WinState.wrapper?, hw]
  lt k hk := by rw [hn]; exact i.lt k hk

/-- What closing does. -/
theorem winStep_close {conv : List (BitVec 8) → Option (List (BitVec 16))} {exports : Nat → Str → Option Nat}
    {s s' : WinState} {h : Nat} {a : WinAnswer} (hs : s.step conv exports (.dlclose (some h)) = .ok (s', a)) :
    ∃ w, s.wrapper? h = some w ∧ s'.wrappers = s.wrappers.filter (fun x => x.1 != h) ∧ s'.next = s.next ∧
      s'.refs = s.refs ∧
      (w.free = true ∧ w.mod ∈ s.kernel ∧ s'.kernel = s.kernel.filter (· != w.mod) ∧ a = .status 1 ∨
        ¬ (w.free = true ∧ w.mod ∈ s.kernel) ∧ s'.kernel = s.kernel ∧ a = .status 0) := by
  simp only [WinState.step] at hs
  cases hw : s.wrapper? h with
  | none => rw [hw] at hs; cases hs
  | some w =>
    rw [hw] at hs
    refine ⟨w, rfl, ?_⟩
    dsimp only at hs
    by_cases hf : w.free = true
    · rw [if_pos hf] at hs
      by_cases hk : w.mod ∈ s.kernel
      · rw [if_pos hk] at hs; cases hs
        exact ⟨rfl, rfl, rfl, .inl ⟨hf, hk, rfl, rfl⟩⟩
      · rw [if_neg hk] at hs; cases hs
        exact ⟨rfl, rfl, rfl, .inr ⟨fun h => hk h.2, rfl, rfl⟩⟩
    · rw [if_neg hf] at hs; cases hs
      exact ⟨rfl, rfl, rfl, .inr ⟨fun h => hf h.1, rfl, rfl⟩⟩

/-- Every call keeps the wrappers and the open handles together. -/
theorem winStep_inv {conv : List (BitVec 8) → Option (List (BitVec 16))} (hc : Converts conv)
    {exports : Nat → Str → Option Nat} {s s' : WinState} {L : List Nat} (i : WinInv s L) {op : WinOp} {a : WinAnswer}
    (hs : s.step conv exports op = .ok (s', a)) : WinInv s' (openHandles L [(op, a)]) := by
  cases op with
  | dlopen name self load =>
    rcases winStep_opens hc (exports := exports) s name self load with ⟨_, h⟩ | ⟨m, f, _, h⟩
    · rw [h] at hs; cases hs; exact i
    · rw [h] at hs; cases hs; exact i.wrap m f
  | dlsym h sym =>
    have : s' = s := by
      cases h <;> cases sym <;> simp only [WinState.step] at hs
      · cases hs; rfl
      · cases hs; rfl
      · cases hs; rfl
      · split at hs
        · cases hs
        · split at hs <;> cases hs; rfl
    subst this
    exact i
  | dlclose h =>
    cases h with
    | none => cases hs; exact i
    | some h =>
      obtain ⟨w, _, h2, h3, _⟩ := winStep_close hs
      exact i.close h2 h3
  | loadLibrary m => cases hs; exact i.same rfl rfl
  | freeLibrary m =>
    simp only [WinState.step] at hs
    split at hs <;> cases hs
    exact i.same rfl rfl
  | createHandle k => cases hs; exact i.same rfl rfl

theorem openHandles_cons (L : List Nat) (x : WinOp × WinAnswer) (l : List (WinOp × WinAnswer)) :
    openHandles L (x :: l) = openHandles (openHandles L [x]) l := by
  obtain ⟨op, a⟩ := x
  cases op with
  | dlopen =>
    cases a with
    | handle h => cases h <;> rfl
    | _ => rfl
  | dlclose h => cases h <;> rfl
  | _ => rfl

theorem winRun_inv {conv : List (BitVec 8) → Option (List (BitVec 16))} (hc : Converts conv)
    {exports : Nat → Str → Option Nat} : ∀ {ops : List WinOp} {s s' : WinState} {L : List Nat} {l : List WinAnswer},
    WinInv s L → s.run conv exports ops = .ok (s', l) → WinInv s' (openHandles L (ops.zip l))
  | [], s, s', L, l, i, h => by cases h; exact i
  | op :: ops, s, s', L, l, i, h => by
    obtain ⟨⟨s1, a⟩, h1, h⟩ := Res.bind_eq_ok.1 h
    obtain ⟨⟨s2, l2⟩, h2, h⟩ := Res.bind_eq_ok.1 h
    cases h
    rw [List.zip_cons_cons, openHandles_cons]
    exact winRun_inv hc (winStep_inv hc i h1) h2

theorem winInitial_inv (refs : Nat → Nat) (kernel : List Nat) : WinInv (.initial refs kernel) [] :=
  ⟨fun h => by simp [WinState.initial, WinState.wrapper?], fun h hh => by cases hh⟩

/-- C76. `dlopen` never goes wrong.  It gives a handle exactly if Windows gives the module, and the handle is
none of those that are open. -/
theorem win_open {conv : List (BitVec 8) → Option (List (BitVec 16))} (hc : Converts conv)
    {exports : Nat → Str → Option Nat} {refs : Nat → Nat} {kernel : List Nat} {ops : List WinOp} {s : WinState}
    {l : List WinAnswer} (hrun : (WinState.initial refs kernel).run conv exports ops = .ok (s, l))
    (name : Option (List (BitVec 8))) (self : Option Nat) (load : List (BitVec 16) → Option Nat) :
    ∃ s' h, s.step conv exports (.dlopen name self load) = .ok (s', .handle h) ∧
      (h.isSome ↔ (opens conv (.dlopen name self load)).isSome) ∧
      ∀ k, h = some k → k ∉ openHandles [] (ops.zip l) := by
  have i := winRun_inv hc (winInitial_inv refs kernel) hrun
  rcases winStep_opens hc (exports := exports) s name self load with ⟨h1, h⟩ | ⟨m, f, h1, h⟩
  · exact ⟨_, _, h, by simp [h1], nofun⟩
  · refine ⟨_, _, h, by simp [h1], fun k hk hm => ?_⟩
    cases hk
    exact Nat.lt_irrefl _ (i.lt _ hm)

/-- C76. A handle can be closed exactly as long as it is open, and then its memory is released: the wrappers that
are allocated are those of the open handles. -/
theorem win_close {conv : List (BitVec 8) → Option (List (BitVec 16))} (hc : Converts conv)
    {exports : Nat → Str → Option Nat} {refs : Nat → Nat} {kernel : List Nat} {ops : List WinOp} {s : WinState}
    {l : List WinAnswer} (hrun : (WinState.initial refs kernel).run conv exports ops = .ok (s, l)) :
    (∀ h, h ∈ openHandles [] (ops.zip l) ↔ s.wrapper? h ≠ none) ∧
    (∀ h, (∃ s' a, s.step conv exports (.dlclose (some h)) = .ok (s', a)) ↔ h ∈ openHandles [] (ops.zip l)) ∧
    (openHandles [] (ops.zip l) = [] → s.wrappers = []) := by
  have i := winRun_inv hc (winInitial_inv refs kernel) hrun
  refine ⟨i.mem, fun h => ⟨?_, fun hm => ?_⟩, fun he => ?_⟩
  · rintro ⟨s', a, hs⟩
    obtain ⟨w, hw, _⟩ := winStep_close hs
    exact (i.mem h).2 (by rw [hw]; simp)
  · cases hw : s.wrapper? h with
    | none => exact absurd hw ((i.mem h).1 hm)
    | some w =>
      simp only [WinState.step, hw]
      by_cases hf : w.free = true
      · rw [if_pos hf]
        by_cases hk : w.mod ∈ s.kernel
        · rw [if_pos hk]; exact ⟨_, _, rfl⟩
        · rw [if_neg hk]; exact ⟨_, _, rfl⟩
      · rw [if_neg hf]; exact ⟨_, _, rfl⟩
  · cases hl : s.wrappers with
    | nil => rfl
    | cons x xs =>
      have := (i.mem x.1).2 (by rw [WinState.wrapper?, hl, List.lookup_cons]; simp)
      rw [he] at this
      cases this

/-! ### References to modules -/

theorem winStep_refs {conv : List (BitVec 8) → Option (List (BitVec 16))} (hc : Converts conv)
    {exports : Nat → Str → Option Nat} {s s' : WinState} {op : WinOp} {a : WinAnswer}
    (hs : s.step conv exports op = .ok (s', a)) (m : Nat) :
    s'.refs m + freesOf m [op] = s.refs m + opensOf conv m [op] + loadsOf m [op] := by
  cases op with
  | dlopen name self load =>
    rcases winStep_opens hc (exports := exports) s name self load with ⟨h1, h⟩ | ⟨k, f, h1, h⟩
    · rw [h] at hs; cases hs
      simp [freesOf, loadsOf, opensOf, h1]
    · rw [h] at hs; cases hs
      simp only [freesOf, loadsOf, opensOf, List.filter_cons, List.filter_nil, h1]
      by_cases e : m = k
      · subst e; simp
      · have : (some k == some m) = false := by simpa using Ne.symm e
        simp [e, this]
  | dlsym h sym =>
    have : s' = s := by
      cases h <;> cases sym <;> simp only [WinState.step] at hs
      · cases hs; rfl
      · cases hs; rfl
      · cases hs; rfl
      · split at hs
        · cases hs
        · split at hs <;> cases hs; rfl
    subst this
    rfl
  | dlclose h =>
    cases h with
    | none => cases hs; rfl
    | some h =>
      obtain ⟨w, _, _, _, h4, _⟩ := winStep_close hs
      rw [h4]; rfl
  | loadLibrary k =>
    cases hs
    simp only [freesOf, loadsOf, opensOf, opens, List.filter_cons, List.filter_nil]
    by_cases e : m = k
    · subst e; simp
    · simp [e, Ne.symm e]
  | freeLibrary k =>
    simp only [WinState.step] at hs
    split at hs
    · cases hs
    · rename_i hz
      cases hs
      simp only [freesOf, loadsOf, opensOf, opens, List.filter_cons, List.filter_nil]
      by_cases e : m = k
      · subst e; simp; omega
      · simp [e, Ne.symm e]
  | createHandle k => cases hs; rfl

theorem opensOf_cons (conv : List (BitVec 8) → Option (List (BitVec 16))) (m : Nat) (op : WinOp) (ops : List WinOp) :
    opensOf conv m (op :: ops) = opensOf conv m [op] + opensOf conv m ops := by
  simp only [opensOf, List.filter_cons, List.filter_nil]
  split <;> simp; omega

theorem loadsOf_cons (m : Nat) (op : WinOp) (ops : List WinOp) :
    loadsOf m (op :: ops) = loadsOf m [op] + loadsOf m ops := by
  cases op <;> simp [loadsOf]

theorem freesOf_cons (m : Nat) (op : WinOp) (ops : List WinOp) :
    freesOf m (op :: ops) = freesOf m [op] + freesOf m ops := by
  cases op <;> simp [freesOf]

/-- C76 fails: closing a library does not release it.  After every history the references to a module are those
it had, one for every `dlopen` that opened it, and those of other code. -/
theorem win_references {conv : List (BitVec 8) → Option (List (BitVec 16))} (hc : Converts conv)
    {exports : Nat → Str → Option Nat} (m : Nat) : ∀ {ops : List WinOp} {s s' : WinState} {l : List WinAnswer},
    s.run conv exports ops = .ok (s', l) →
    s'.refs m + freesOf m ops = s.refs m + opensOf conv m ops + loadsOf m ops
  | [], s, s', l, h => by cases h; rfl
  | op :: ops, s, s', l, h => by
    obtain ⟨⟨s1, a⟩, h1, h⟩ := Res.bind_eq_ok.1 h
    obtain ⟨⟨s2, l2⟩, h2, h⟩ := Res.bind_eq_ok.1 h
    cases h
    have e1 := winStep_refs hc h1 m
    have e2 := win_references hc m h2
    rw [opensOf_cons, loadsOf_cons, freesOf_cons]
    omega

/-- C76. As long as a handle is open, `dlsym` finds the symbols of the module that was opened and nothing else,
whatever happens in between, if other code releases the module at most as often as it had loaded it. -/
theorem win_symbols {conv : List (BitVec 8) → Option (List (BitVec 16))} (hc : Converts conv)
    {exports : Nat → Str → Option Nat} {refs : Nat → Nat} {kernel : List Nat} {before after : List WinOp}
    {name : Option (List (BitVec 8))} {self : Option Nat} {load : List (BitVec 16) → Option Nat} {m h : Nat}
    {s1 s2 s3 : WinState} {l1 l3 : List WinAnswer}
    (hm : opens conv (.dlopen name self load) = some m)
    (h1 : (WinState.initial refs kernel).run conv exports before = .ok (s1, l1))
    (h2 : s1.step conv exports (.dlopen name self load) = .ok (s2, .handle (some h)))
    (h3 : s2.run conv exports after = .ok (s3, l3)) (hk : KeepsOpen h after)
    (hfree : freesOf m before + freesOf m after ≤ refs m + loadsOf m before + loadsOf m after) (sym : Str) :
    s3.step conv exports (.dlsym (some h) (some sym)) = .ok (s3, .symbol (exports m sym)) := by
  have key : ∀ {ops : List WinOp} {s s' : WinState} {l : List WinAnswer} {L : List Nat} {w : WinWrapper},
      WinInv s L → KeepsOpen h ops → s.run conv exports ops = .ok (s', l) → s.wrapper? h = some w →
      s'.wrapper? h = some w := by
    intro ops
    induction ops with
    | nil => intro s s' l L w _ _ hr hw; cases hr; exact hw
    | cons op ops ih =>
      intro s s' l L w i hko hr hw
      obtain ⟨⟨sa, a⟩, ha, hr⟩ := Res.bind_eq_ok.1 hr
      obtain ⟨⟨sb, lb⟩, hb, hr⟩ := Res.bind_eq_ok.1 hr
      cases hr
      refine ih (winStep_inv hc i ha) (fun o ho => hko o (List.mem_cons_of_mem _ ho)) hb ?_
      have hlt : h < s.next := i.lt h ((i.mem h).2 (by rw [hw]; simp))
      cases op with
      | dlopen name self load =>
        rcases winStep_opens hc (exports := exports) s name self load with ⟨_, e⟩ | ⟨m, f, _, e⟩
        · rw [e] at ha; cases ha; exact hw
        · rw [e] at ha; cases ha
          simp only [WinState.wrapper?, List.lookup_cons]
          rw [beq_false_of_ne (Nat.ne_of_lt hlt)]
          exact hw
      | dlsym k sym =>
        have : sa = s := by
          cases k <;> cases sym <;> simp only [WinState.step] at ha
          · cases ha; rfl
          · cases ha; rfl
          · cases ha; rfl
          · split at ha
            · cases ha
            · split at ha <;> cases ha; rfl
        rw [this]; exact hw
      | dlclose k =>
        cases k with
        | none => cases ha; exact hw
        | some k =>
          have hne : k ≠ h := fun e => hko _ (List.mem_cons_self ..) _ rfl (by rw [e])
          obtain ⟨_, _, e, _⟩ := winStep_close ha
          rw [WinState.wrapper?, e, lookup_filter_ne, if_neg (Ne.symm hne)]
          exact hw
      | loadLibrary k => cases ha; exact hw
      | freeLibrary k =>
        simp only [WinState.step] at ha
        split at ha <;> cases ha
        exact hw
      | createHandle k => cases ha; exact hw
  have i1 := winRun_inv hc (winInitial_inv refs kernel) h1
  rcases winStep_opens hc (exports := exports) s1 name self load with ⟨e, _⟩ | ⟨m', f, e, hw⟩
  · rw [hm] at e; cases e
  · rw [hm] at e; cases e
    have i2 := winStep_inv hc i1 h2
    have r1 := win_references hc m h1
    have r2 := winStep_refs hc h2 m
    have r3 := win_references hc m h3
    rw [hw] at h2
    cases h2
    have hx := key i2 hk h3 (w := ⟨m, f⟩) (by simp [WinState.wrapper?])
    have o1 : opensOf conv m [.dlopen name self load] = 1 := by simp [opensOf, hm]
    have hpos : s3.refs m ≠ 0 := by
      simp only [WinState.initial] at r1
      have f0 : freesOf m [.dlopen name self load] = 0 := rfl
      have l0 : loadsOf m [.dlopen name self load] = 0 := rfl
      rw [o1, f0, l0] at r2
      omega
    simp only [WinState.step, hx]
    rw [if_neg hpos]

/-- Sample for `win_symbols`. -/
example : ∃ s1 s2 s3 l1 l3, Converts asciiConv ∧
    opens asciiConv (.dlopen (some [0x61]) none fun _ => some 7) = some 7 ∧
    (WinState.initial (fun _ => 0) []).run asciiConv (fun _ _ => some 3) [.loadLibrary 7] = .ok (s1, l1) ∧
    s1.step asciiConv (fun _ _ => some 3) (.dlopen (some [0x61]) none fun _ => some 7) =
      .ok (s2, .handle (some 0)) ∧
    s2.run asciiConv (fun _ _ => some 3) [.dlopen none (some 8) fun _ => none, .freeLibrary 7, .dlclose (some 1)] =
      .ok (s3, l3) ∧
    KeepsOpen 0 [.dlopen none (some 8) fun _ => none, .freeLibrary 7, .dlclose (some 1)] := by
  refine ⟨_, _, _, _, _, asciiConv_converts, rfl, rfl, rfl, rfl, fun op hop k e => ?_⟩
  subst e
  simp only [List.mem_cons, List.not_mem_nil, or_false, reduceCtorEq, false_or, WinOp.dlclose.injEq] at hop
  rw [hop]; simp

/-- C76 fails: `dlclose` of a library closes a kernel handle of other code if one has the number of the module,
and answers 1 then; otherwise it does nothing to Windows and answers 0. -/
theorem win_close_answer {conv : List (BitVec 8) → Option (List (BitVec 16))} {exports : Nat → Str → Option Nat}
    {s s' : WinState} {h : Nat} {a : WinAnswer} (hs : s.step conv exports (.dlclose (some h)) = .ok (s', a)) :
    s'.refs = s.refs ∧ (a = .status 0 ∧ s'.kernel = s.kernel ∨
      a = .status 1 ∧ ∃ m ∈ s.kernel, m ∉ s'.kernel ∧ s.wrapper? h = some ⟨m, true⟩) := by
  obtain ⟨⟨m, f⟩, hw, _, _, h4, h5⟩ := winStep_close hs
  refine ⟨h4, ?_⟩
  rcases h5 with ⟨h6, h7, h8, h9⟩ | ⟨_, h8, h9⟩
  · refine .inr ⟨h9, m, h7, ?_, ?_⟩
    · rw [h8]; simp
    · rw [hw]; congr 2
  · exact .inl ⟨h9, h8⟩

/-- C76 fails, in an example: a library is opened, its symbol is found, it is closed; it is still loaded, and the
event that other code had under the number 7 is closed. -/
theorem win_example : ∃ (ops : List WinOp) (s : WinState) (l : List WinAnswer),
    (WinState.initial (fun _ => 0) [7]).run asciiConv (fun _ _ => some 3) ops = .ok (s, l) ∧
    ops.length = 3 ∧ openHandles [] (ops.zip l) = [] ∧ l = [.handle (some 0), .symbol (some 3), .status 1] ∧
    opensOf asciiConv 7 ops = 1 ∧ s.refs 7 = 1 ∧ s.kernel = [] ∧ s.wrappers = [] :=
  ⟨[.dlopen (some [0x61, 0x2e, 0x64, 0x6c, 0x6c]) none (fun _ => some 7), .dlsym (some 0) (some ['f']),
    .dlclose (some 0)], _, _, rfl, rfl, rfl, rfl, rfl, rfl, rfl, rfl⟩

end Jnivm
