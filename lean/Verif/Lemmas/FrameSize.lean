import Verif.Spec.FrameSize
import Verif.Lemmas.LocalFrame
/-!
Sizes of frames: helper lemmas.
-/
namespace Jnivm
open Spec
open Heap hiding Live

theorem Memory.reserve_negative (m : Memory) {n : BitVec 32} (hn : n.toInt < 0) :
    m.reserve n = some .lengthError := by
  have h : m.toSize n > m.maxSize := by
    have hlt := n.isLt
    have hm : n.msb = true := by rw [BitVec.msb_eq_toInt]; simpa using hn
    have hge : 2 ^ 31 ≤ n.toNat := by rw [BitVec.msb_eq_decide] at hm; simpa using hm
    obtain ⟨w, room⟩ := m
    cases w with
    | true =>
      rw [Memory.toSize, Memory.maxSize, show Memory.bits ⟨true, room⟩ = 64 from rfl]
      rw [BitVec.toNat_signExtend, if_pos hm, BitVec.toNat_setWidth]
      omega
    | false =>
      rw [Memory.toSize, Memory.maxSize, show Memory.bits ⟨false, room⟩ = 32 from rfl]
      rw [BitVec.signExtend_eq]
      omega
  rw [Memory.reserve, if_pos h]

theorem Memory.reserveNew_negative (m : Memory) {n : BitVec 32} (hn : n.toInt < 0) :
    m.reserveNew n = some .lengthError := by
  rw [Memory.reserveNew, if_neg (fun h => by subst h; exact absurd hn (by decide)), m.reserve_negative hn]

theorem detach_run (h : Heap) (t : Nat) : HeapOp.detach.run h t = .ok ((h.detach t).collect, .unit) := by
  simp [HeapOp.run, HeapOp.exec, HeapOp.needsEnv, HeapOp.body, Res.bind]

theorem detach_envs (h : Heap) (t : Nat) : (h.detach t).collect.envs t = none := by
  rw [Heap.collect_envs]; simp [Heap.detach]

/-- A constructor whose size fits. -/
theorem enterSized_fits {m : Memory} {n : BitVec 32} (hn : m.reserveNew n = none) (h : Heap) (t : Nat)
    (vm : Bool) : h.enterSized m t vm n = match h.enterFrame t vm with
      | .ok (h, made) => .ok (h, .ok made)
      | .throws e => .ok (h, .error e)
      | .ub x => .ub x
      | .diverges => .diverges := by
  rw [Heap.enterSized]
  cases h.enterFrame t vm <;> simp only [hn]

mutual

theorem sized_stmt_fits {m : Memory} (t : Nat) (h : Heap) (s : SizedStmt)
    (hs : sizesIn (fun n => (m.reserveNew n).isSome) s = 0) : SizedStmt.run m t h s = (erase s).run t h := by
  cases s with
  | call u op => rfl
  | raise e => rfl
  | attempt body =>
    rw [SizedStmt.run, erase, FrameStmt.run, sized_list_fits t h body hs]
  | frame vm n body =>
    rw [sizesIn] at hs
    have hn : m.reserveNew n = none := by
      cases hc : m.reserveNew n with
      | none => rfl
      | some e => simp [hc] at hs
    have hb : sizesAll (fun n => (m.reserveNew n).isSome) body = 0 := by omega
    rw [SizedStmt.run, erase, FrameStmt.run, enterSized_fits hn]
    cases h.enterFrame t vm with
    | ok y =>
      obtain ⟨h1, made⟩ := y
      simp only [Res.bind_ok, sized_list_fits t h1 body hb]
    | throws e => rfl
    | ub x => rfl
    | diverges => rfl

theorem sized_list_fits {m : Memory} (t : Nat) (h : Heap) (l : List SizedStmt)
    (hs : sizesAll (fun n => (m.reserveNew n).isSome) l = 0) : runSized m t h l = runFrames t h (eraseAll l) := by
  cases l with
  | nil => rfl
  | cons s l =>
    rw [sizesAll] at hs
    rw [runSized, eraseAll, runFrames, sized_stmt_fits t h s (by omega)]
    cases (erase s).run t h with
    | ok y =>
      obtain ⟨h1, x⟩ := y
      cases x with
      | none => simp only [Res.bind_ok, sized_list_fits (m := m) t h1 l (by omega)]
      | some e => rfl
    | throws e => rfl
    | ub x => rfl
    | diverges => rfl

end

/-- At most `n` frames more. -/
def Deeper (n t : Nat) (h h' : Heap) : Prop :=
  ∀ e, h.envs t = some e → ∃ e', h'.envs t = some e' ∧ e'.eid = e.eid ∧ e.frames.length ≤ e'.frames.length ∧
    e'.frames.length ≤ e.frames.length + n

theorem Deeper.refl (n t : Nat) (h : Heap) : Deeper n t h h :=
  fun e he => ⟨e, he, rfl, Nat.le_refl _, Nat.le_add_right _ _⟩

theorem Deeper.trans {a b t : Nat} {h h1 h2 : Heap} (x : Deeper a t h h1) (y : Deeper b t h1 h2) :
    Deeper (a + b) t h h2 := by
  intro e he
  obtain ⟨e1, he1, hid1, hl1, hu1⟩ := x e he
  obtain ⟨e2, he2, hid2, hl2, hu2⟩ := y e1 he1
  exact ⟨e2, he2, hid2.trans hid1, by omega, by omega⟩

theorem Deeper.mono {a b t : Nat} {h h1 : Heap} (x : Deeper a t h h1) (hab : a ≤ b) : Deeper b t h h1 := by
  intro e he
  obtain ⟨e1, he1, hid1, hl1, hu1⟩ := x e he
  exact ⟨e1, he1, hid1, hl1, by omega⟩

theorem thinned_length {a b : List (List Nat)} (h : Thinned a b) : a.length = b.length := by
  induction h with
  | nil => rfl
  | cons _ _ ih => simp [ih]

theorem addFront_length (l : List Nat) (a : List (List Nat)) : (addFront l a).length = a.length := by
  cases a <;> rfl

theorem dropFront_length {a : List (List Nat)} (h : 2 ≤ a.length) : (dropFront a).length = a.length - 1 := by
  match a, h with
  | _ :: _ :: _, _ => rfl

theorem Evolves.deeper {t : Nat} {h h' : Heap} (x : Evolves t h h') : Deeper 0 t h h' := by
  intro e he
  obtain ⟨e', l, m, he', hid, ht, hf⟩ := x e he
  have := thinned_length ht
  exact ⟨e', he', hid, by rw [hf, addFront_length]; omega, by rw [hf, addFront_length]; omega⟩

/-- What a constructor does that throws after it has pushed the frame. -/
theorem enterSized_throws {m : Memory} {h : Heap} (hr : HeapReachable h) {t : Nat} {vm : Bool} {n : BitVec 32}
    {e : Exn} (hn : m.reserveNew n = some e) (hv : h.envs t ≠ none ∨ vm = true) :
    ∃ h', h.enterSized m t vm n = .ok (h', .error e) ∧ HeapReachable h' ∧
      (h.envs t = none → h'.envs t = none) ∧
      ∀ e0, h.envs t = some e0 → ∃ e1, h'.envs t = some e1 ∧ e1.eid = e0.eid ∧ e1.frames = [] :: e0.frames := by
  cases he : h.envs t with
  | some e0 =>
    obtain ⟨h1, e1, hx, hr1, he1, hid, hf⟩ := enter_attached hr he vm
    refine ⟨h1, by simp [Heap.enterSized, hx, hn], hr1, fun h => (nomatch h), fun e2 he2 => ?_⟩
    injection he2 with he2; subst he2
    exact ⟨e1, he1, hid, hf⟩
  | none =>
    rcases hv with hv | rfl
    · exact absurd he hv
    obtain ⟨h1, e1, hx, hr1, he1, hf⟩ := enter_detached hr he
    exact ⟨_, by simp [Heap.enterSized, hx, hn, detach_run, Res.bind_ok], hr1.step (detach_run h1 t),
      fun _ => detach_envs h1 t, fun e2 he2 => (nomatch he2)⟩

mutual

theorem sized_stmt_deeper {m : Memory} {t : Nat} {h h' : Heap} (hr : HeapReachable h) {x : Option Exn}
    (s : SizedStmt) (hs : CallsIn (Structured t) (erase s)) (hx : SizedStmt.run m t h s = .ok (h', x)) :
    HeapReachable h' ∧ Deeper (sizesIn (fun n => (m.reserveNew n).isSome) s) t h h' ∧
      (h.envs t = none → ∀ vm n body, s = .frame vm n body → h'.envs t = none) := by
  cases s with
  | call u op =>
    rw [SizedStmt.run] at hx
    obtain ⟨hr', hev, _⟩ := call_evolves hr hs hx
    exact ⟨hr', hev.deeper, fun _ _ _ _ h => (nomatch h)⟩
  | raise e =>
    rw [SizedStmt.run] at hx
    injection hx with hx; injection hx with hx1 _; subst hx1
    exact ⟨hr, .refl _ t h, fun _ _ _ _ h => (nomatch h)⟩
  | attempt body =>
    rw [SizedStmt.run] at hx
    obtain ⟨⟨h1, y⟩, hx1, hx2⟩ := Res.bind_eq_ok.1 hx
    injection hx2 with hx2; injection hx2 with hx2 _; subst hx2
    obtain ⟨hr1, hd⟩ := sized_list_deeper hr body hs hx1
    exact ⟨hr1, hd, fun _ _ _ _ h => (nomatch h)⟩
  | frame vm n body =>
    rw [SizedStmt.run] at hx
    rw [sizesIn]
    cases hn : m.reserveNew n with
    | some e =>
      by_cases hv : h.envs t ≠ none ∨ vm = true
      · obtain ⟨h1, hx1, hr1, hnone, hsome⟩ := enterSized_throws (m := m) hr hn hv
        rw [hx1, Res.bind_ok] at hx
        injection hx with hx; injection hx with hx _; subst hx
        refine ⟨hr1, fun e0 he0 => ?_, fun he _ _ _ _ => hnone he⟩
        obtain ⟨e1, he1, hid, hf⟩ := hsome e0 he0
        exact ⟨e1, he1, hid, by rw [hf]; simp, by rw [hf]; simp⟩
      · have he : h.envs t = none := Classical.not_not.1 fun h => hv (.inl h)
        have hvm : vm = false := by cases vm with | false => rfl | true => exact absurd (.inr rfl) hv
        subst hvm
        have hent : h.enterFrame t false = .throws .runtimeError := by rw [Heap.enterFrame, he]; rfl
        rw [Heap.enterSized, hent] at hx
        rw [Res.bind_ok] at hx
        injection hx with hx; injection hx with hx _; subst hx
        exact ⟨hr, .refl _ t h, fun he _ _ _ _ => he⟩
    | none =>
      rw [enterSized_fits hn] at hx
      cases hent : h.enterFrame t vm with
      | ok y =>
        obtain ⟨h1, made⟩ := y
        rw [hent] at hx
        simp only [Res.bind_ok] at hx
        obtain ⟨⟨h2, y⟩, hx1, hx2⟩ := Res.bind_eq_ok.1 hx
        obtain ⟨h3, hx3, hx4⟩ := Res.bind_eq_ok.1 hx2
        injection hx4 with hx4; injection hx4 with hx4 _; subst hx4
        obtain ⟨hr1, hc⟩ := enterFrame_cases hr hent
        obtain ⟨hr2, hd⟩ := sized_list_deeper hr1 body hs hx1
        rcases hc with ⟨e, e1, he, rfl, he1, hid1, hf1⟩ | ⟨he, rfl, e1, he1, hf1⟩
        · obtain ⟨e2, he2, hid2, hl2, hu2⟩ := hd e1 he1
          obtain ⟨h4, hx4, hr4, _, hl⟩ := leave_ok hr2 he2 false
          rw [hx3] at hx4; injection hx4 with hx4; subst hx4
          obtain ⟨e3, he3, hid3, hf3⟩ := hl rfl
          have hne := List.length_pos_iff.2 (frames_nonempty hr he)
          rw [hf1] at hl2 hu2
          simp only [List.length_cons] at hl2 hu2
          have hlen := dropFront_length (a := e2.frames) (by omega)
          refine ⟨hr4, fun e' he' => ?_, fun h => by rw [he] at h; exact nomatch h⟩
          rw [he] at he'; injection he' with he'; subst he'
          exact ⟨e3, he3, hid3.trans (hid2.trans hid1), by rw [hf3]; omega, by rw [hf3]; omega⟩
        · obtain ⟨e2, he2, _⟩ := hd e1 he1
          obtain ⟨h4, hx4, hr4, hl, _⟩ := leave_ok hr2 he2 true
          rw [hx3] at hx4; injection hx4 with hx4; subst hx4
          exact ⟨hr4, fun e' he' => by rw [he] at he'; exact (nomatch he'), fun _ _ _ _ _ => hl rfl⟩
      | throws e =>
        rw [hent] at hx
        simp only [Res.bind_ok] at hx
        injection hx with hx; injection hx with hx _; subst hx
        exact ⟨hr, .refl _ t h, fun he _ _ _ _ => he⟩
      | ub u => rw [hent] at hx; exact nomatch hx
      | diverges => rw [hent] at hx; exact nomatch hx

theorem sized_list_deeper {m : Memory} {t : Nat} {h h' : Heap} (hr : HeapReachable h) {x : Option Exn}
    (l : List SizedStmt) (hs : AllCalls (Structured t) (eraseAll l)) (hx : runSized m t h l = .ok (h', x)) :
    HeapReachable h' ∧ Deeper (sizesAll (fun n => (m.reserveNew n).isSome) l) t h h' := by
  cases l with
  | nil =>
    rw [runSized] at hx
    injection hx with hx; injection hx with hx1 _; subst hx1
    exact ⟨hr, .refl _ t h⟩
  | cons s l =>
    rw [runSized] at hx
    obtain ⟨⟨h1, y⟩, hx1, hx2⟩ := Res.bind_eq_ok.1 hx
    obtain ⟨hr1, hd1, _⟩ := sized_stmt_deeper hr s hs.1 hx1
    rw [sizesAll]
    cases y with
    | none =>
      obtain ⟨hr2, hd2⟩ := sized_list_deeper hr1 l hs.2 hx2
      exact ⟨hr2, hd1.trans hd2⟩
    | some e =>
      injection hx2 with hx2; injection hx2 with hx2 _; subst hx2
      exact ⟨hr1, hd1.mono (Nat.le_add_right _ _)⟩

end

end Jnivm
