import Verif.Spec.Buffers
import Verif.Lemmas.Refs
import Verif.Props.Strings
/-! The invariant of `Store` and the effect of each call on contents and on the arrays handed out. -/
namespace Jnivm
open Spec
open Heap hiding Live

namespace Store

/-- Contents belong to objects that were made; array numbers are not reused. -/
structure Inv (s : Store) : Prop where
  heap : HeapReachable s.heap
  data : ∀ i p, s.data i = some p → i < s.heap.next
  blocks : ∀ k cs, s.blocks k = some cs → k < s.nextBlock

/-- A call that neither hands out an array nor takes one back. -/
structure Same (s s' : Store) : Prop where
  blocks : s'.blocks = s.blocks
  next : s'.nextBlock = s.nextBlock

theorem keep_ok {α β : Type} {s s' : Store} {x : Res α} {f : α → Store × Res β} {y : Res β}
    (h : s.keep x f = (s', y)) : (∃ a, x = .ok a ∧ f a = (s', y)) ∨ (s' = s ∧ ∀ b, y ≠ .ok b) := by
  cases x with
  | ok a => exact .inl ⟨a, rfl, h⟩
  | throws e => cases h; exact .inr ⟨rfl, fun _ h => nomatch h⟩
  | ub u => cases h; exact .inr ⟨rfl, fun _ h => nomatch h⟩
  | diverges => cases h; exact .inr ⟨rfl, fun _ h => nomatch h⟩

theorem newObject_env {h h' : Heap} {t : Nat} {ty : Option Str} {r : Option Nat}
    (hx : h.newObject t ty = .ok (h', r)) : ∃ e, h.envs t = some e := by
  cases he : h.envs t with
  | some e => exact ⟨e, rfl⟩
  | none =>
    exfalso
    simp [Heap.newObject, Heap.toJNI, Heap.pushLocal, Heap.env, Heap.alloc, Heap.setObj, he, Res.bind] at hx

/-- Making a string or a buffer: a new object with a new local reference. -/
theorem make_ok {s s' : Store} {t : Nat} {ty : Str} {p : Payload} {x : Res BufOut}
    (h : s.make t ty p = (s', x)) :
    (x = .ok (.ref (some s.heap.next)) ∧
      (HeapOp.newObject (some ty)).run s.heap t = .ok (s'.heap, .ref (some s.heap.next)) ∧
      s'.data = (fun i => if i = s.heap.next then some p else s.data i) ∧ Same s s') ∨
    (s' = s ∧ ∀ b, x ≠ .ok b) := by
  rcases keep_ok h with ⟨⟨h1, r⟩, hx, he⟩ | he
  · left
    obtain ⟨e, henv⟩ := newObject_env hx
    have hr : r = some s.heap.next := by
      obtain ⟨h2, _, hx2⟩ := Res.bind_eq_ok.1 hx
      cases hx2; rfl
    subst hr
    cases he
    refine ⟨rfl, ?_, ?_, rfl, rfl⟩
    · rw [HeapOp.run, exec_of_body henv]
      simp only [HeapOp.body, outRef, hx, Res.bind_ok]
    · funext i
      simp only [Option.some.injEq, eq_comm]
  · exact .inr he

/-- What a call does to contents and arrays. -/
structure Effect (s s' : Store) : Prop where
  next : s.heap.next ≤ s'.heap.next
  data : ∀ i, i < s.heap.next → s'.data i = s.data i
  old : ∀ i, i < s.heap.next → Live s'.heap i → Live s.heap i

theorem Effect.refl (s : Store) : Effect s s := ⟨Nat.le_refl _, fun _ _ => rfl, fun _ _ h => h⟩

theorem Effect.of_heap {s s' : Store} (h1 : s'.heap = s.heap) (h2 : s'.data = s.data) : Effect s s' := by
  refine ⟨?_, ?_, ?_⟩
  · rw [h1]; exact Nat.le_refl _
  · intro i _; rw [h2]
  · intro i _ hl; rw [h1] at hl; exact hl

theorem heap_effect {s s' : Store} (hi : s.Inv) {t : Nat} {op : HeapOp} {out : Out}
    (hx : op.run s.heap t = .ok (s'.heap, out)) :
    s.heap.next ≤ s'.heap.next ∧ ∀ i, i < s.heap.next → Live s'.heap i → Live s.heap i := by
  have st := runStep hi.heap.inv.toPre hx
  refine ⟨st.next, fun i hlt ⟨o', ho'⟩ => ?_⟩
  obtain ⟨o, ho, _⟩ := st.old i o' hlt ho'
  exact ⟨o, ho⟩

theorem make_inv {s s' : Store} {t : Nat} {ty : Str} {p : Payload} {x : Res BufOut} (hi : s.Inv)
    (h : s.make t ty p = (s', x)) : s'.Inv ∧ Effect s s' ∧ Same s s' := by
  rcases make_ok h with ⟨rfl, hrun, hd, hs⟩ | ⟨rfl, _⟩
  · obtain ⟨h1, h2⟩ := heap_effect hi hrun
    have hlt : s.heap.next < s'.heap.next := by
      obtain ⟨h3, hx, he⟩ := run_ok hrun
      have hobj : (HeapOp.newObject (some ty)).exec s.heap t = .ok (h3, .ref (some s.heap.next)) := hx
      unfold HeapOp.exec at hobj
      split at hobj
      · cases hobj
      · obtain ⟨⟨h4, r⟩, hx4, hx5⟩ := Res.bind_eq_ok.1 hobj
        cases hx5
        obtain ⟨h5, hx6, hx7⟩ := Res.bind_eq_ok.1 hx4
        cases hx7
        have s1 : Step t s.heap (s.heap.alloc ⟨.made (some ty), none⟩).1 :=
          hi.heap.inv.toPre.alloc t (by simp) (fun _ hk => (made_target hk).elim) (by simp)
        have s2 := s1.pre.toJNI s1.pre.typeClass? hx6
        rw [he, collect_next]
        exact s2.next
    refine ⟨⟨hi.heap.step hrun, ?_, ?_⟩, ⟨h1, ?_, h2⟩, hs⟩
    · intro i q hq
      rw [hd] at hq
      by_cases hin : i = s.heap.next
      · rw [hin]; exact hlt
      · simp only [hin, if_false] at hq
        exact Nat.lt_of_lt_of_le (hi.data i q hq) h1
    · intro k cs hk; rw [hs.blocks] at hk; rw [hs.next]; exact hi.blocks k cs hk
    · intro i hlt'
      rw [hd]
      simp only [Nat.ne_of_lt hlt', if_false]
  · exact ⟨hi, Effect.refl _, rfl, rfl⟩

theorem Inv.newBlock {s : Store} (hi : s.Inv) (cs : List JChar) : (s.newBlock cs).Inv := by
  refine ⟨hi.heap, hi.data, fun k cs' hk => ?_⟩
  simp only [Store.newBlock] at hk ⊢
  split at hk
  · omega
  · have := hi.blocks k cs' hk; omega

/-- If the length of a string can be computed then its characters can be read. -/
theorem lengthLoop_ok (n : Nat) : ∀ (rest pre : Bytes) (l m : Nat), rest.length ≤ n →
    getStringLengthLoop (pre ++ rest) pre.length l = .ok m →
    ∃ gs cs, Grouped gs cs ∧ rest = gs.flatten ∧ m = l + cs.length := by
  induction n with
  | zero =>
    intro rest pre l m hn hx
    have hr : rest = [] := List.length_eq_zero_iff.1 (by omega)
    subst hr
    rw [getStringLengthLoop] at hx
    simp only [List.append_nil, if_true] at hx
    cases hx
    exact ⟨[], [], Grouped.nil, rfl, rfl⟩
  | succ n ih =>
    intro rest pre l m hn hx
    match rest with
    | [] =>
      rw [getStringLengthLoop] at hx
      simp only [List.append_nil, if_true] at hx
      cases hx
      exact ⟨[], [], Grouped.nil, rfl, rfl⟩
    | b0 :: rest =>
      rcases utf_inside pre b0 rest with ⟨g, post, c, hgp, hg, hp⟩ | ⟨hno, hlen, _⟩
      · have hu := (utf_of_group (pre := pre) (post := post) hg).1
        rw [List.append_assoc, ← hgp] at hu
        have hlen : (b0 :: rest).length = g.length + post.length := by rw [hgp, List.length_append]
        rw [getStringLengthLoop, if_neg (by simp)] at hx
        split at hx
        · rename_i k hk
          rw [hu, Res.ok.injEq] at hk
          subst hk
          split at hx
          · cases hx
          · rw [hgp, ← List.append_assoc, ← List.length_append] at hx
            obtain ⟨gs, cs, h1, h2, h3⟩ := ih post (pre ++ g) (l + 1) m (by omega) hx
            refine ⟨g :: gs, BitVec.ofNat 16 c :: cs, Grouped.cons ?_ h1, ?_, ?_⟩
            · rw [BitVec.toNat_ofNat, Nat.mod_eq_of_lt (by have := group_lt hg; omega)]
              exact hg
            · rw [hgp, h2, List.flatten_cons]
            · rw [h3, List.length_cons]; omega
        all_goals cases hx
      · rw [getStringLengthLoop, if_neg (by simp)] at hx
        split at hx
        · rename_i k hk; rw [hlen] at hk; cases hk
        all_goals cases hx

theorem region_of_length {b : Bytes} {n : Nat} (h : getStringLength (some b) = .ok n) :
    ∃ cs : List JChar, getStringRegion (some b) 0 n = .ok cs ∧ cs.length = n ∧
      Mutf8.Decodes (b.map BitVec.toNat) (cs.map BitVec.toNat) := by
  obtain ⟨gs, cs, hG, rfl, hn⟩ := lengthLoop_ok b.length b [] 0 n (Nat.le_refl _) (by simpa [getStringLength] using h)
  refine ⟨cs, ?_, by omega, decodes_of_grouped hG⟩
  simp only [getStringRegion]
  rw [show skipChars gs.flatten 0 0 = .ok 0 by rw [skipChars]; simp]
  have := region_grouped hG [] [] []
  have hl := hG.length
  have e : n = gs.length := by omega
  subst e
  simpa using this

/-- Each call, in three groups. -/
inductive Did (s s' : Store) : BufOp → Res BufOut → Prop where
  | same {op x} : Same s s' → (∀ t k, HandsOut k (t, op, x) = false) →
      (∀ t k, GivesBack k (t, op, x) = false) → Did s s' op x
  | out {r cs c} : s'.blocks = (s.newBlock cs).blocks → s'.nextBlock = s.nextBlock + 1 →
      Did s s' (.getChars r) (.ok (.ptr (.block s.nextBlock) c))
  | back {r k cs} : s.blocks k = some cs →
      s'.blocks = (fun j => if j = k then none else s.blocks j) → s'.nextBlock = s.nextBlock →
      Did s s' (.releaseChars r (.block k)) (.ok .unit)

/-- Calls that only read. -/
theorem keep_read {α : Type} {s s' : Store} {x : Res α} {f : α → Store × Res BufOut} {y : Res BufOut}
    (hf : ∀ a, (f a).1 = s) (h : s.keep x f = (s', y)) : s' = s := by
  rcases keep_ok h with ⟨a, _, h1⟩ | ⟨h1, _⟩
  · rw [← hf a, h1]
  · exact h1

theorem keep_fst {α : Type} {s : Store} {x : Res α} {f : α → Store × Res BufOut}
    (hf : ∀ a, (f a).1 = s) : (s.keep x f).1 = s := by
  cases x with
  | ok a => exact hf a
  | throws e => rfl
  | ub u => rfl
  | diverges => rfl

theorem getChars_cases (s : Store) (r : Option Nat) :
    (∃ cs c, s.getChars r = (s.newBlock cs, .ok (.ptr (.block s.nextBlock) c))) ∨
    (∃ x, s.getChars r = (s, x) ∧ ∀ b, x ≠ .ok b) := by
  cases r with
  | none => exact .inl ⟨_, _, rfl⟩
  | some r =>
    rcases hx : s.getChars (some r) with ⟨s', x⟩
    unfold getChars at hx
    rcases keep_ok hx with ⟨⟨i, b⟩, _, h1⟩ | ⟨h1, h2⟩
    · rcases keep_ok h1 with ⟨n, hn, h2⟩ | ⟨h2, h3⟩
      · obtain ⟨cs, hcs, _⟩ := region_of_length hn
        rw [hcs] at h2
        cases h2
        exact .inl ⟨cs, _, rfl⟩
      · subst h2; exact .inr ⟨x, rfl, h3⟩
    · subst h1; exact .inr ⟨x, rfl, h2⟩

theorem exec_did {s s' : Store} (hi : s.Inv) {t : Nat} {op : BufOp} {x : Res BufOut}
    (h : s.exec t op = (s', x)) (hg : GoesOn op x) : s'.Inv ∧ Effect s s' ∧ Did s s' op x := by
  have read : s' = s → (∀ t k, HandsOut k (t, op, x) = false) →
      (∀ t k, GivesBack k (t, op, x) = false) → s'.Inv ∧ Effect s s' ∧ Did s s' op x := by
    rintro rfl h1 h2
    exact ⟨hi, Effect.refl _, .same ⟨rfl, rfl⟩ h1 h2⟩
  cases op with
  | heap op =>
    rcases keep_ok h with ⟨⟨h1, out⟩, hx, he⟩ | ⟨he, hn⟩
    · cases he
      obtain ⟨e1, e2⟩ := heap_effect (s' := { s with heap := h1 }) hi hx
      exact ⟨⟨hi.heap.step hx, fun i p hp => Nat.lt_of_lt_of_le (hi.data i p hp) e1, hi.blocks⟩,
        ⟨e1, fun _ _ => rfl, e2⟩, .same ⟨rfl, rfl⟩ (fun _ _ => rfl) (fun _ _ => rfl)⟩
    · exact read he (fun _ _ => rfl) (fun _ _ => rfl)
  | newString str size =>
    rcases keep_ok h with ⟨b, _, he⟩ | ⟨he, hn⟩
    · obtain ⟨h1, h2, h3⟩ := make_inv hi he
      exact ⟨h1, h2, .same h3 (fun _ _ => rfl) (fun _ _ => rfl)⟩
    · exact read he (fun _ _ => rfl) (fun _ _ => rfl)
  | newStringUTF mem =>
    obtain ⟨h1, h2, h3⟩ := make_inv hi h
    exact ⟨h1, h2, .same h3 (fun _ _ => rfl) (fun _ _ => rfl)⟩
  | length r =>
    exact read (keep_read (fun a => keep_fst fun _ => rfl) h) (fun _ _ => rfl) (fun _ _ => rfl)
  | utfLength r =>
    exact read (keep_read (fun a => keep_fst fun _ => rfl) h) (fun _ _ => rfl) (fun _ _ => rfl)
  | region r a b =>
    exact read (keep_read (fun a => keep_fst fun _ => rfl) h) (fun _ _ => rfl) (fun _ _ => rfl)
  | utfRegion r a b =>
    exact read (keep_read (fun a => keep_fst fun _ => rfl) h) (fun _ _ => rfl) (fun _ _ => rfl)
  | getChars r =>
    rcases getChars_cases s r with ⟨cs, c, he⟩ | ⟨y, he, hn⟩
    · rw [exec, he] at h
      cases h
      exact ⟨hi.newBlock cs, Effect.of_heap rfl rfl, .out rfl rfl⟩
    · rw [exec, he] at h
      cases h
      cases x with
      | ok b => exact absurd rfl (hn b)
      | throws e => exact read rfl (fun _ _ => rfl) (fun _ _ => rfl)
      | ub u => exact read rfl (fun _ _ => rfl) (fun _ _ => rfl)
      | diverges => exact read rfl (fun _ _ => rfl) (fun _ _ => rfl)
  | releaseChars r p =>
    cases p with
    | null => cases h; exact read rfl (fun _ _ => rfl) (fun _ _ => rfl)
    | block k =>
      cases hk : s.blocks k with
      | none => simp only [exec, releaseChars, hk] at h; cases h; exact absurd hg id
      | some cs =>
        simp only [exec, releaseChars, hk] at h
        cases h
        refine ⟨⟨hi.heap, hi.data, fun j cs' hj => ?_⟩, Effect.of_heap rfl rfl, .back hk rfl rfl⟩
        simp only at hj
        split at hj
        · cases hj
        · exact hi.blocks j cs' hj
    | text i => cases h; exact absurd hg id
    | empty => cases h; exact absurd hg id
  | getUTFChars r =>
    cases r with
    | none => cases h; exact read rfl (fun _ _ => rfl) (fun _ _ => rfl)
    | some r => exact read (keep_read (fun a => rfl) h) (fun _ _ => rfl) (fun _ _ => rfl)
  | releaseUTFChars r p => cases h; exact read rfl (fun _ _ => rfl) (fun _ _ => rfl)
  | newBuffer a c =>
    obtain ⟨h1, h2, h3⟩ := make_inv hi h
    exact ⟨h1, h2, .same h3 (fun _ _ => rfl) (fun _ _ => rfl)⟩
  | bufferAddress r => exact read (keep_read (fun a => rfl) h) (fun _ _ => rfl) (fun _ _ => rfl)
  | bufferCapacity r => exact read (keep_read (fun a => rfl) h) (fun _ _ => rfl) (fun _ _ => rfl)

theorem initial_inv : Store.initial.Inv :=
  ⟨HeapReachable.initial, fun _ _ h => (nomatch h), fun _ _ h => (nomatch h)⟩

end Store

theorem _root_.Spec.Runs.inv {s s' : Store} {ev : Events} (h : Runs s ev s') (hi : s.Inv) : s'.Inv := by
  induction h with
  | nil => exact hi
  | cons hx hg _ ih => exact ih (Store.exec_did hi hx hg).1

theorem _root_.Spec.Runs.effect {s s' : Store} {ev : Events} (h : Runs s ev s') (hi : s.Inv) :
    Store.Effect s s' := by
  induction h with
  | nil => exact .refl _
  | cons hx hg _ ih =>
    obtain ⟨i1, e1, _⟩ := Store.exec_did hi hx hg
    have e2 := ih i1
    exact ⟨Nat.le_trans e1.next e2.next,
      fun i hl => (e2.data i (Nat.lt_of_lt_of_le hl e1.next)).trans (e1.data i hl),
      fun i hl hv => e1.old i hl (e2.old i (Nat.lt_of_lt_of_le hl e1.next) hv)⟩

theorem _root_.Spec.Runs.append {s s' s'' : Store} {ev ev' : Events} (h : Runs s ev s')
    (k : Runs s' ev' s'') : Runs s (ev ++ ev') s'' := by
  induction h with
  | nil => exact k
  | cons hx hg _ ih => exact .cons hx hg (ih k)

/-- Array numbers below the next one are in use or were. -/
theorem _root_.Spec.Runs.counts {s s' : Store} {ev : Events} (h : Runs s ev s') (hi : s.Inv) (k : Nat) :
    (s.blocks k).isSome.toNat + ev.countP (HandsOut k) =
      (s'.blocks k).isSome.toNat + ev.countP (GivesBack k) ∧
    ev.countP (HandsOut k) + (decide (k < s.nextBlock)).toNat = (decide (k < s'.nextBlock)).toNat := by
  induction h with
  | nil => simp
  | @cons s s1 s' t op x ev hx hg _ ih =>
    obtain ⟨i1, _, d⟩ := Store.exec_did hi hx hg
    obtain ⟨a, b⟩ := ih i1
    have hlt := hi.blocks k
    rw [List.countP_cons, List.countP_cons]
    cases d with
    | same hs h1 h2 =>
      rw [h1, h2, hs.blocks] at *
      rw [hs.next] at b
      simp only [Bool.false_eq_true, if_false]
      omega
    | @out r cs c hb hn =>
      rw [hb] at a
      rw [hn] at b
      simp only [Store.newBlock] at a
      simp only [HandsOut, GivesBack, beq_iff_eq, Bool.false_eq_true, if_false]
      by_cases hk : k = s.nextBlock
      · subst hk
        have h0 : s.blocks s.nextBlock = none := by
          cases hc : s.blocks s.nextBlock with
          | none => rfl
          | some cs => exact absurd (hlt cs hc) (Nat.lt_irrefl _)
        simp_all
        omega
      · have e1 : ¬ s.nextBlock = k := fun h => hk h.symm
        have e2 : decide (k < s.nextBlock + 1) = decide (k < s.nextBlock) := by
          apply decide_eq_decide.2; omega
        simp only [hk, e1, if_false, e2] at a b ⊢
        exact ⟨a, b⟩
    | @back r j cs hj hb hn =>
      rw [hb] at a
      rw [hn] at b
      simp only [HandsOut, GivesBack, beq_iff_eq, Bool.false_eq_true, if_false]
      by_cases hk : k = j
      · subst hk
        simp_all
        omega
      · have e1 : ¬ j = k := fun h => hk h.symm
        simp only [hk, e1, if_false] at a b ⊢
        exact ⟨a, b⟩

/-- Casting a reference to a string gives what the object contains. -/
theorem _root_.Spec.IsString.string {s : Store} (hi : s.Inv) {r : Option Nat} {i : Nat} {b : Bytes}
    (h : IsString s r i b) : s.string r = .ok (i, b) ∧ ∃ q, r = some q := by
  have hd := (denote_iff hi.heap.inv.toPre).2 h.1
  refine ⟨by simp only [Store.string, hd, Res.bind_ok, h.2], ?_⟩
  cases r with
  | none => cases h.1
  | some q => exact ⟨q, rfl⟩

/-- A reference to a string denotes the same content in every later state. -/
theorem _root_.Spec.Runs.data {s s' : Store} {ev : Events} (h : Runs s ev s') (hi : s.Inv) {i : Nat}
    {p : Payload} (hp : s.data i = some p) : s'.data i = some p := by
  rw [(h.effect hi).data i (hi.data i p hp), hp]

/-! ### Concrete histories -/

/-- A history of calls that all return. -/
def Store.after (s : Store) : List (Nat × BufOp) → Store
  | [] => s
  | (t, op) :: ops => after (s.exec t op).1 ops

/-- What they return. -/
def Store.results (s : Store) : List (Nat × BufOp) → List (Res BufOut)
  | [] => []
  | (t, op) :: ops => (s.exec t op).2 :: results (s.exec t op).1 ops

theorem Store.after_cons (s : Store) (t : Nat) (op : BufOp) (ops : List (Nat × BufOp)) :
    s.after ((t, op) :: ops) = (s.exec t op).1.after ops := rfl

theorem runs_after {s : Store} {ops : List (Nat × BufOp)} {outs : List BufOut}
    (h : s.results ops = outs.map .ok) :
    Runs s (List.zipWith (fun a x => (a.1, a.2, .ok x)) ops outs) (s.after ops) := by
  induction ops generalizing s outs with
  | nil => cases outs with
    | nil => exact .nil
    | cons o outs => cases h
  | cons a ops ih =>
    cases outs with
    | nil => cases h
    | cons o outs =>
      obtain ⟨t, op⟩ := a
      simp only [Store.results, List.map_cons, List.cons.injEq] at h
      exact .cons (s1 := (s.exec t op).1) (Prod.ext rfl h.1) trivial (ih h.2)

/-- A string, a global reference to it, the local one deleted; a direct buffer. -/
def sampleBuffers : List (Nat × BufOp) :=
  [(0, .newString demoChars 3), (0, .heap (.newGlobalRef (some 9))), (0, .heap (.deleteLocalRef (some 9))),
    (0, .newBuffer (some 4096) 64)]

theorem sample_buffers : ∃ ev, Runs .initial ev (Store.initial.after sampleBuffers) ∧
    Denotes (Store.initial.after sampleBuffers).heap (some 10) (some 9) ∧
    Denotes (Store.initial.after sampleBuffers).heap (some 11) (some 11) := by
  have h := runs_after (s := Store.initial) (ops := sampleBuffers)
    (outs := [.ref (some 9), .heap (.ref (some 10)), .heap .unit, .ref (some 11)]) (by decide +kernel)
  have hp := (h.inv Store.initial_inv).heap.inv.toPre
  exact ⟨_, h, (denote_iff hp).1 (by decide +kernel), (denote_iff hp).1 (by decide +kernel)⟩

end Jnivm
