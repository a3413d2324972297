import Verif.Lemmas.Buffers
import Verif.Lemmas.ObjArgs
import Verif.Props.Refs
/-!
Strings and direct buffers keep their content, and the memory handed out for it stays valid (C58).

All statements are about states that histories of calls lead to; the calls are those of strings and buffers
and all calls on references, by any threads.
-/
namespace Jnivm
open Spec
open Heap hiding Live

/-! ### Contents -/

/-- The calls on a string, whatever the reference is that denotes it, read its content (the functions of
C01–C06), and change nothing. -/
theorem string_calls {s : Store} {ev : Events} (h0 : Runs .initial ev s) {r : Option Nat} {i : Nat} {b : Bytes}
    (hs : IsString s r i b) (t : Nat) (start len : Int) :
    s.exec t (.length r) = s.keep (getStringLength (some b)) (fun n => (s, .ok (.num n))) ∧
    s.exec t (.utfLength r) = s.keep (getStringUTFLength (some b)) (fun n => (s, .ok (.num n))) ∧
    s.exec t (.region r start len) =
      s.keep (getStringRegion (some b) start len) (fun cs => (s, .ok (.chars cs))) ∧
    s.exec t (.utfRegion r start len) =
      s.keep (getStringUTFRegion (some b) start len) (fun cs => (s, .ok (.bytes cs))) ∧
    s.exec t (.getUTFChars r) = (s, .ok (.ptr (.text i) (some false))) := by
  obtain ⟨h1, q, rfl⟩ := hs.string (h0.inv Store.initial_inv)
  refine ⟨?_, ?_, ?_, ?_, ?_⟩ <;>
    simp only [Store.exec, Store.string?, Store.getUTFChars, h1, Res.bind_ok, Store.keep]

example : ∃ ev s, Runs .initial ev s ∧ IsString s (some 10) 9 [0x41#8, 0xC0#8, 0x80#8, 0xED#8, 0xA0#8, 0xBD#8] := by
  obtain ⟨ev, h, h1, _⟩ := sample_buffers
  exact ⟨ev, _, h, h1, by decide +kernel⟩

/-- A string made from `cs` has the length and the characters `cs` forever, through every reference and
whatever happens in between; each `GetStringChars` gives a new array with them, not terminated. -/
theorem string_kept {s s1 s2 : Store} {ev0 ev : Events} (h0 : Runs .initial ev0 s) {cs : List JChar}
    (hlen : cs.length ≤ jsizeMax) {t : Nat} {o : Option Nat}
    (hx : s.exec t (.newString cs cs.length) = (s1, .ok (.ref o))) (hrun : Runs s1 ev s2) {r : Option Nat}
    (hd : Denotes s2.heap r o) (u : Nat) :
    (∃ i, o = some i ∧ ¬ Live s.heap i) ∧
    s2.exec u (.length r) = (s2, .ok (.num cs.length)) ∧
    (∀ start len : Nat, start + len ≤ cs.length →
      s2.exec u (.region r start len) = (s2, .ok (.chars ((cs.drop start).take len)))) ∧
    ∃ s3 k, s2.exec u (.getChars r) = (s3, .ok (.ptr (.block k) (some true))) ∧ s2.blocks k = none ∧
      ∀ n, s3.readChar (.block k) n = match cs[n]? with | some c => .ok c | none => .ub .outOfBounds := by
  have hi := h0.inv Store.initial_inv
  obtain ⟨b, hb, hl, hr, -⟩ := string_roundtrip cs hlen
  have hmake : s.make t "java/lang/String".toList (.string b) = (s1, .ok (.ref o)) := by
    rw [Store.exec, hb] at hx; exact hx
  rcases Store.make_ok hmake with ⟨ho, hop, hdata, hsame⟩ | ⟨-, hn⟩
  · cases ho
    have h1 : Runs s [(t, .newString cs cs.length, .ok (.ref (some s.heap.next)))] s1 := .cons hx trivial .nil
    have h01 := h0.append h1
    have h02 := h01.append hrun
    have hi2 := h02.inv Store.initial_inv
    have hs : IsString s2 r s.heap.next b :=
      ⟨hd, hrun.data (h01.inv Store.initial_inv) (by rw [hdata]; simp)⟩
    obtain ⟨e1, _, e3, _⟩ := string_calls h02 hs u 0 0
    refine ⟨⟨_, rfl, fun ⟨x, hx⟩ => absurd (hi.heap.inv.bound _ x hx) (Nat.lt_irrefl _)⟩, ?_, ?_, ?_⟩
    · rw [e1, hl]; rfl
    · intro start len hin
      obtain ⟨cs', hcs', hlen', hdec⟩ := Store.region_of_length hl
      rw [hr] at hcs'
      cases hcs'
      rw [(string_calls h02 hs u start len).2.2.1, getStringRegion_slice b cs hdec start len hin]
      rfl
    · obtain ⟨hq, q, rfl⟩ := hs.string hi2
      refine ⟨s2.newBlock cs, s2.nextBlock, ?_, ?_, ?_⟩
      · simp only [Store.exec, Store.getChars, hq, Store.keep, hl, hr]
      · cases hk : s2.blocks s2.nextBlock with
        | none => rfl
        | some c => exact absurd (hi2.blocks _ c hk) (Nat.lt_irrefl _)
      · intro n
        simp only [Store.readChar, Store.newBlock, if_true]
        cases cs[n]? <;> rfl
  · exact absurd rfl (hn _)

-- the string is read through a global reference after its local reference was deleted
example : ∃ s3 k, (Store.initial.after sampleBuffers).exec 0 (.getChars (some 10)) =
      (s3, .ok (.ptr (.block k) (some true))) ∧ s3.readChar (.block k) 2 = .ok 0xD83D#16 ∧
      s3.readChar (.block k) 3 = .ub .outOfBounds := by
  obtain ⟨_, _, h1, _⟩ := sample_buffers
  have hx : Store.initial.exec 0 (.newString demoChars (demoChars.length : Nat)) =
      ((Store.initial.exec 0 (.newString demoChars 3)).1, .ok (.ref (some 9))) := by
    have e3 : ((demoChars.length : Nat) : Int) = 3 := by decide
    rw [e3]
    exact Prod.ext rfl (by decide +kernel)
  have hrun := runs_after (s := (Store.initial.exec 0 (.newString demoChars 3)).1) (ops := sampleBuffers.tail)
    (outs := [.heap (.ref (some 10)), .heap .unit, .ref (some 11)]) (by decide +kernel)
  have he : Store.initial.after sampleBuffers =
    (Store.initial.exec 0 (.newString demoChars 3)).1.after sampleBuffers.tail :=
      Store.after_cons .initial 0 (.newString demoChars 3) sampleBuffers.tail
  rw [he] at h1 ⊢
  generalize (Store.initial.exec 0 (.newString demoChars 3)).1 = s1 at *
  obtain ⟨_, _, _, s3, k, h2, _, h3⟩ := string_kept .nil (by decide) hx hrun h1 0
  exact ⟨s3, k, h2, h3 2, h3 3⟩

/-- A string made from a C string keeps its bytes up to the first NUL, through every reference. -/
theorem utf_string_kept {s s1 s2 : Store} {ev0 ev : Events} (h0 : Runs .initial ev0 s) {content rest : Bytes}
    (hnul : ∀ c ∈ content, c ≠ 0#8) {t : Nat} {o : Option Nat}
    (hx : s.exec t (.newStringUTF (some (content ++ 0#8 :: rest))) = (s1, .ok (.ref o)))
    (hrun : Runs s1 ev s2) {r : Option Nat} (hd : Denotes s2.heap r o) (u : Nat) :
    ∃ i, o = some i ∧ s2.exec u (.getUTFChars r) = (s2, .ok (.ptr (.text i) (some false))) ∧
      (content.length ≤ jsizeMax → s2.exec u (.utfLength r) = (s2, .ok (.num content.length))) ∧
      ∀ n, s2.readByte (.text i) n =
        match (content ++ [0#8])[n]? with | some c => .ok c | none => .ub .outOfBounds := by
  have hi := h0.inv Store.initial_inv
  have hb : newStringUTF (some (content ++ 0#8 :: rest)) = content := by
    simp only [newStringUTF, cString]
    rw [List.takeWhile_append_of_pos (by simpa using hnul)]
    simp
  have hx' := hx
  rw [Store.exec, hb] at hx'
  rcases Store.make_ok hx' with ⟨ho, hop, hdata, hsame⟩ | ⟨-, hn⟩
  · cases ho
    have h1 := h0.append (.cons hx trivial .nil)
    have h02 := h1.append hrun
    have hi2 := h02.inv Store.initial_inv
    have hs : IsString s2 r s.heap.next content :=
      ⟨hd, hrun.data (h1.inv Store.initial_inv) (by rw [hdata]; simp)⟩
    obtain ⟨_, e2, _, _, e5⟩ := string_calls h02 hs u 0 0
    refine ⟨_, rfl, e5, fun hl => ?_, fun n => ?_⟩
    · rw [e2]
      simp only [getStringUTFLength]
      rw [if_neg (by omega)]
      rfl
    · obtain ⟨ob, hob⟩ : ∃ ob, s2.heap.objs s.heap.next = some ob :=
        denote_live hi2.heap.inv.toPre ((denote_iff hi2.heap.inv.toPre).2 hd)
      simp only [Store.readByte, hob, hs.2]
      cases (content ++ [0#8])[n]? <;> rfl
  · exact absurd rfl (hn _)

example : ∃ s1, (Store.initial.exec 0 (.newStringUTF (some [0x41#8, 0x42#8, 0#8, 0x43#8]))) =
    (s1, .ok (.ref (some 9))) ∧ Denotes s1.heap (some 9) (some 9) ∧ s1.readByte (.text 9) 1 = .ok 0x42#8 := by
  have hx : Store.initial.exec 0 (.newStringUTF (some [0x41#8, 0x42#8, 0#8, 0x43#8])) =
      ((Store.initial.exec 0 (.newStringUTF (some [0x41#8, 0x42#8, 0#8, 0x43#8]))).1, .ok (.ref (some 9))) :=
    Prod.ext rfl (by decide +kernel)
  have hi := (Runs.cons hx trivial .nil).inv Store.initial_inv
  exact ⟨_, hx, (denote_iff hi.heap.inv.toPre).1 (by decide +kernel), by decide +kernel⟩

/-- A direct buffer keeps the address and the capacity it was made with. -/
theorem buffer_kept {s s1 s2 : Store} {ev0 ev : Events} (h0 : Runs .initial ev0 s) {a : Option Nat} {c : Int}
    {t : Nat} {o : Option Nat} (hx : s.exec t (.newBuffer a c) = (s1, .ok (.ref o))) (hrun : Runs s1 ev s2)
    {r : Option Nat} (hd : Denotes s2.heap r o) (u : Nat) :
    s2.exec u (.bufferAddress r) = (s2, .ok (.address a)) ∧
    s2.exec u (.bufferCapacity r) = (s2, .ok (.num c)) := by
  rcases Store.make_ok (show s.make t _ _ = _ from hx) with ⟨ho, hop, hdata, hsame⟩ | ⟨-, hn⟩
  · cases ho
    have h1 := h0.append (.cons hx trivial .nil)
    have hi2 := (h1.append hrun).inv Store.initial_inv
    have hp : s2.data s.heap.next = some (.buffer a c) :=
      hrun.data (h1.inv Store.initial_inv) (by rw [hdata]; simp)
    have hde := (denote_iff hi2.heap.inv.toPre).2 hd
    have hb : s2.buffer r = .ok (a, c) := by simp only [Store.buffer, hde, Res.bind_ok, hp]
    exact ⟨by simp only [Store.exec, hb, Store.keep], by simp only [Store.exec, hb, Store.keep]⟩
  · exact absurd rfl (hn _)

example : (Store.initial.after sampleBuffers).exec 0 (.bufferAddress (some 11)) =
    (Store.initial.after sampleBuffers, .ok (.address (some 4096))) := by
  obtain ⟨_, _, _, h2⟩ := sample_buffers
  have hpre := runs_after (s := Store.initial) (ops := sampleBuffers.take 3)
    (outs := [.ref (some 9), .heap (.ref (some 10)), .heap .unit]) (by decide +kernel)
  have hx : (Store.initial.after (sampleBuffers.take 3)).exec 0 (.newBuffer (some 4096) 64) =
      (Store.initial.after sampleBuffers, .ok (.ref (some 11))) := Prod.ext rfl (by decide +kernel)
  exact (buffer_kept hpre hx .nil h2 0).1

/-- A class that the VM starts with stays registered. -/
theorem class_registered {h : Heap} (hr : HeapReachable h) {n : Str}
    (hn : (Heap.initial.typeClass n).isSome = true) : ∃ c, h.typeClass n = some c := by
  obtain ⟨ops, hx⟩ := hr
  have key : ∀ {ops : List (Nat × HeapOp)} {a b : Heap}, a.Inv → (∃ c, a.typeClass n = some c) →
      runHeap a ops = .ok b → ∃ c, b.typeClass n = some c := by
    intro ops
    induction ops with
    | nil => intro a b _ h hx; cases hx; exact h
    | cons x ops ih =>
      obtain ⟨t, op⟩ := x
      intro a b ha hc hx
      obtain ⟨⟨h1, out⟩, hx1, hx2⟩ := Res.bind_eq_ok.1 hx
      obtain ⟨c, hc⟩ := hc
      refine ih (ha.run hx1) ⟨c, ?_⟩ hx2
      obtain ⟨h2, hx3, rfl⟩ := run_ok hx1
      show h2.collect.classes.lookup n = some c
      rw [collect_classes]
      exact (step_exec ha.toPre hx3).classes n c hc
  exact key Heap.initial_inv (Option.isSome_iff_exists.1 hn) hx

/-- A new string is an object of class `java/lang/String`, a new buffer one of class `java/nio/ByteBuffer`;
the caller has a local reference to it. -/
theorem made_class {s s1 : Store} {ev : Events} (h0 : Runs .initial ev s) {t : Nat} {o : Option Nat}
    {op : BufOp} {n : Str}
    (hop : (∃ cs len, op = .newString cs len) ∧ n = "java/lang/String".toList ∨
      (∃ mem, op = .newStringUTF mem) ∧ n = "java/lang/String".toList ∨
      (∃ a c, op = .newBuffer a c) ∧ n = "java/nio/ByteBuffer".toList)
    (hx : s.exec t op = (s1, .ok (.ref o))) :
    ∃ i c x, o = some i ∧ ¬ Live s.heap i ∧ HasLocal s1.heap t i ∧ s1.heap.objs i = some ⟨.plain, some c⟩ ∧
      s1.heap.objs c = some x ∧ x.kind = .cls n := by
  have hi := h0.inv Store.initial_inv
  obtain ⟨p, hm⟩ : ∃ p, s.make t n p = (s1, .ok (.ref o)) := by
    rcases hop with ⟨⟨cs, len, rfl⟩, rfl⟩ | ⟨⟨mem, rfl⟩, rfl⟩ | ⟨⟨a, c, rfl⟩, rfl⟩
    · rw [Store.exec] at hx
      rcases Store.keep_ok hx with ⟨b, _, hm⟩ | ⟨_, hne⟩
      · exact ⟨_, hm⟩
      · exact absurd rfl (hne _)
    · exact ⟨_, hx⟩
    · exact ⟨_, hx⟩
  have hn : (Heap.initial.typeClass n).isSome = true := by
    rcases hop with ⟨_, rfl⟩ | ⟨_, rfl⟩ | ⟨_, rfl⟩ <;> decide +kernel
  obtain ⟨c, hc⟩ := class_registered hi.heap hn
  rcases Store.make_ok hm with ⟨ho, hrun, _, _⟩ | ⟨_, hne⟩
  · cases ho
    have hp := hi.heap.inv.toPre
    obtain ⟨h2, hx1, he⟩ := run_ok hrun
    obtain ⟨r, hb, _⟩ := outRef_ok (exec_ok hx1).1
    obtain ⟨_, hpu⟩ := pushed_newObject hb
    obtain ⟨h3, hx3, hx4⟩ := Res.bind_eq_ok.1 hb
    cases hx4
    have hmade : Kind.made (some n) = .plain := by
      rcases hop with ⟨_, rfl⟩ | ⟨_, rfl⟩ | ⟨_, rfl⟩ <;> decide +kernel
    rw [hmade] at hx3
    have hcls : (s.heap.alloc ⟨.plain, none⟩).1.typeClass n = some c := hc
    obtain ⟨y, hy, _, _, hnew⟩ := Heap.toJNI_ok hx3
    have hy' : (s.heap.alloc ⟨.plain, none⟩).1.objs s.heap.next = some ⟨.plain, none⟩ := by simp [Heap.alloc]
    have hyy : y = ⟨.plain, none⟩ := by
      have := hy.symm.trans hy'
      cases this; rfl
    subst hyy
    have hi1 := hi.heap.inv.run hrun
    have hl : HasLocal s1.heap t s.heap.next := by
      obtain ⟨e, henv⟩ := (exec_ok hx1).2 rfl
      rw [he]
      refine ⟨_, by rw [collect_envs]; exact hpu.env e henv, ?_⟩
      have := hp.frames t e henv
      cases hf : e.frames with
      | nil => exact absurd hf this
      | cons f fs => exact ⟨f ++ [s.heap.next], List.mem_cons_self, by simp⟩
    obtain ⟨z, hz⟩ := hasLocal_live hi1 hl
    have hz' := hz
    rw [he] at hz'
    have hz2 := collect_sub hz'
    have : z = ⟨.plain, some c⟩ := by
      have h5 : h2.objs s.heap.next = some ⟨.plain, some c⟩ := hnew.trans (by
        show some (Obj.mk .plain ((s.heap.alloc ⟨.plain, none⟩).1.typeClass n)) = _
        rw [hcls])
      rw [h5] at hz2; cases hz2; rfl
    subst this
    have hnc : (n, c) ∈ s1.heap.classes := by
      have h6 : h2.classes.lookup n = some c := (step_exec hp hx1).classes n c hc
      rw [he, collect_classes]
      exact lookup_mem h6
    obtain ⟨_, x, hx', hk'⟩ := hi1.toPre.classes n c hnc
    exact ⟨_, c, x, rfl, fun ⟨q, hq⟩ => absurd (hp.bound _ q hq) (Nat.lt_irrefl _), hl, hz, hx', hk'⟩
  · exact absurd rfl (hne _)

/-- A new buffer in a new VM: its class is the registered class `java/nio/ByteBuffer`. -/
example : (match Store.initial.exec 0 (.newBuffer (some 4096) 16) with
    | (s1, .ok (.ref (some i))) => (s1.heap.objs i).bind (·.cls) == s1.heap.typeClass "java/nio/ByteBuffer".toList
    | _ => false) = true := by decide +kernel

/-- References that denote no string: null is the empty string for the functions that ask, and a null
pointer is used by the others and for cleared weak references; objects of other types are refused. -/
theorem string_checked {s : Store} {ev : Events} (h0 : Runs .initial ev s) {r x : Option Nat}
    (hd : Denotes s.heap r x) (hx : ∀ i b, x = some i → s.data i ≠ some (.string b)) (t : Nat) :
    let bad : Res BufOut := if x = none then .ub .nullDeref else .throws .badCast
    (∀ start len, s.exec t (.region r start len) = (s, bad) ∧ s.exec t (.utfRegion r start len) = (s, bad)) ∧
    (r ≠ none → s.exec t (.length r) = (s, bad) ∧ s.exec t (.utfLength r) = (s, bad) ∧
      s.exec t (.getChars r) = (s, bad) ∧ s.exec t (.getUTFChars r) = (s, bad)) ∧
    (r = none → s.exec t (.length r) = (s, .ok (.num 0)) ∧ s.exec t (.utfLength r) = (s, .ok (.num 0)) ∧
      s.exec t (.getChars r) = (s.newBlock [0#16], .ok (.ptr (.block s.nextBlock) none)) ∧
      s.exec t (.getUTFChars r) = (s, .ok (.ptr .empty (some false)))) := by
  have hde := (denote_iff (h0.inv Store.initial_inv).heap.inv.toPre).2 hd
  intro bad
  have hs : s.string r = if x = none then .ub .nullDeref else .throws .badCast := by
    cases x with
    | none => simp only [Store.string, hde, Res.bind_ok, if_true]
    | some i =>
      simp only [Store.string, hde, Res.bind_ok, reduceCtorEq, if_false]
      split
      · rename_i b hb; exact absurd hb (hx i b rfl)
      · rfl
  have hk : ∀ {α : Type} (f : Nat × Bytes → Store × Res α), s.keep (s.string r) f =
      (s, if x = none then .ub .nullDeref else .throws .badCast) := by
    intro α f; rw [hs]; split <;> rfl
  refine ⟨fun start len => ⟨hk _, hk _⟩, fun hr => ?_, fun hr => ?_⟩
  · cases r with
    | none => exact absurd rfl hr
    | some q =>
      have hs? : s.string? (some q) = if x = none then .ub .nullDeref else .throws .badCast := by
        simp only [Store.string?, hs]; split <;> rfl
      refine ⟨?_, ?_, hk _, hk _⟩
      · simp only [Store.exec, hs?]; show Store.keep _ _ _ = (s, bad); simp only [bad]; split <;> rfl
      · simp only [Store.exec, hs?]; show Store.keep _ _ _ = (s, bad); simp only [bad]; split <;> rfl
  · subst hr
    exact ⟨rfl, rfl, rfl, rfl⟩

-- the length of a buffer is asked for
example : ((Store.initial.after sampleBuffers).exec 0 (.length (some 11))).2 = .throws .badCast := by
  obtain ⟨_, h, _, h2⟩ := sample_buffers
  have := (string_checked h h2 (by
    intro i b hi; cases hi
    have : (Store.initial.after sampleBuffers).data 11 = some (.buffer (some 4096) 64) := by decide +kernel
    rw [this]; exact fun h => nomatch h) 0).2.1 (by simp)
  rw [this.1]; rfl

/-- References that denote no direct buffer: null and cleared weak references are dereferenced, objects of
other types are refused. -/
theorem buffer_checked {s : Store} {ev : Events} (h0 : Runs .initial ev s) {r x : Option Nat}
    (hd : Denotes s.heap r x) (hx : ∀ i a c, x = some i → s.data i ≠ some (.buffer a c)) (t : Nat) :
    let bad : Res BufOut := if x = none then .ub .nullDeref else .throws .badCast
    s.exec t (.bufferAddress r) = (s, bad) ∧ s.exec t (.bufferCapacity r) = (s, bad) := by
  have hde := (denote_iff (h0.inv Store.initial_inv).heap.inv.toPre).2 hd
  intro bad
  have hs : s.buffer r = if x = none then .ub .nullDeref else .throws .badCast := by
    cases x with
    | none => simp only [Store.buffer, hde, Res.bind_ok, if_true]
    | some i =>
      simp only [Store.buffer, hde, Res.bind_ok, reduceCtorEq, if_false]
      split
      · rename_i a c hb; exact absurd hb (hx i a c rfl)
      · rfl
  refine ⟨?_, ?_⟩ <;> simp only [Store.exec, hs, bad] <;> split <;> rfl

-- null is dereferenced, a string is refused
example : ((Store.initial.after sampleBuffers).exec 0 (.bufferCapacity none)).2 = .ub .nullDeref ∧
    ((Store.initial.after sampleBuffers).exec 0 (.bufferCapacity (some 10))).2 = .throws .badCast := by
  obtain ⟨_, h, h1, _⟩ := sample_buffers
  constructor
  · rw [(buffer_checked h .null (fun _ _ _ h => nomatch h) 0).2]; rfl
  · rw [(buffer_checked h h1 (by
      intro i a c hi; cases hi
      have : (Store.initial.after sampleBuffers).data 9 =
          some (.string [0x41#8, 0xC0#8, 0x80#8, 0xED#8, 0xA0#8, 0xBD#8]) := by decide +kernel
      rw [this]; exact fun h => nomatch h) 0).2]
    rfl

/-! ### Arrays of characters -/

/-- An array from `GetStringChars` stays as it is until it is given back, whatever happens to the string and
its references. -/
theorem chars_stay {s s' : Store} {ev0 ev : Events} (h0 : Runs .initial ev0 s) (hrun : Runs s ev s') {k : Nat}
    {cs : List JChar} (hk : s.blocks k = some cs) (hb : ∀ e ∈ ev, GivesBack k e = false) :
    s'.blocks k = some cs := by
  have hi := h0.inv Store.initial_inv
  clear h0
  induction hrun with
  | nil => exact hk
  | @cons s s1 s' t op x ev hx hg _ ih =>
    obtain ⟨i1, _, d⟩ := Store.exec_did hi hx hg
    refine ih ?_ (fun e he => hb e (List.mem_cons_of_mem _ he)) i1
    cases d with
    | same hs _ _ => rw [hs.blocks]; exact hk
    | out h1 _ =>
      rw [h1]
      simp only [Store.newBlock]
      rw [if_neg (Nat.ne_of_lt (hi.blocks k cs hk))]
      exact hk
    | @back r j _ hj h1 _ =>
      have hne := hb _ (List.mem_cons_self ..)
      simp only [GivesBack, beq_eq_false_iff_ne] at hne
      rw [h1]
      simp only
      rw [if_neg (fun h => hne h.symm)]
      exact hk

/-- Two arrays for a null string, the first given back. -/
def sampleChars : List (Nat × BufOp) :=
  [(0, .getChars none), (0, .getChars none), (0, .releaseChars none (.block 0))]

def sampleCharEvents : Events :=
  [(0, .getChars none, .ok (.ptr (.block 0) none)), (0, .getChars none, .ok (.ptr (.block 1) none)),
    (0, .releaseChars none (.block 0), .ok .unit)]

theorem sample_chars : Runs .initial sampleCharEvents (Store.initial.after sampleChars) :=
  runs_after (ops := sampleChars)
    (outs := [.ptr (.block 0) none, .ptr (.block 1) none, .unit]) (by decide +kernel)

example : (Store.initial.after sampleChars).blocks 1 = some [0#16] := by
  have h1 := runs_after (s := Store.initial) (ops := sampleChars.take 2)
    (outs := [.ptr (.block 0) none, .ptr (.block 1) none]) (by decide +kernel)
  have h2 := runs_after (s := Store.initial.after (sampleChars.take 2)) (ops := sampleChars.drop 2)
    (outs := [.unit]) (by decide +kernel)
  exact chars_stay h1 h2 rfl (by decide)

/-- Every array is handed out at most once and given back at most as often; it exists exactly between the
two.  So nothing is left if all arrays are given back. -/
theorem chars_balance {s : Store} {ev : Events} (h0 : Runs .initial ev s) (k : Nat) :
    ev.countP (HandsOut k) ≤ 1 ∧ ev.countP (GivesBack k) ≤ ev.countP (HandsOut k) ∧
    ((s.blocks k).isSome ↔ ev.countP (HandsOut k) = 1 ∧ ev.countP (GivesBack k) = 0) := by
  obtain ⟨h1, h2⟩ := h0.counts Store.initial_inv k
  simp only [Store.initial, Option.isSome_none, Bool.toNat_false, Nat.zero_add, Nat.not_lt_zero,
    decide_false, Nat.add_zero] at h1 h2
  have h3 : (decide (k < s.nextBlock)).toNat ≤ 1 := Bool.toNat_le _
  refine ⟨by omega, by omega, ?_⟩
  cases hs : (s.blocks k).isSome
  · simp only [hs, Bool.toNat_false] at h1
    simp only [Bool.false_eq_true, false_iff]
    omega
  · simp only [hs, Bool.toNat_true] at h1
    simp only [true_iff]
    omega

example : sampleCharEvents.countP (HandsOut 0) = 1 ∧ sampleCharEvents.countP (GivesBack 0) = 1 ∧
    (Store.initial.after sampleChars).blocks 0 = none ∧
    ((Store.initial.after sampleChars).blocks 1).isSome = true :=
  ⟨by decide, by decide, rfl, (chars_balance sample_chars 1).2.2.2 (by decide)⟩

/-- Giving back is defined exactly for null and for arrays that were handed out and not given back yet. -/
theorem release_checked {s : Store} {ev : Events} (h0 : Runs .initial ev s) (t : Nat) (r : Option Nat)
    (p : CharPtr) :
    (s.exec t (.releaseChars r p)).2 = .ok .unit ↔ p = .null ∨ ∃ k, p = .block k ∧
      ev.countP (HandsOut k) = 1 ∧ ev.countP (GivesBack k) = 0 := by
  cases p with
  | null => simp [Store.exec, Store.releaseChars]
  | block k =>
    have hb := (chars_balance h0 k).2.2
    cases hk : s.blocks k with
    | none =>
      simp only [hk, Option.isSome_none, Bool.false_eq_true, false_iff] at hb
      simp only [Store.exec, Store.releaseChars, hk, reduceCtorEq, CharPtr.block.injEq, false_or, false_iff]
      rintro ⟨j, rfl, h1⟩
      exact hb h1
    | some cs =>
      simp only [hk, Option.isSome_some, true_iff] at hb
      simp only [Store.exec, Store.releaseChars, hk, reduceCtorEq, CharPtr.block.injEq, false_or, true_iff]
      exact ⟨k, rfl, hb⟩
  | text i => simp [Store.exec, Store.releaseChars]
  | empty => simp [Store.exec, Store.releaseChars]

-- a second release is undefined, and so is releasing a pointer from `GetStringUTFChars`
example : ((Store.initial.after sampleChars).exec 0 (.releaseChars none (.block 0))).2 = .ub .dangling ∧
    ((Store.initial.after sampleChars).exec 0 (.releaseChars none (.text 9))).2 = .ub .notOwner ∧
    ((Store.initial.after sampleChars).exec 0 (.releaseChars none (.block 1))).2 = .ok .unit :=
  ⟨by decide +kernel, by decide +kernel,
    (release_checked sample_chars 0 none (.block 1)).2 (.inr ⟨1, rfl, by decide⟩)⟩

/-- When `GetStringChars` throws, nothing was allocated: the length has been computed first, and computing
it has checked all bytes. -/
theorem chars_throw_clean (s : Store) (r : Option Nat) (t : Nat) {e : Exn}
    (hx : (s.exec t (.getChars r)).2 = .throws e) : (s.exec t (.getChars r)).1 = s := by
  rcases Store.getChars_cases s r with ⟨cs, c, he⟩ | ⟨x, he, _⟩
  · rw [Store.exec, he] at hx; cases hx
  · rw [Store.exec, he]

-- a string that is no modified UTF-8
example : ((Store.initial.after [(0, .newStringUTF (some [0xFF#8, 0#8]))]).exec 0 (.getChars (some 9))).2 =
    .throws .utfDataFormat := by
  have hs : (Store.initial.after [(0, .newStringUTF (some [0xFF#8, 0#8]))]).string (some 9) =
      .ok (9, [0xFF#8]) := by decide +kernel
  have hl : getStringLength (some [0xFF#8]) = .throws .utfDataFormat := by
    rcases string_decode_total [0xFF#8] (by decide) with ⟨cs, h, -⟩ | ⟨-, h, -⟩
    · exfalso
      generalize hm : List.map BitVec.toNat [0xFF#8] = m at h
      generalize hn : List.map BitVec.toNat cs = n at h
      cases h with
      | nil => cases hm
      | cons hg hr => cases hg <;> simp at hm <;> omega
    · exact h
  simp only [Store.exec, Store.getChars, hs, Store.keep, hl]

/-! ### Pointers into strings -/

/-- The pointer from `GetStringUTFChars` can be read, with the same bytes, exactly as long as the string is
alive; releasing it is not needed and does nothing. -/
theorem utf_pointer {s s' : Store} {ev0 ev : Events} (h0 : Runs .initial ev0 s) {r : Option Nat} {i : Nat}
    {b : Bytes} (hs : IsString s r i b) (hrun : Runs s ev s') (n : Nat) :
    (Live s'.heap i → s'.readByte (.text i) n =
      match (b ++ [0#8])[n]? with | some c => .ok c | none => .ub .outOfBounds) ∧
    (¬ Live s'.heap i → s'.readByte (.text i) n = .ub .dangling) := by
  have hd := hrun.data (h0.inv Store.initial_inv) hs.2
  constructor
  · rintro ⟨o, ho⟩
    simp only [Store.readByte, ho, hd]
    cases (b ++ [0#8])[n]? <;> rfl
  · intro hl
    have ho : s'.heap.objs i = none := by
      cases ho : s'.heap.objs i with
      | none => rfl
      | some o => exact absurd ⟨o, ho⟩ hl
    simp only [Store.readByte, ho]

example : ∃ ev s, Runs .initial ev s ∧ IsString s (some 10) 9 [0x41#8, 0xC0#8, 0x80#8, 0xED#8, 0xA0#8, 0xBD#8] ∧
    s.readByte (.text 9) 1 = .ok 0xC0#8 := by
  obtain ⟨ev, h, h1, _⟩ := sample_buffers
  exact ⟨ev, _, h, ⟨h1, by decide +kernel⟩, by decide +kernel⟩

/-- The other reads: chars are not bytes and bytes are no chars, null cannot be read, and what `GetStringUTFChars` gives
for null is the empty string with its NUL. -/
theorem pointer_misuse (s : Store) (n : Nat) :
    s.readByte .null n = .ub .nullDeref ∧ s.readChar .null n = .ub .nullDeref ∧
    (∀ k, s.readByte (.block k) n = .ub .typePun) ∧ (∀ i, s.readChar (.text i) n = .ub .typePun) ∧
    s.readChar .empty n = .ub .typePun ∧ (s.readByte .empty n = if n = 0 then .ok 0 else .ub .outOfBounds) := by
  refine ⟨rfl, rfl, fun _ => rfl, fun _ => rfl, rfl, ?_⟩
  cases n <;> rfl

/-- In particular as long as some reference, of any thread, leads to the string. -/
theorem utf_pointer_referenced {s s' : Store} {ev0 ev : Events} (h0 : Runs .initial ev0 s) {r : Option Nat}
    {i : Nat} {b : Bytes} (hs : IsString s r i b) (hrun : Runs s ev s') (hr : Reachable s'.heap i) {n : Nat}
    {c : Byte} (hc : (b ++ [0#8])[n]? = some c) : s'.readByte (.text i) n = .ok c := by
  have hl : Live s'.heap i := reachable_live ((h0.append hrun).inv Store.initial_inv).heap hr
  rw [(utf_pointer h0 hs hrun n).1 hl, hc]


/-- But the pointer does not keep the string alive, and it is not a copy: when the last reference is deleted
before the release it dangles. -/
theorem utf_pointer_dangles : ∃ s ev i b, Runs .initial ev s ∧ IsString s (some i) i b ∧
    s.exec 0 (.getUTFChars (some i)) = (s, .ok (.ptr (.text i) (some false))) ∧
    (s.exec 0 (.heap (.deleteLocalRef (some i)))).2 = .ok (.heap .unit) ∧
    (s.exec 0 (.heap (.deleteLocalRef (some i)))).1.readByte (.text i) 0 = .ub .dangling := by
  have h := runs_after (s := Store.initial) (ops := [(0, .newStringUTF (some [0x41#8, 0#8]))])
    (outs := [.ref (some 9)]) (by decide +kernel)
  have hp := (h.inv Store.initial_inv).heap.inv.toPre
  have hs : IsString (Store.initial.after [(0, .newStringUTF (some [0x41#8, 0#8]))]) (some 9) 9 [0x41#8] :=
    ⟨(denote_iff hp).1 (by decide +kernel), by decide +kernel⟩
  exact ⟨_, _, 9, _, h, hs, (string_calls h hs 0 0 0).2.2.2.2, by decide +kernel, by decide +kernel⟩

-- in the history above a global reference leads to the string
example : (Store.initial.after sampleBuffers).readByte (.text 9) 6 = .ok 0#8 := by
  obtain ⟨ev, h, h1, _⟩ := sample_buffers
  refine utf_pointer_referenced h (r := some 10) (b := [0x41#8, 0xC0#8, 0x80#8, 0xED#8, 0xA0#8, 0xBD#8])
    ⟨h1, by decide +kernel⟩ .nil ?_ (by decide)
  have ho : (Store.initial.after sampleBuffers).heap.objs 10 = some ⟨.global 9, some 8⟩ := by decide +kernel
  exact .owned (.root (.inl (by decide +kernel))) ⟨_, ho, .inl rfl⟩

end Jnivm
