import Verif.Props.Arrays
import Verif.Lemmas.ArrayHistory
import Verif.Spec.ArrayHistory
/-! C39: primitive arrays over histories. -/
namespace Jnivm
open Spec

variable {s s' : Arrays}

/-- Length, element type and element pointer of an array stay the same as long as it lives, whatever
happens in between: pointers from `Get…ArrayElements` stay those of the array. -/
theorem array_stays (hr : ArraysReached s) {ops : List ArrayOp} (h : s.run ops = .ok s') {a : Nat} {o o' : PArray}
    (ho : s.objs a = some o) (ho' : s'.objs a = some o') :
    o' = o ∧ s'.getLength (some a) = s.getLength (some a) ∧
      ∀ ty, s'.getElements ty (some a) = s.getElements ty (some a) := by
  have : o' = o := by
    rcases run_object h (hr.wf.fresh a (by rw [ho]; exact nofun)) ho with h1 | h1
    · rw [ho'] at h1; cases h1; rfl
    · rw [ho'] at h1; exact nomatch h1
  subst this
  refine ⟨rfl, ?_, fun ty => ?_⟩
  · simp only [Arrays.getLength, Arrays.cast, ho, ho']
  · simp only [Arrays.getElements, Arrays.cast, ho, ho']

/-- The elements of an array change only by requests to change them: setting a region of it, or writing through a
pointer to its elements.  Nothing that happens to other arrays or memory does. -/
theorem array_content_kept (hr : ArraysReached s) {a : Nat} {ty : ElemType} {n : Nat} {c : List MemByte} {p : Ptr}
    (hh : Holds s a ty n c) (hp : s.objs a = some ⟨ty, some p, n, true⟩) {ops : List ArrayOp}
    (hk : ∀ op, op ∈ ops → LeavesArray a p.block op) (h : s.run ops = .ok s') : Holds s' a ty n c := by
  have hc : s.mem.blocks p.block = some c := by
    obtain ⟨⟨q, h1, _, h3⟩, _⟩ := hh
    rw [hp] at h1; cases h1; exact h3
  have hoff : p.off = 0 := by
    obtain ⟨⟨q, h1, h2, _⟩, _⟩ := hh
    rw [hp] at h1; cases h1; exact h2
  have key : ∀ {ops : List ArrayOp} {s : Arrays}, ArraysWF s → s.objs a = some ⟨ty, some p, n, true⟩ →
      s.mem.blocks p.block = some c → (∀ op, op ∈ ops → LeavesArray a p.block op) → s.run ops = .ok s' →
      s'.objs a = some ⟨ty, some p, n, true⟩ ∧ s'.mem.blocks p.block = some c := by
    intro ops
    induction ops with
    | nil => intro s _ hp hc _ h; cases h; exact ⟨hp, hc⟩
    | cons op ops ih =>
      intro s hw hp hc hk h
      have hk1 := hk op (List.mem_cons_self ..)
      have hk2 : ∀ op, op ∈ ops → LeavesArray a p.block op := fun o ho => hk o (List.mem_cons_of_mem _ ho)
      unfold Arrays.run at h
      cases ho : s.step op with
      | throws e => rw [ho] at h; exact ih hw hp hc hk2 h
      | ub u => rw [ho] at h; exact nomatch h
      | diverges => rw [ho] at h; exact nomatch h
      | ok s1 =>
        rw [ho] at h
        have ha : a < s.next := hw.fresh a (by rw [hp]; exact nofun)
        have hb : p.block < s.mem.next := hw.live _ (by rw [hc]; exact nofun)
        refine ih (hw.step ho) ?_ ?_ hk2 h
        · rcases (step_object ho ha).2 with h1 | ⟨rfl, _⟩
          · exact h1.trans hp
          · exact absurd rfl hk1
        · refine Eq.trans ?_ hc
          cases op with
          | newArray ty' k =>
            obtain ⟨⟨s2, x⟩, h1, h2⟩ := Res.bind_eq_ok.1 ho
            cases h2
            exact (newArray_old h1).2.2 _ hb
          | getRegion ty' x st k buf =>
            obtain ⟨_, _, h2⟩ := Res.bind_eq_ok.1 ho
            obtain ⟨m, h3, h4⟩ := Res.bind_eq_ok.1 h2
            cases h4
            exact memcpy_other h3 hk1
          | setRegion ty' x st k buf =>
            obtain ⟨⟨q, j⟩, h1, h2⟩ := Res.bind_eq_ok.1 ho
            obtain ⟨m, h3, h4⟩ := Res.bind_eq_ok.1 h2
            cases h4
            obtain ⟨i, o, q', r, rfl, hi, hd, rfl, hr⟩ := region_block hw h1
            refine memcpy_other h3 fun r' hr' he => hk1 ?_
            cases hr'
            obtain ⟨b1, e1, _⟩ := hw.obj i o hi
            obtain ⟨b2, e2, _⟩ := hw.obj a _ hp
            rw [e1] at hd
            cases hd
            simp only [PArray.mk.injEq, Option.some.injEq] at e2
            have hpb : p = ⟨b1, 0⟩ := by
              rw [e2.2.1] at he ⊢
              have he : b1 = b2 := hr.symm.trans he
              rw [he]
            exact congrArg some (hw.inj i a _ _ hi hp (by rw [e1, hpb]))
          | release x q m => cases ho; rfl
          | destroy x =>
            have ho : s.destroy x = .ok s1 := ho
            unfold Arrays.destroy at ho
            cases hx : s.objs x with
            | none => simp only [hx] at ho; exact nomatch ho
            | some o =>
              obtain ⟨b1, e1, _⟩ := hw.obj x o hx
              obtain ⟨b2, e2, _⟩ := hw.obj a _ hp
              rw [e1] at hx
              simp only [hx] at ho
              cases ho
              refine if_neg fun he => hk1 (hw.inj x a _ _ hx hp ?_)
              simp only [PArray.mk.injEq, Option.some.injEq] at e2
              have he : p.block = b1 := he
              have hpb : p = ⟨b1, 0⟩ := by rw [e2.2.1] at he ⊢; exact congrArg (Ptr.mk · 0) he
              rw [hpb]
          | malloc k => cases ho; exact if_neg (by omega)
          | write q v =>
            obtain ⟨m, h3, h4⟩ := Res.bind_eq_ok.1 ho
            cases h4
            exact store_other h3 hk1
  have := key hr.wf hp hc hk h
  exact ⟨⟨p, this.1, hoff, this.2⟩, hh.size⟩

/-- The short array of `arraySample` while the int array is set, copied out of, and destroyed, memory is allocated and
a third array is made. -/
def arrayLater : List ArrayOp :=
  [.malloc [5, 5, 5, 5], .setRegion .int (some 1) 0 1 (some ⟨5, 0⟩), .getRegion .short (some 0) 0 2 (some ⟨5, 0⟩),
   .newArray .long (-1), .newArray .long 1, .destroy 1, .write (some ⟨5, 1⟩) [6]]

example : ∃ s s', ArraysReached s ∧ Holds s 0 .short 3 [0, 0, 1, 2, 3, 4] ∧
    s.objs 0 = some ⟨.short, some ⟨1, 0⟩, 3, true⟩ ∧ (∀ op, op ∈ arrayLater → LeavesArray 0 1 op) ∧
    s.run arrayLater = .ok s' ∧ s'.objs 0 = some ⟨.short, some ⟨1, 0⟩, 3, true⟩ := by
  have h : ((Arrays.initial 0xcd).run arraySample).bind (fun s => (s.run arrayLater).bind fun s' =>
      .ok (s.mem.blocks 1, s.objs 0, s'.objs 0)) =
      .ok (some [0, 0, 1, 2, 3, 4], some ⟨.short, some ⟨1, 0⟩, 3, true⟩, some ⟨.short, some ⟨1, 0⟩, 3, true⟩) := by
    decide +kernel
  obtain ⟨s, h1, h2⟩ := Res.bind_eq_ok.1 h
  obtain ⟨s', h2, h3⟩ := Res.bind_eq_ok.1 h2
  injection h3 with h3
  injection h3 with h3 h4
  injection h4 with h4 h5
  refine ⟨s, s', ⟨_, _, h1⟩, ⟨⟨_, h4, rfl, h3⟩, rfl⟩, h4, ?_, h2, h5⟩
  intro op hop
  simp only [arrayLater, List.mem_cons, List.not_mem_nil, or_false] at hop
  rcases hop with rfl | rfl | rfl | rfl | rfl | rfl | rfl <;> simp [LeavesArray]

end Jnivm
