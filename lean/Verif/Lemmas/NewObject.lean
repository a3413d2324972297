import Verif.Model.NewObject
import Verif.Spec.NewObject
import Verif.Lemmas.Invoke
import Verif.Props.Calls
namespace Jnivm
open Spec

namespace Heap

/-- What making an object of a known class does, in full. -/
theorem newObject_run {h : Heap} (hr : HeapReachable h) {t : Nat} {e : Env} (he : h.envs t = some e) {n : Str}
    {k : Nat} (hk : h.classes.lookup n = some k) :
    ∃ h', (HeapOp.newObject (some n)).run h t = .ok (h', .ref (some h.next)) ∧
      h'.objs h.next = some ⟨.made (some n), some k⟩ ∧ (∀ j, j ≠ h.next → h'.objs j = h.objs j) ∧
      (∃ f fs, e.frames = f :: fs ∧ h'.envs t = some { e with frames := (f ++ [h.next]) :: fs }) ∧
      (∀ u, u ≠ t → h'.envs u = h.envs u) ∧ h'.classes = h.classes ∧ h'.globals = h.globals := by
  have hi := hr.inv
  have hp := hi.toPre
  have s1 : Step t h (h.alloc ⟨.made (some n), none⟩).1 :=
    hp.alloc t (by simp) (fun _ hk => (made_target hk).elim) (by simp)
  have ho : (h.alloc ⟨.made (some n), none⟩).1.objs h.next = some ⟨.made (some n), none⟩ := by
    rw [alloc_objs, if_pos rfl]
  obtain ⟨h1, hx⟩ := toJNI_exists s1.pre (t := t) (i := h.next) (s := some k) (e := e) he ⟨_, ho⟩
    (fun c hc => by cases hc; exact ⟨n, Heap.lookup_mem hk⟩)
  have hnew : h.newObject t (some n) = .ok (h1, some h.next) := by
    show (((h.alloc ⟨.made (some n), none⟩).1).toJNI t ((h.alloc ⟨.made (some n), none⟩).1.classes.lookup n) h.next).bind
      _ = _
    have : (h.alloc ⟨.made (some n), none⟩).1.classes.lookup n = some k := hk
    rw [this, hx, Res.bind_ok]
  obtain ⟨o, ho', _, hold, hself⟩ := toJNI_ok hx
  rw [ho] at ho'
  cases ho'
  have hold' : ∀ j, j ≠ h.next → h1.objs j = h.objs j := fun j hj => by
    rw [hold j hj, alloc_objs, if_neg hj]
  have st := step_newObject hp hnew
  obtain ⟨_, pu⟩ := pushed_newObject hnew
  have hfr := hp.frames t e he
  have henv := pu.env e he
  have hnone : h.objs h.next = none := by
    cases hq : h.objs h.next with
    | none => rfl
    | some o => exact absurd (hp.bound _ _ hq) (Nat.lt_irrefl _)
  have hheld : h1.AllHeld := by
    refine allHeld_grow hp st.pre hi.held ?_ ?_ ?_
    · rintro i (hg | hg | ⟨u, x, hu, hf⟩ | ⟨u, x, hu, hf⟩)
      · exact .inl (by rw [pu.globals]; exact hg)
      · exact .inr (.inl (st.pinned.subset hg))
      · refine .inr (.inr (.inl ⟨u, ?_⟩))
        by_cases hut : u = t
        · subst hut
          rw [he] at hu
          cases hu
          exact ⟨_, henv, mem_addFront hf⟩
        · exact ⟨x, by rw [st.others u hut]; exact hu, hf⟩
      · refine .inr (.inr (.inr ?_))
        by_cases hut : u = t
        · subst hut
          rw [he] at hu
          cases hu
          exact ⟨u, _, henv, hf⟩
        · exact ⟨u, x, by rw [st.others u hut]; exact hu, hf⟩
    · intro i o hio
      refine ⟨o, ?_, rfl⟩
      rw [hold' i (fun h' => by rw [h', hnone] at hio; cases hio)]
      exact hio
    · intro i o hio hn
      by_cases hin : i = h.next
      · subst hin
        refine .inr (.inr (.inl ⟨t, _, henv, ?_⟩))
        cases hf : e.frames with
        | nil => exact absurd hf hfr
        | cons f fs => exact ⟨f ++ [h.next], by simp [addFront], by simp⟩
      · rw [hold' i hin, hn] at hio
        cases hio
  refine ⟨h1, ?_, by rw [hself]; rfl, hold', ?_, st.others, (toJNI_classes hx).1, pu.globals⟩
  · have hb : (HeapOp.newObject (some n)).body h t = .ok (h1, .ref (some h.next)) := by
      show outRef (h.newObject t (some n)) = _
      rw [hnew]; rfl
    rw [HeapOp.run, exec_of_body he, hb, Res.bind_ok]
    show Res.ok (h1.collect, _) = _
    rw [collect_of_allHeld hheld]
  · cases hf : e.frames with
    | nil => exact absurd hf hfr
    | cons f fs => exact ⟨f, fs, rfl, by rw [henv, hf]; rfl⟩

end Heap

theorem made_direct (n : Str) : ∀ t, Kind.made (some n) ≠ .weak t ∧ Kind.made (some n) ≠ .global t := by
  intro t
  unfold Kind.made
  split <;> simp

/-- A constructor that does not throw. -/
theorem constructor_run {vm : Vm} (hr : VmReachable vm) {t : Nat} {e : Env} (he : vm.heap.envs t = some e) {n : Str}
    {k c : Nat} (hk : vm.heap.classes.lookup n = some k) (hc : vm.world.IsClass n c) (addr : Nat → BitVec 64)
    {fails : List (BitVec 64) → Option Exn} {args : List (BitVec 64)} (hf : fails args = none) (self : Self) :
    ∃ vm' i, (constructor addr t n fails).run vm self args = .returns vm' (addr i) ∧ VmReachable vm' ∧
      MadeObject t vm vm' i c := by
  obtain ⟨h', hx, hnew, hold, ⟨f, fs, hfs, henv⟩, hoth, hcls, hglob⟩ := Heap.newObject_run hr.2 he hk
  have hnone : vm.heap.objs vm.heap.next = none := by
    cases hq : vm.heap.objs vm.heap.next with
    | none => rfl
    | some o => exact absurd (hr.2.inv.bound _ _ hq) (Nat.lt_irrefl _)
  obtain ⟨_, o, hok, hkind⟩ := hr.2.inv.classes n k (Heap.lookup_mem hk)
  have hkne : k ≠ vm.heap.next := fun hh => by rw [hh, hnone] at hok; cases hok
  have hok' : h'.objs k = some o := by rw [hold k hkne]; exact hok
  have hden : Denotes h' (some vm.heap.next) (some vm.heap.next) := .direct hnew (made_direct n)
  refine ⟨{ vm with heap := h' }, vm.heap.next, ?_, ⟨hr.1, ?_⟩, ?_⟩
  · simp only [constructor, hf, hx, Outcome.lift]
  · exact hr.2.step hx
  · exact ⟨fun ⟨o, ho⟩ => (by rw [hnone] at ho; cases ho),
      ⟨_, _, k, hden, hnew, rfl, k, o, n, .direct hok' (by rw [hkind]; simp), hok', hkind, hc⟩, hden, rfl, hcls, hglob, hold,
      ⟨e, f, fs, he, hfs, henv⟩, hoth⟩

/-- A constructor uses the interface only. -/
theorem constructor_behaved (addr : Nat → BitVec 64) (t : Nat) (n : Str) (fails : List (BitVec 64) → Option Exn)
    {vm : Vm} (hr : VmReachable vm) (self : Self) (args : List (BitVec 64)) :
    EndsIn VmReachable ((constructor addr t n fails).run vm self args) := by
  simp only [constructor]
  cases fails args with
  | some e => exact hr
  | none =>
    dsimp only
    cases hx : (HeapOp.newObject (some n)).run vm.heap t with
    | ok p =>
      obtain ⟨h', out⟩ := p
      cases out with
      | ref r =>
        cases r with
        | some i => exact ⟨hr.1, hr.2.step hx⟩
        | none => trivial
      | _ => trivial
    | throws e => exact hr
    | ub u => trivial
    | diverges => trivial

end Jnivm
