import Verif.Spec.Except
import Verif.Lemmas.Calls
import Verif.Props.Threads
/-!
Helper lemmas about the exception inside the pending `Throwable`.
-/
namespace Jnivm
open Spec
open Heap hiding Live

theorem cText_eq {s : Str} (h : IsCString s) : cText s = s := by
  induction s with
  | nil => rfl
  | cons c s ih =>
    have h1 : c ≠ Char.ofNat 0 := by rintro rfl; exact h (List.mem_cons_self ..)
    have h2 : IsCString s := fun hm => h (List.mem_cons_of_mem _ hm)
    have := ih h2
    unfold cText at this ⊢
    rw [List.takeWhile_cons, if_pos (by simpa using h1), this]

theorem cText_isCString (s : Str) : IsCString (cText s) := by
  induction s with
  | nil => exact nofun
  | cons c s ih =>
    unfold IsCString cText at ih ⊢
    rw [List.takeWhile_cons]
    by_cases h : c = Char.ofNat 0
    · rw [if_neg (by simp [h])]; exact nofun
    · rw [if_pos (by simpa using h)]
      intro hm
      cases hm with
      | head => exact h rfl
      | tail _ hm => exact ih hm

theorem pends_fun {h : Heap} {t : Nat} {e e' : Option Exn} (h1 : Pends h t e) (h2 : Pends h t e') : e = e' := by
  obtain ⟨env, x, o, he, hp, ho, hk⟩ := h1
  obtain ⟨env', x', o', he', hp', ho', hk'⟩ := h2
  rw [he] at he'; cases he'
  rw [hp] at hp'; cases hp'
  rw [ho] at ho'; cases ho'
  rw [hk] at hk'; cases hk'
  rfl

/-- An attached thread has no pending exception, or one with something or nothing inside. -/
theorem pends_cases {h : Heap} (hr : HeapReachable h) {t : Nat} {env : Env} (he : h.envs t = some env) :
    env.pending = none ∨ ∃ e, Pends h t e := by
  cases hp : env.pending with
  | none => exact .inl rfl
  | some x =>
    obtain ⟨o, p, ho, hk⟩ := hr.pending t env x he hp
    exact .inr ⟨p, env, x, o, he, hp, ho, hk⟩

theorem pends_kept {h h' : Heap} (hr : HeapReachable h) {t : Nat} {e : Option Exn} (hp : Pends h t e)
    {ops : List (Nat × HeapOp)} (hq : ∀ op, (t, op) ∈ ops → ¬ TouchesPending op)
    (hx : runHeap h ops = .ok h') : Pends h' t e := by
  induction ops generalizing h with
  | nil => cases hx; exact hp
  | cons a ops ih =>
    obtain ⟨u, op⟩ := a
    obtain ⟨⟨h1, out⟩, hx1, hx2⟩ := Res.bind_eq_ok.1 hx
    refine ih (hr.step hx1) ?_ (fun op hm => hq op (List.mem_cons_of_mem _ hm)) hx2
    obtain ⟨env, x, o, he, hpe, ho, hk⟩ := hp
    have hone : runHeap h [(u, op)] = .ok h1 := by
      show (op.run h u).bind _ = _
      rw [hx1]; rfl
    obtain ⟨env1, he1, hpe1, _⟩ := pending_unchanged hr he (ops := [(u, op)])
      (fun op' hm => hq op' (by cases hm with | head => exact List.mem_cons_self .. | tail _ hm => cases hm)) hone
    obtain ⟨o1, p1, ho1, hk1⟩ := (hr.step hx1).pending t env1 x he1 (hpe1.trans hpe)
    have hlt : x < h.next := hr.inv.bound x o ho
    obtain ⟨o2, ho2, hs, _⟩ := (runStep hr.inv.toPre hx1).old x o1 hlt ho1
    rw [ho] at ho2; cases ho2
    refine ⟨env1, x, o1, he1, hpe1.trans hpe, ho1, ?_⟩
    rw [hk, hk1] at hs
    rw [hk1]
    simp only [Kind.Same] at hs
    exact hs.symm

theorem describe_none {h : Heap} {t : Nat} {env : Env} (he : h.envs t = some env) (hp : env.pending = none)
    (what : Exn → Option Str) : h.describe what t = .ok (h, some "No pending Exception".toList) := by
  simp only [Heap.describe, Heap.env_ok.2 he, Res.bind_ok, hp]

theorem describe_pends {h : Heap} {t : Nat} {e : Exn} (hp : Pends h t (some e)) (what : Exn → Option Str) :
    h.describe what t = .ok (h, (what e).map fun s => lineOf (cText s)) := by
  obtain ⟨env, x, o, he, hpe, ho, hk⟩ := hp
  unfold Heap.describe
  rw [Heap.env_ok.2 he, Res.bind_ok]
  simp only [hpe, ho, hk]
  cases what e <;> rfl

theorem describe_bare {h : Heap} {t : Nat} (hp : Pends h t none) (what : Exn → Option Str) :
    h.describe what t = .ub .nullDeref := by
  obtain ⟨env, x, o, he, hpe, ho, hk⟩ := hp
  unfold Heap.describe
  rw [Heap.env_ok.2 he, Res.bind_ok]
  simp only [hpe, ho, hk]

/-- In such histories every `Throwable` has an exception inside. -/
theorem no_bare {h : Heap} {ops : List (Nat × HeapOp)} (hb : NoBareThrowable ops)
    (hx : runHeap Heap.initial ops = .ok h) {i : Nat} {o : Obj} (ho : h.objs i = some o) :
    o.kind ≠ .throwable none := by
  have key : ∀ (ops : List (Nat × HeapOp)) (h0 : Heap), HeapReachable h0 → NoBareThrowable ops →
      (∀ i o, h0.objs i = some o → o.kind ≠ .throwable none) → runHeap h0 ops = .ok h →
      ∀ i o, h.objs i = some o → o.kind ≠ .throwable none := by
    intro ops
    induction ops with
    | nil => intro h0 _ _ hn hx; cases hx; exact hn
    | cons a ops ih =>
      intro h0 hr hb hn hx
      obtain ⟨u, op⟩ := a
      obtain ⟨⟨h1, out⟩, hx1, hx2⟩ := Res.bind_eq_ok.1 hx
      refine ih h1 (hr.step hx1) (fun t hm => hb t (List.mem_cons_of_mem _ hm)) ?_ hx2
      intro i o ho hk
      rcases Heap.kinds_run hr.inv.toPre hx1 ho with ⟨o0, h2, h3⟩ | ⟨_, _, h3⟩ | ⟨_, _, _, _, _, _, h3⟩ |
        ⟨_, _, _, _, _, _, _, _, _, _, _, _, _, h3⟩ | ⟨_, _, _, _, h3⟩ | ⟨_, _, _, _, _, _, _, _, _, _, _, _, h3⟩
      · exact hn i o0 h2 (h3 ▸ hk)
      · have := h3 hk
        subst this
        exact hb u (List.mem_cons_self ..)
      all_goals rw [h3] at hk; cases hk
  refine key ops Heap.initial .initial hb ?_ hx i o ho
  intro i o ho hk
  have hlt := Heap.initial_inv.toPre.bound i o ho
  rw [show Heap.initial.next = 9 by decide +kernel] at hlt
  have hall : (List.range 9).all (fun i => (Heap.initial.objs i).all fun o => o.kind != .throwable none) = true := by
    decide +kernel
  have := List.all_eq_true.1 hall i (List.mem_range.2 hlt)
  rw [ho] at this
  simp [hk] at this

end Jnivm
