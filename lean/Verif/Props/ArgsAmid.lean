import Verif.Lemmas.ArgsAmid
import Verif.Props.ObjArgs
/-!
C57, continued: other threads make calls while the arguments of a hooked function are converted.
-/
namespace Jnivm
open Spec

variable {w : CppTypes} {t : Nat} {keep : List Nat} {h0 : Heap} {e : Env}
  {this : Option (CppClass × Option Nat)} {steps : List AmidStep} {s : AmidState}

/-- Whatever other threads do meanwhile: every argument is what its reference denoted when the call began. -/
theorem amid_received (hr : HookReachable w h0) (he : h0.envs t = some e) (ho : OthersOnly t keep steps)
    (hs : ∀ a ∈ amidArgs steps, ∃ o, Secured t keep h0 a.2 o)
    (hx : h0.enterAmid w t this steps = .ok s) : PassedAll w h0 (amidArgs steps) s.args := by
  obtain ⟨own, _, a⟩ := enterAmid_inv hr.inv he ho hx
  exact a.passed hs

/-- At no time can the conversion of the next argument be undefined: it succeeds or throws, and which of both
depends on what the reference denoted when the call began. -/
theorem amid_next (hr : HookReachable w h0) (he : h0.envs t = some e) (ho : OthersOnly t keep steps)
    (hx : h0.enterAmid w t this steps = .ok s) {r o : Option Nat} (hs : Secured t keep h0 r o) (p : ObjParam) :
    (∃ s' x, h0.enterAmid w t this (steps ++ [.arg p r]) = .ok s' ∧ s'.args = s.args ++ [x] ∧
      Passed w h0 p r x) ∨
    ∃ ex, h0.enterAmid w t this (steps ++ [.arg p r]) = .throws ex ∧ Refused w h0 p r ex := by
  obtain ⟨own, hown, a⟩ := enterAmid_inv hr.inv he ho hx
  have app : h0.enterAmid w t this (steps ++ [.arg p r]) = s.step w t (.arg p r) := by
    obtain ⟨own', h1, h2⟩ := Res.bind_eq_ok.1 hx
    rw [Heap.enterAmid, h1, Res.bind_ok]
    exact amid_append h2
  rw [app]
  rcases a.next hs p with ⟨h', x, hc, hpx⟩ | ⟨ex, hc, hrf⟩
  · exact .inl ⟨_, x, by rw [AmidState.step, hc, Res.bind_ok], rfl, hpx⟩
  · exact .inr ⟨ex, by rw [AmidState.step, hc]; rfl, hrf⟩

/-- The receiver and the objects of `std::shared_ptr` arguments are alive from their conversion on, whatever is
called then, until the function returns. -/
theorem amid_alive (hr : HookReachable w h0) (he : h0.envs t = some e) (ho : OthersOnly t keep steps)
    (hx : h0.enterAmid w t this steps = .ok s) {ops : List (Nat × HeapOp)} {h : Heap}
    (hrun : runHeap s.heap ops = .ok h) :
    (∀ i, .shared (some i) ∈ s.args → Live h i) ∧
      ∀ c r i, this = some (c, r) → Denotes h0 r (some i) → Live h i := by
  obtain ⟨own, hown, a⟩ := enterAmid_inv hr.inv he ho hx
  have hi := a.inv.runHeap hrun
  have hh := a.holding.mono (Heap.pins_runHeap a.inv hrun)
  refine ⟨fun i hm => hh.live hi.toPre ((a.temps i).2 (.inr hm)), fun c r i ht hd => ?_⟩
  subst ht
  obtain ⟨o, h1, h2⟩ := Res.bind_eq_ok.1 hown
  have hden := Res.bind_eq_ok.1 h1
  rw [(Heap.denote_iff hr.inv.toPre).2 hd] at hden
  obtain ⟨_, hden, hu⟩ := hden
  cases hden
  cases hw : w.isa i c with
  | false => simp [hw] at hu
  | true =>
    simp only [hw, if_true] at hu
    cases hu; cases h2
    exact hh.live hi.toPre ((a.temps i).2 (.inl (by simp)))

/-- The local references of the thread are those it had and those of the converted pointers; they are not the
business of the other threads. -/
theorem amid_locals (hr : HookReachable w h0) (he : h0.envs t = some e) (ho : OthersOnly t keep steps)
    {f : List Nat} {fs : List (List Nat)} (hf : e.frames = f :: fs)
    (hx : h0.enterAmid w t this steps = .ok s) :
    s.heap.envs t = some { e with frames := (f ++ allLocals (amidArgs steps) s.args) :: fs } ∧
      ∀ i ∈ allLocals (amidArgs steps) s.args, Live s.heap i := by
  obtain ⟨own, hown, a⟩ := enterAmid_inv hr.inv he ho hx
  have henv : s.heap.envs t = some { e with frames := (f ++ allLocals (amidArgs steps) s.args) :: fs } := by
    rw [a.env, hf]; rfl
  exact ⟨henv, fun i hi => Heap.hasLocal_live a.inv ⟨_, henv, _, List.mem_cons_self, List.mem_append_right _ hi⟩⟩

/-! ### Concrete calls -/

/-- Object 9 with a local reference of thread 0 and the global references 10 and 11, and a second thread. -/
def amidSetup : List (Nat × HeapOp) :=
  [(0, .newObject none), (0, .newGlobalRef (some 9)), (0, .newGlobalRef (some 9)), (1, .attach)]

/-- The second thread creates and deletes references between the conversions. -/
def amidSteps : List AmidStep :=
  [.call 1 (.newLocalRef (some 9)), .arg (.shared (.cls 7)) (some 11), .call 1 (.deleteGlobalRef (some 10)),
    .call 1 (.deleteLocalRef (some 9)), .arg (.pointer (.cls 7)) (some 9), .call 1 .detach,
    .arg (.ref (.cls 7)) (some 9), .arg (.shared (.cls 8)) none]

theorem amid_sample : ∃ h0 s e f fs, HookReachable sampleTypes h0 ∧ h0.envs 0 = some e ∧ e.frames = f :: fs ∧
    OthersOnly 0 [11] amidSteps ∧ (∀ a ∈ amidArgs amidSteps, ∃ o, Secured 0 [11] h0 a.2 o) ∧
    h0.enterAmid sampleTypes 0 (some (.cls 7, some 11)) amidSteps = .ok s ∧
    s.args = [.shared (some 9), .pointer (some 9), .ref 9, .shared none] ∧ Denotes h0 (some 11) (some 9) := by
  obtain ⟨h0, hx, hr, hp⟩ := reachable_of (ops := amidSetup)
    (p := fun h => (h.envs 0).any (fun e => e.frames == [[9]]) &&
      (h.objs 9).any (fun o => o.kind == .plain) && (h.objs 11).any (fun o => o.kind == .global 9) &&
      h.globals.contains 11 &&
      (h.enterAmid sampleTypes 0 (some (.cls 7, some 11)) amidSteps).holds fun s =>
        s.args == [.shared (some 9), .pointer (some 9), .ref 9, .shared none]) (by decide +kernel)
  simp only [Bool.and_eq_true, Res.holds_iff, beq_iff_eq, Option.any_eq_true, List.contains_iff_mem] at hp
  obtain ⟨⟨⟨⟨⟨e, he, hf⟩, o9, ho9, hk9⟩, o11, ho11, hk11⟩, hg⟩, s, hs, ha⟩ := hp
  have s9 : Secured 0 [11] h0 (some 9) (some 9) :=
    .loc ⟨e, he, [9], by rw [hf]; simp, by simp⟩ ho9 (by intro x; rw [hk9]; simp)
  have s11 : Secured 0 [11] h0 (some 11) (some 9) := .glob (by simp) hg ho11 hk11
  refine ⟨h0, s, e, _, _, .of_heap hr, he, hf, ?_, ?_, hs, ha, s11.denotes hr.inv.toPre⟩
  · intro u op hm
    simp only [amidSteps, List.mem_cons, AmidStep.call.injEq, List.not_mem_nil, or_false, reduceCtorEq,
      false_or] at hm
    rcases hm with ⟨rfl, rfl⟩ | ⟨rfl, rfl⟩ | ⟨rfl, rfl⟩ | ⟨rfl, rfl⟩ <;> simp
  · intro a hm
    simp only [amidArgs, amidSteps, List.filterMap_cons, List.filterMap_nil, List.mem_cons, List.not_mem_nil,
      or_false] at hm
    rcases hm with rfl | rfl | rfl | rfl
    · exact ⟨_, s11⟩
    · exact ⟨_, s9⟩
    · exact ⟨_, s9⟩
    · exact ⟨_, .null⟩

/-- A weak reference is no such reference: passed twice, it can be an object once and null the next time, and the
`T&` made first then refers to a released object. -/
theorem amid_weak : ∃ h0 s, HookReachable sampleTypes h0 ∧
    h0.enterAmid sampleTypes 0 none [.arg (.ref (.cls 7)) (some 10), .call 1 (.deleteLocalRef (some 9)),
      .arg (.shared (.cls 7)) (some 10)] = .ok s ∧
    s.args = [.ref 9, .shared none] ∧ ¬ Live s.heap 9 := by
  obtain ⟨h0, hx, hr, hp⟩ := reachable_of
    (ops := [(1, .attach), (1, .newObject none), (1, .newWeakGlobalRef (some 9))])
    (p := fun h => (h.enterAmid sampleTypes 0 none [.arg (.ref (.cls 7)) (some 10),
      .call 1 (.deleteLocalRef (some 9)), .arg (.shared (.cls 7)) (some 10)]).holds fun s =>
        s.args == [.ref 9, .shared none] && (s.heap.objs 9).isNone) (by decide +kernel)
  simp only [Bool.and_eq_true, Res.holds_iff, beq_iff_eq, Option.isNone_iff_eq_none] at hp
  obtain ⟨s, hs, ha, hn⟩ := hp
  refine ⟨h0, s, .of_heap hr, hs, ha, ?_⟩
  rintro ⟨o, ho⟩
  rw [hn] at ho; cases ho

/-- A global reference that another thread deletes meanwhile is read after it was released. -/
theorem amid_deleted : ∃ h0, HookReachable sampleTypes h0 ∧ Denotes h0 (some 10) (some 9) ∧
    h0.enterAmid sampleTypes 0 none [.arg (.shared (.cls 7)) (some 10), .call 1 (.deleteGlobalRef (some 10)),
      .arg (.shared (.cls 7)) (some 10)] = .ub .dangling := by
  obtain ⟨h0, hx, hr, hp⟩ := reachable_of
    (ops := [(1, .attach), (1, .newObject none), (1, .newGlobalRef (some 9))])
    (p := fun h => h.denote (some 10) == .ok (some 9) &&
      match h.enterAmid sampleTypes 0 none [.arg (.shared (.cls 7)) (some 10),
        .call 1 (.deleteGlobalRef (some 10)), .arg (.shared (.cls 7)) (some 10)] with
      | .ub .dangling => true | _ => false) (by decide +kernel)
  simp only [Bool.and_eq_true, beq_iff_eq] at hp
  refine ⟨h0, .of_heap hr, (Heap.denote_iff hr.inv.toPre).1 hp.1, ?_⟩
  have := hp.2
  split at this
  · assumption
  · cases this

end Jnivm
