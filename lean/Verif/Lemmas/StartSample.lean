import Verif.Lemmas.Start
/-! A VM with a class "D" that extends "A" and has all methods, for the examples of `Jvm::start`. -/
namespace Jnivm
open Spec

/-- Class "D" (object 10) extends "A" (object 9); only "D" has methods. -/
structure SampleStart (vm : Vm) (a d : Nat) (ms : List MethodRec) : Prop where
  reach : VmReachable vm
  isA : vm.world.IsClass "A".toList a
  isD : vm.world.IsClass "D".toList d
  ad : a ≠ d
  basesA : vm.world.bases a = some [none]
  basesD : vm.world.bases d = some [some a]
  basesOther : ∀ c, c ≠ a → c ≠ d → vm.world.bases c = none
  methodsD : (vm.world.mem d).methods = ms
  methods : ∀ c, c ≠ d → (vm.world.mem c).methods = []
  clsA : ("A".toList, 9) ∈ vm.heap.classes
  clsD : ("D".toList, 10) ∈ vm.heap.classes
  env : ∃ e, vm.heap.envs 0 = some e ∧ e.pending = none ∧ e.frames = [[9, 10]]

theorem sample_start : ∃ vm a d, SampleStart vm a d [] := by
  obtain ⟨w, a, d, hr, ha, hd, had, ba, bd, bo, hm⟩ := sample_single
  obtain ⟨h, _, hh, hp⟩ := reachable_of (ops := [(0, .findClass "A".toList), (0, .findClass "D".toList)])
    (p := fun h => h.classes.contains ("A".toList, 9) && h.classes.contains ("D".toList, 10) &&
      (h.envs 0).any (fun e => e.pending == none && e.frames == [[9, 10]])) (by decide +kernel)
  simp only [Bool.and_eq_true, List.contains_iff_mem, Option.any_eq_true] at hp
  obtain ⟨⟨h1, h2⟩, e, he, hpe⟩ := hp
  simp only [beq_iff_eq] at hpe
  exact ⟨⟨w, h⟩, a, d, ⟨hr, hh⟩, ha, hd, had, ba, bd, bo, (hm d).1, fun c _ => (hm c).1, h1, h2, e, he, hpe.1, hpe.2⟩

namespace SampleStart
variable {vm : Vm} {a d : Nat} {ms : List MethodRec}

theorem acyclic (S : SampleStart vm a d ms) : Acyclic vm.world.bases := by
  refine ⟨fun c => if c = d then 1 else 0, fun c e ⟨bs, hb, he⟩ => ?_⟩
  by_cases hc : c = d
  · subst hc
    rw [S.basesD] at hb; injection hb with hb; subst hb
    have : e = a := by simpa using he
    subst this
    simp [S.ad]
  · by_cases hc' : c = a
    · subst hc'
      rw [S.basesA] at hb; injection hb with hb; subst hb
      simp at he
    · rw [S.basesOther c hc' hc] at hb; exact nomatch hb

theorem super (S : SampleStart vm a d ms) {c : Nat} (h : Super vm.world.bases d c) : c = d ∨ c = a := by
  cases h with
  | refl => exact .inl rfl
  | step h1 h2 =>
    obtain ⟨bs, hb, he⟩ := h1
    rw [S.basesD] at hb; injection hb with hb; subst hb
    obtain rfl : _ = a := by simpa using he
    cases h2 with
    | refl => exact .inr rfl
    | step h3 _ =>
      obtain ⟨bs, hb, he⟩ := h3
      rw [S.basesA] at hb; injection hb with hb; subst hb
      simp at he

theorem onlyA (S : SampleStart vm a d ms) {c : Nat} (h : Super vm.world.bases a c) : c = a := by
  cases h with
  | refl => rfl
  | step h1 _ =>
    obtain ⟨bs, hb, he⟩ := h1
    rw [S.basesA] at hb; injection hb with hb; subst hb
    simp at he

theorem noMain (S : SampleStart vm a d ms) : ¬ HasMain vm.world a := by
  have none : ∀ st nat, ¬ Available vm.world a st nat "main".toList "([Ljava/lang/String;)V".toList := by
    rintro st nat ⟨c, m, hs, hm, _⟩
    rw [S.onlyA hs, S.methods a S.ad] at hm
    exact nomatch hm
  rintro (h | h | h)
  · exact none _ _ h
  · exact none _ _ h
  · exact none _ _ h

theorem avail (S : SampleStart vm a d ms) {st nat : Bool} {n s : Str} :
    Available vm.world d st nat n s ↔
      ∃ m ∈ ms, m.static = st ∧ m.native.isSome = nat ∧ m.name = n ∧ m.signature = s := by
  constructor
  · rintro ⟨c, m, hs, hm, hx⟩
    rcases S.super hs with rfl | rfl
    · rw [S.methodsD] at hm; exact ⟨m, hm, hx⟩
    · rw [S.methods _ S.ad] at hm; exact nomatch hm
  · rintro ⟨m, hm, hx⟩
    exact ⟨d, m, .refl _, by rw [← S.methodsD] at hm; exact hm, hx⟩

theorem identifies (S : SampleStart vm a d ms) {st nat : Bool} {n s : Str} {id : Nat}
    (h : Identifies vm.world d st nat n s id) :
    ∃ m ∈ ms, m.static = st ∧ m.native.isSome = nat ∧ m.id = id := by
  obtain ⟨c, m, hs, ⟨hm, h1, h2, _⟩, h3, _⟩ := h
  rcases S.super hs with rfl | rfl
  · rw [S.methodsD] at hm; exact ⟨m, hm, h1, h2, h3⟩
  · rw [S.methods _ S.ad] at hm; exact nomatch hm

theorem entries (S : SampleStart vm a d ms) : ∀ x ∈ [(a, 9)] ++ [(d, 10)], ClassEntry vm x := by
  intro x hx
  simp only [List.cons_append, List.nil_append, List.mem_cons, List.not_mem_nil, or_false] at hx
  rcases hx with rfl | rfl
  · exact ⟨_, S.isA, S.clsA⟩
  · exact ⟨_, S.isD, S.clsD⟩

theorem skipA (S : SampleStart vm a d ms) : ∀ x ∈ [(a, 9)], ¬ HasMain vm.world x.1 := by
  intro x hx
  obtain rfl : x = (a, 9) := by simpa using hx
  exact S.noMain

/-- The next step: a function is added to "D". -/
theorem extend (S : SampleStart vm a d ms) {op : MemOp} {w : World} (hx : op.run vm.world = .ok w)
    {ms' : List MethodRec} (hd : (w.mem d).methods = ms')
    (ho : ∀ c, c ≠ d → (w.mem c).methods = (vm.world.mem c).methods) (hb : w.bases = vm.world.bases) :
    SampleStart { vm with world := w } a d ms' where
  reach := ⟨S.reach.1.step hx, S.reach.2⟩
  isA := isClass_step S.reach.1.inv hx S.isA
  isD := isClass_step S.reach.1.inv hx S.isD
  ad := S.ad
  basesA := by rw [hb]; exact S.basesA
  basesD := by rw [hb]; exact S.basesD
  basesOther := by rw [hb]; exact S.basesOther
  methodsD := hd
  methods := fun c hc => by rw [ho c hc]; exact S.methods c hc
  clsA := S.clsA
  clsD := S.clsD
  env := S.env

theorem hook (S : SampleStart vm a d ms) (st : Bool) (n s : Str) (f : Nat)
    (hf : ms.find? (hookHits st n s) = none) :
    SampleStart { vm with world := vm.world.hookMethod d st n s f } a d
      (ms ++ [⟨vm.world.next, n, s, st, none, some f⟩]) := by
  have hf' : (vm.world.mem d).methods.find? (hookHits st n s) = none := by rw [S.methodsD]; exact hf
  refine S.extend (op := .hookMethod d st n s f) rfl ?_ (fun c hc => ?_) (hookMethod_bases ..)
  · rw [hookMethod_new hf']; simp [S.methodsD]
  · rw [hookMethod_new hf']; simp [hc]

theorem register (S : SampleStart vm a d ms) (n s : Str) (f : Option Nat) :
    SampleStart { vm with world := vm.world.registerNatives (some d) [⟨n, s, f⟩] } a d
      (ms ++ [⟨vm.world.next, n, s, false, f, none⟩]) := by
  refine S.extend (op := .registerNatives (some d) [⟨n, s, f⟩]) rfl ?_ (fun c hc => ?_)
    (register_keeps vm.world d [⟨n, s, f⟩]).2.2.2.1
  · simp [World.registerNatives, World.registerOne, S.methodsD]
  · rw [(register_keeps vm.world d [⟨n, s, f⟩]).2.1 c hc]

/-- A lookup in the empty class "D" makes the function up. -/
theorem madeUp (S : SampleStart vm a d []) (st : Bool) : ∃ w, SampleStart { vm with world := w } a d
    [⟨vm.world.next, "main".toList, "([Ljava/lang/String;)V".toList, st, none, none⟩] := by
  obtain ⟨r, hdec⟩ : ∃ r, declare vm.world.reg "([Ljava/lang/String;)V".toList = .ok r :=
    ⟨_, declare_sig (params := [.arr (.cls "java/lang/String".toList)]) (ret := none) (by simp [Ty.Valid]) (by simp) _⟩
  have hcore : ∀ c, vm.world.cores c = [] := fun c => by
    by_cases hc : c = d
    · subst hc; simp [World.cores, S.methodsD]
    · simp [World.cores, S.methods c hc]
  have hA : vm.world.getMethodID 2 st false false (some d) "main".toList "([Ljava/lang/String;)V".toList =
      .ok (vm.world.addMethod d ⟨vm.world.next, "main".toList, "([Ljava/lang/String;)V".toList, st, none, none⟩ r,
        some vm.world.next) := by
    rw [getMethodID_isClass S.reach.1.inv S.isD, effKey_plain (fun h => absurd h main_ne_init)]
    unfold World.methodOf
    have : dfs vm.world.bases (vm.world.ownMethod ⟨st, false, "main".toList, "([Ljava/lang/String;)V".toList⟩) 2 d = .ok none := by
      simp only [dfs, ownMethod_cores, hcore, S.basesD, List.find?_nil, Option.map_none, firstAnswer, S.basesA,
        Res.bind_ok]
    rw [this]
    simp only [Res.bind_ok, Bool.false_eq_true, if_false, World.createMethod, hdec]
    rfl
  have r1 := run_getMethodID (nat := false) (rn := false) (by simp) hA
  refine ⟨_, S.extend r1 ?_ (fun c hc => ?_) ?_⟩
  · simp [World.addMethod, S.methodsD]
  · simp [World.addMethod, hc]
  · simp

theorem names (S : SampleStart vm a d ms) {m : MethodRec} (hm : m ∈ ms) : Names vm.world m.id m :=
  ⟨_, d, S.isD, by rw [S.methodsD]; exact hm, rfl⟩

theorem pending (S : SampleStart vm a d ms) : pendingOf 0 vm.heap = none := by
  obtain ⟨e, he, hp, _⟩ := S.env
  simp [pendingOf, he, hp]

end SampleStart

/-- Code that changes nothing is tidy. -/
theorem tidy_same {t k : Nat} {vm vm1 : Vm} (he : Entered t k vm vm1) : Tidy t vm1 vm1 := by
  obtain ⟨_, _, e1, he1, hf⟩ := he
  intro e h
  rw [he1] at h; injection h with h; subst h
  exact ⟨e1, [k], _, he1, rfl, hf, by rw [hf]; exact .refl _⟩

theorem sameEnv_same {t k : Nat} {vm vm1 : Vm} (he : Entered t k vm vm1) : SameEnv t vm1 vm1 := by
  obtain ⟨_, _, e1, he1, _⟩ := he
  exact ⟨e1, e1, he1, he1, rfl⟩

theorem pending_same {t k : Nat} {vm vm1 : Vm} (he : Entered t k vm vm1) (hp : pendingOf t vm.heap = none) :
    PendingIs t vm1 none := by
  obtain ⟨_, hq, e1, he1, _⟩ := he
  refine ⟨e1, he1, ?_⟩
  rw [hp, pendingOf, he1] at hq
  exact hq

/-- Function 1 returns, the others throw. -/
def startCode (f : Nat) : Hook :=
  ⟨.static, .void, fun vm _ _ => if f = 1 then .returns vm 0 else .raises vm .runtimeError⟩

theorem startCode_behaved : WellBehaved startCode := by
  intro f vm tg args h
  show EndsIn VmReachable (if f = 1 then _ else _)
  split
  · exact h
  · exact h

/-- A function that detaches its thread. -/
def detachCode (_ : Nat) : Hook := ⟨.static, .void, fun vm _ _ => .returns { vm with heap := (vm.heap.detach 0).collect } 0⟩

theorem detachCode_behaved : WellBehaved detachCode := by
  intro f vm tg args h
  exact ⟨h.1, h.2.step (t := 0) (op := .detach) (out := .unit) rfl⟩

/-- A function that pops a frame it has not pushed. -/
def popCode (_ : Nat) : Hook := ⟨.static, .void, fun vm _ _ => match vm.heap.leaveFrame 0 false with
  | .ok h => .returns { vm with heap := h } 0
  | _ => .returns vm 0⟩

theorem popCode_behaved : WellBehaved popCode := by
  intro f vm tg args h
  show EndsIn VmReachable (match vm.heap.leaveFrame 0 false with | .ok h => _ | _ => _)
  cases hx : vm.heap.leaveFrame 0 false with
  | ok h' =>
    obtain ⟨⟨h2, o⟩, hx1, hx2⟩ := Res.bind_eq_ok.1 hx
    cases hx2
    exact ⟨h.1, h.2.step hx1⟩
  | throws e => exact h
  | ub u => exact h
  | diverges => exact h

def startNatives : NativeCode := fun f _ vm _ _ => if f = 1 then .returns vm 0 else .raises vm .runtimeError

theorem startNatives_behaved : NativesBehave startNatives := by
  intro f ty vm tg args h
  show EndsIn VmReachable (if f = 1 then _ else _)
  split
  · exact h
  · exact h

end Jnivm
