import Verif.Lemmas.Release
import Verif.Props.Registry
/-!
Properties of the build without `JNI_DEBUG` (C77).
-/
namespace Jnivm
open Spec

/-- C77, answers. Whatever a program is answered by the default build it is also answered by the
build without `JNI_DEBUG`: the same class names, the same member addresses, the same truth values. -/
theorem release_answers (prog : List ClientOp) (as : List ClientAnswer) (h : answers .debug prog = .ok as) :
    answers .release prog = .ok as := by
  obtain ⟨⟨w, bs⟩, h1, h2⟩ := Res.bind_eq_ok.1 h
  cases h2
  have := run_agree prog start_agree
  rw [show Build.debug.run World.initial prog = _ from h1] at this
  generalize hy : Build.release.run World.initialR prog = y at this
  cases this with
  | @ok _ b hb =>
    unfold answers
    rw [show Build.release.run Build.release.start prog = _ from hy]
    exact congrArg Res.ok hb.1.symm

/-- C77, outcomes. If `Declare` can read all signatures, the two builds give a program the same
outcome, also when it throws, runs into undefined behaviour or exhausts the stack. -/
theorem release_outcome_partial (prog : List ClientOp) (h : ∀ op ∈ prog, Readable op) :
    answers .debug prog = answers .release prog := by
  have := run_agree prog start_agree
  unfold answers
  change (Build.debug.run World.initial prog).bind _ = (Build.release.run World.initialR prog).bind _
  generalize Build.debug.run World.initial prog = x at this
  generalize Build.release.run World.initialR prog = y at this
  cases this with
  | ok hb => exact congrArg Res.ok hb.1
  | throws => rfl
  | ub => rfl
  | diverges => rfl
  | bad hb =>
    obtain ⟨op, h1, h2⟩ := hb
    exact absurd (h op h1) h2

/-- Well-formed signatures are closed. -/
theorem closed_signature {params : List Ty} {ret : Option Ty} (hp : ∀ t ∈ params, t.Valid)
    (hr : ∀ t, ret = some t → t.Valid) : Closed (renderSig params ret) := by
  rcases declare_closed Registry.empty (renderSig params ret) with ⟨h, _⟩ | ⟨_, h⟩
  · exact h
  · rw [declare_sig hp hr] at h; cases h

/-- Well-formed types are closed. -/
theorem closed_type {t : Ty} (hv : t.Valid) : Closed t.render := by
  rcases declare_closed Registry.empty t.render with ⟨h, _⟩ | ⟨_, h⟩
  · exact h
  · rw [declare_ty hv] at h; cases h

/-- `Declare` reads a text exactly if it is closed; else it reads past the end, in every state. -/
theorem declare_reads (r : Registry) (s : Str) :
    ((∃ r', declare r s = .ok r') ↔ Closed s) ∧ (declare r s = .ub .outOfBounds ↔ ¬ Closed s) := by
  rcases declare_closed r s with ⟨h, r', e⟩ | ⟨h, e⟩
  · exact ⟨⟨fun _ => h, fun _ => ⟨r', e⟩⟩, ⟨fun e' => (by rw [e] at e'; cases e'), fun h' => absurd h h'⟩⟩
  · exact ⟨⟨fun ⟨r', e'⟩ => (by rw [e] at e'; cases e'), fun h' => absurd h' h⟩, ⟨fun _ => h, fun _ => e⟩⟩

/-- C77, tables. After the same program every class the build without `JNI_DEBUG` knows is known
to the default build under the same name, with the same methods, fields, natives and bases; the
classes only the default build knows have none. -/
theorem release_tables (prog : List ClientOp) (w v : World) (as bs : List ClientAnswer)
    (hw : Build.debug.run Build.debug.start prog = .ok (w, as))
    (hv : Build.release.run Build.release.start prog = .ok (v, bs)) (n : Str) :
    (∀ c', (findClassR true v.reg n).2 = some c' →
      ∃ c, (findClass true w.reg n).2 = some c ∧ w.mem c = v.mem c') ∧
    (∀ c, (findClassR true v.reg n).2 = none → (findClass true w.reg n).2 = some c →
      w.mem c = Members.empty) := by
  have := run_agree prog start_agree
  rw [show Build.debug.run World.initial prog = _ from hw,
    show Build.release.run World.initialR prog = _ from hv] at this
  cases this with
  | ok hb =>
    have hA : Agree w v := hb.2
    rw [findClass_find hA.inv, findClassR_find]
    refine ⟨fun c' h => ?_, fun c h1 h2 => ?_⟩
    · obtain ⟨c, hc⟩ := hA.known n c' h
      exact ⟨c, hc, hA.same c c' ⟨n, hc, h⟩⟩
    · refine hA.fresh c ?_
      rintro c' ⟨m, a, b⟩
      have := hA.inv.inj h2 a; subst this
      simp only at h1
      rw [h1] at b; cases b

/-- C77, contents. A lookup that may not create finds exactly the built-in classes and the ones the
program named; neither enclosing classes nor classes in signatures. -/
theorem release_query_exact (prog : List ClientOp) (v : World) (as : List ClientAnswer)
    (h : Build.release.run Build.release.start prog = .ok (v, as)) (m : Str) :
    (findClassR true v.reg m).2.isSome ↔
      m ∈ builtinClasses.map String.toList ++ prog.flatMap namesIn := by
  rw [findClassR_find]
  have := (runR_added prog initialR_spec.1 h).new m
  refine this.trans ?_
  rw [List.mem_append]
  exact or_congr (initialR_spec.2 m) Iff.rfl

/-- C77, identity. A class once found under a name is found again under it after any further
program, and under no other name; it reports that name and the text behind its last `/`. -/
theorem release_stable (p q : List ClientOp) (v v' : World) (as bs : List ClientAnswer)
    (h : Build.release.run Build.release.start p = .ok (v, as))
    (h' : Build.release.run v q = .ok (v', bs)) (n : Str) (c : Nat)
    (hc : (findClassR true v.reg n).2 = some c) (m : Str) :
    ((findClassR true v'.reg m).2 = some c ↔ m = n) ∧
      ∃ cd : ClassNode, v'.reg.cls[c]? = some cd ∧ cd.nativeprefix = n ∧ cd.name = afterLastSlash n := by
  have h1 := runR_added p initialR_spec.1 h
  have h2 := runR_added q h1.flat h'
  rw [findClassR_find] at hc ⊢
  have hk := h2.keep n c hc
  refine ⟨⟨fun hm => h2.flat.inj hm hk, ?_⟩, h2.flat n c hk⟩
  rintro rfl; exact hk

/-- A client program: two classes, one derived from the other, a method, a field, a constructor. -/
def releaseProgram : List ClientOp :=
  [.bindType 1 "a/Base".toList [none], .bindType 2 "a/B$C".toList [some 1],
   .getMethodID 5 false false false (some "a/Base".toList) "f".toList "(ILx/Y;)V".toList,
   .getMethodID 5 false true false (some "a/B$C".toList) "f".toList "(ILx/Y;)V".toList,
   .getMethodID 5 false false false (some "a/B$C".toList) "<init>".toList "(J)V".toList,
   .getFieldID 5 true false (some "a/Base".toList) "s".toList "[Lq/R;".toList,
   .isAssignableFrom 5 (some "a/B$C".toList) (some "a/Base".toList),
   .getSuperclass "a/B$C".toList]

theorem releaseProgram_readable : ∀ op ∈ releaseProgram, Readable op := by
  have hs : Closed "(ILx/Y;)V".toList :=
    closed_signature (params := [.prim .int, .cls "x/Y".toList]) (ret := none) (by decide) (by simp)
  have hj : Closed "(J)V".toList :=
    closed_signature (params := [.prim .long]) (ret := none) (by decide) (by simp)
  have hf : Closed "[Lq/R;".toList := closed_type (t := .arr (.cls "q/R".toList)) (by decide)
  intro op hop
  simp only [releaseProgram, List.mem_cons, List.not_mem_nil, or_false] at hop
  rcases hop with rfl | rfl | rfl | rfl | rfl | rfl | rfl | rfl
  · trivial
  · trivial
  · exact ⟨hs, by rintro n h; cases h; decide⟩
  · exact ⟨hs, by rintro n h; cases h; decide⟩
  · exact ⟨hj, by rintro n h; cases h; decide⟩
  · exact hf
  · trivial
  · trivial

/-- Both builds answer it, and this is what they answer. -/
theorem releaseProgram_answers : answers .debug releaseProgram =
    .ok [.cls (some "a/Base".toList), .cls (some "a/B$C".toList), .member (some 0), .member (some 0),
      .member (some 1), .member (some 2), .bool true, .cls (some "a/Base".toList)] := by
  rw [release_outcome_partial _ releaseProgram_readable]
  decide +kernel

/-- In the default build the lookup may find more: the enclosing class of a named one. -/
theorem release_query_differs :
    ∃ w v as bs, Build.debug.run Build.debug.start [.findClass "a/B$C".toList] = .ok (w, as) ∧
      Build.release.run Build.release.start [.findClass "a/B$C".toList] = .ok (v, bs) ∧
      (findClass true w.reg "a/B".toList).2.isSome ∧ (findClassR true v.reg "a/B".toList).2 = none := by
  refine ⟨_, _, _, _, rfl, rfl, ?_, ?_⟩
  · exact (create_exact ⟨[], rfl⟩ "a/B$C".toList "a/B".toList).2
      (.inr (.inr ⟨by decide, "C".toList, by decide, by decide⟩))
  · decide +kernel

/-- In a fresh VM, looking up a method (not a constructor) of any class by a signature that is not
closed reads out of bounds in the default build and makes the method in the other: the condition
of `release_outcome_partial` is needed. -/
theorem release_unclosed (n name sig : Str) (hname : name ≠ "<init>".toList) (h : ¬ Closed sig) :
    answers .debug [.getMethodID 1 false false false (some n) name sig] = .ub .outOfBounds ∧
      answers .release [.getMethodID 1 false false false (some n) name sig] = .ok [.member (some 0)] := by
  have hb : ((!false && name == "<init>".toList) = true) ↔ False := by
    simp only [Bool.not_false, Bool.true_and, beq_iff_eq, hname]
  obtain ⟨R, c, e1, l1, hc⟩ := findClass_create initial_inv n
  obtain ⟨S, c', e2, l2, hf, _⟩ := findClassR_create initialR_spec.1 n
  obtain ⟨cd, q1, _⟩ := lookup_record hc.inv l1
  obtain ⟨cd', q2, _⟩ := hf n c' l2
  have hd := (declare_reads R sig).2.2 h
  constructor
  · simp only [answers, Build.run, ClientOp.run, Build.resolve, Build.debug, World.initial, e1,
      World.getMethodID, q1, hb, if_false, Bool.or_self, World.methodOf, dfs, World.ownMethod,
      Members.empty, List.find?_nil, Option.map_none, World.bases, Res.bind, Bool.false_eq_true,
      World.createMethod, hd]
  · simp only [answers, Build.run, ClientOp.run, Build.resolve, Build.release, World.initialR, e2,
      World.getMethodIDR, q2, hb, if_false, Bool.or_self, World.methodOfR, dfs, World.ownMethod,
      Members.empty, List.find?_nil, Option.map_none, World.bases, Res.bind, Bool.false_eq_true,
      World.createMethodR]

example : ¬ Closed "(La/B".toList := by
  have := (declare_reads Registry.empty _).2.1
    (declare_unterminated_ub Registry.empty [] (by simp) "a/B".toList (by decide))
  rwa [show '(' :: (([] : List Ty).flatMap Ty.render ++ 'L' :: "a/B".toList) = "(La/B".toList by decide]
    at this

/-- The simple names differ for nested classes: the default build takes the text behind the last
`$`, the other one the text behind the last `/`. -/
theorem release_simple_name :
    (∃ c, (findClassR false Registry.initialR "a/B$C".toList).2 = some c ∧
      ((findClassR false Registry.initialR "a/B$C".toList).1.cls[c]?).map (·.name) = some "B$C".toList) ∧
    ∃ c, (findClass false Registry.initial "a/B$C".toList).2 = some c ∧
      ((findClass false Registry.initial "a/B$C".toList).1.cls[c]?).map (·.name) = some "C".toList := by
  refine ⟨⟨9, by decide +kernel, by decide +kernel⟩, ?_⟩
  have hr : RegReachable Registry.initial := ⟨[], rfl⟩
  obtain ⟨c, hc⟩ := find_total hr "a/B$C".toList
  obtain ⟨cd, e, _, hs⟩ := find_names hr false _ c hc [] _ rfl
  refine ⟨c, hc, ?_⟩
  rw [e, Option.map_some]
  refine congrArg some (simpleName_unique hs ?_)
  exact ⟨by decide, by rw [if_neg (by decide)]; exact ⟨by decide, .inr (.inr ⟨"a/B".toList, by decide⟩)⟩⟩

end Jnivm
