import Verif.Model.Wrappers
import Verif.Spec.Wrappers
/-! Helper lemmas about the member functions of `JNIEnv` and `JavaVM`. -/
namespace Jnivm
open Spec

/-- The arguments a member function with this type passes on. -/
def plainArgs (fn : CFn) : List WArg :=
  .this :: ((List.range (namedCount fn)).map .param ++ if Variadic fn then [.rest (namedCount fn - 1)] else [])

/-- What a member function looks like. -/
def wrapperOk (header : List (String × Option CFn)) (self : CTy) (w : Wrapper) : Bool :=
  w.slot == entryName w.name w.fn && w.args == plainArgs w.fn && (!decide (Variadic w.fn) || 0 < namedCount w.fn) &&
    (w.returns || decide (IsVoid w.fn)) &&
    match header.findIdx? (fun p => p.1 == w.slot) with
    | none => false
    | some i => header[i]? == some (w.slot, some (entryType self w.fn))

theorem evalWArgs_append {α : Type} {self : α} {va : List α → α} {args : List α} {as bs : List WArg}
    {xs ys : List α} (h1 : evalWArgs self va args as = .ok xs) (h2 : evalWArgs self va args bs = .ok ys) :
    evalWArgs self va args (as ++ bs) = .ok (xs ++ ys) := by
  induction as generalizing xs with
  | nil => cases h1; exact h2
  | cons a as ih =>
    obtain ⟨x, hx, h1⟩ := Res.bind_eq_ok.1 h1
    obtain ⟨zs, hz, h1⟩ := Res.bind_eq_ok.1 h1
    cases h1
    simp only [List.cons_append, evalWArgs, hx, ih hz, Res.bind]

theorem evalWArgs_params {α : Type} (self : α) (va : List α → α) (args : List α) (n : Nat)
    (hn : n ≤ args.length) :
    evalWArgs self va args ((List.range n).map .param) = .ok (args.take n) := by
  induction n with
  | zero => rfl
  | succ n ih =>
    have h : args[n]? = some args[n] := List.getElem?_eq_getElem (by omega)
    rw [List.range_succ, List.map_append, List.take_add_one, h]
    refine evalWArgs_append (ih (by omega)) ?_
    simp only [List.map_cons, List.map_nil, evalWArgs, WArg.eval, h, Res.bind, Option.toList]

theorem evalWArgs_plain {α : Type} (self : α) (va : List α → α) (args : List α) (fn : CFn)
    (hv : Variadic fn → 0 < namedCount fn) (ha : Accepts fn args) :
    evalWArgs self va args (plainArgs fn) = .ok (passedOn self va fn args) := by
  have hn : namedCount fn ≤ args.length := by
    unfold Accepts at ha
    split at ha <;> omega
  have h1 := evalWArgs_params self va args (namedCount fn) hn
  have h2 : evalWArgs self va args (if Variadic fn then [.rest (namedCount fn - 1)] else []) =
      .ok (if Variadic fn then [va (args.drop (namedCount fn))] else []) := by
    by_cases h : Variadic fn
    · rw [if_pos h, if_pos h]
      have := hv h
      simp only [evalWArgs, WArg.eval, Res.bind, show namedCount fn - 1 + 1 = namedCount fn by omega]
    · rw [if_neg h, if_neg h]; rfl
  have h3 := evalWArgs_append h1 h2
  simp only [plainArgs, passedOn, evalWArgs, WArg.eval, h3, Res.bind]

/-- What `wrapperOk` says. -/
theorem wrapperOk_cases {header : List (String × Option CFn)} {self : CTy} {w : Wrapper}
    (h : wrapperOk header self w = true) :
    w.slot = entryName w.name w.fn ∧ w.args = plainArgs w.fn ∧ (Variadic w.fn → 0 < namedCount w.fn) ∧
      (w.returns = true ∨ IsVoid w.fn) ∧
      ∃ i, header.findIdx? (fun p => p.1 == w.slot) = some i ∧
        header[i]? = some (w.slot, some (entryType self w.fn)) := by
  unfold wrapperOk at h
  simp only [Bool.and_eq_true, beq_iff_eq, Bool.or_eq_true, Bool.not_eq_true', decide_eq_false_iff_not,
    decide_eq_true_eq] at h
  obtain ⟨⟨⟨⟨h1, h2⟩, h3⟩, h4⟩, h5⟩ := h
  refine ⟨h1, h2, fun hv => h3.resolve_left (fun h => h hv), h4, ?_⟩
  split at h5
  · cases h5
  · rename_i i hi
    exact ⟨i, hi, beq_iff_eq.1 h5⟩

end Jnivm
