import Verif.Spec.CppProgram
import Verif.Lemmas.CppRead
/-! Lemmas about reading a program line by line. -/
namespace Jnivm
open Spec

/-! ### Lines -/

theorem textLines_ne (s : Str) : textLines s ≠ [] := by
  cases s with
  | nil => simp [textLines]
  | cons c t =>
    unfold textLines
    split
    · simp
    · split <;> simp

/-- `s` consists of these lines, each with its newline. -/
def IsLines (s : Str) (ls : List Str) : Prop := ∀ b, textLines (s ++ b) = ls ++ textLines b

theorem isLines_nil : IsLines [] [] := fun _ => rfl

theorem IsLines.append {a b : Str} {la lb : List Str} (ha : IsLines a la) (hb : IsLines b lb) : IsLines (a ++ b) (la ++ lb) := by
  intro c
  rw [List.append_assoc, ha, hb, List.append_assoc]

theorem isLines_line {l : Str} (h : '\n' ∉ l) : IsLines (l ++ "\n".toList) [l] := by
  intro b
  induction l with
  | nil => rfl
  | cons c l ih =>
    have hc : c ≠ '\n' := fun e => h (by simp [e])
    have := ih fun hl => h (by simp [hl])
    rw [List.cons_append, List.cons_append, textLines, if_neg hc, this]
    rfl

theorem isLines_flatMap {α : Type} {f : α → Str} {g : α → List Str} {l : List α} (h : ∀ x ∈ l, IsLines (f x) (g x)) :
    IsLines (l.flatMap f) (l.flatMap g) := by
  induction l with
  | nil => exact isLines_nil
  | cons x l ih =>
    rw [List.flatMap_cons, List.flatMap_cons]
    exact (h x (by simp)).append (ih fun y hy => h y (by simp [hy]))

theorem isLines_flatten {l : List Str} (h : ∀ x ∈ l, ∃ y, x = y ++ "\n".toList ∧ '\n' ∉ y) : IsLines l.flatten (l.map List.dropLast) := by
  induction l with
  | nil => exact isLines_nil
  | cons x l ih =>
    obtain ⟨y, rfl, hy⟩ := h x (by simp)
    rw [List.flatten_cons, List.map_cons]
    have e : (y ++ "\n".toList).dropLast = y := by
      rw [show "\n".toList = ['\n'] from rfl, List.dropLast_concat]
    rw [e]
    exact (isLines_line hy).append (ih fun z hz => h z (by simp [hz]))

theorem textLines_last {l : Str} (h : '\n' ∉ l) : textLines l = [l] := by
  induction l with
  | nil => rfl
  | cons c l ih =>
    have hc : c ≠ '\n' := fun e => h (by simp [e])
    rw [textLines, if_neg hc, ih fun hl => h (by simp [hl])]

theorem isLines_join : ∀ {ls : List Str}, (∀ l ∈ ls, '\n' ∉ l) → ls ≠ [] → IsLines (joinLines ls ++ "\n".toList) ls
  | [], _, h => absurd rfl h
  | [x], h, _ => isLines_line (h x (by simp))
  | x :: y :: ls, h, _ => by
    have := (isLines_line (h x (by simp))).append (isLines_join (ls := y :: ls) (fun l hl => h l (by simp [hl])) (by simp))
    rw [List.append_assoc] at this
    rw [joinLines, List.append_assoc]
    exact this

theorem stripBlanks_replicate (n : Nat) (l : Str) : stripBlanks (List.replicate n ' ' ++ l) = stripBlanks l := by
  induction n with
  | zero => rfl
  | succ n ih => rw [List.replicate_succ, List.cons_append, stripBlanks, ih]

theorem stripBlanks_cons {c : Char} (h : c ≠ ' ') (l : Str) : stripBlanks (c :: l) = c :: l := by
  unfold stripBlanks
  split
  · rename_i t e
    cases e
    exact absurd rfl h
  · rfl

variable {R : CppReader}

theorem readLines_append (a b : List Str) : ∀ t : CppText, t.readLines R (a ++ b) = (t.readLines R a).bind fun t => t.readLines R b := by
  induction a with
  | nil => intro t; rfl
  | cons l a ih =>
    intro t
    rw [List.cons_append, CppText.readLines, CppText.readLines]
    cases t.readLine R (stripBlanks l) with
    | none => rfl
    | some t' => exact ih t'

theorem readLines_step {t t' : CppText} {l : Str} (h : t.readLine R (stripBlanks l) = some t') (ls : List Str) :
    t.readLines R (l :: ls) = t'.readLines R ls := by
  rw [CppText.readLines, h, Option.bind_some]

theorem readLines_then {t t' : CppText} {a : List Str} (h : t.readLines R a = some t') (b : List Str) :
    t.readLines R (a ++ b) = t'.readLines R b := by
  rw [readLines_append, h, Option.bind_some]

/-! ### Namespaces and forward declarations -/

theorem readTop_open {t : CppText} {k : Str} : t.readTop R ("namespace ".toList ++ k ++ " {".toList) = t.openSpace R k := by
  have e1 : "namespace ".toList ++ k ++ " {".toList ≠ [] := by simp
  have e2 : "namespace ".toList ++ k ++ " {".toList ≠ "}".toList := fun e => nomatch e
  have e3 : after "#include <".toList ("namespace ".toList ++ k ++ " {".toList) = none := rfl
  unfold CppText.readTop
  rw [if_neg e1, if_neg e2, e3, between_append]

theorem readTop_class {t : CppText} {k : Str} : t.readTop R ("class ".toList ++ k ++ ";".toList) = t.declare R (joinScope (t.spaces ++ [k])) k := by
  have e1 : "class ".toList ++ k ++ ";".toList ≠ [] := by simp
  have e2 : "class ".toList ++ k ++ ";".toList ≠ "}".toList := fun e => nomatch e
  have e3 : after "#include <".toList ("class ".toList ++ k ++ ";".toList) = none := rfl
  have e4 : between "namespace ".toList " {".toList ("class ".toList ++ k ++ ";".toList) = none := between_none rfl
  unfold CppText.readTop
  rw [if_neg e1, if_neg e2, e3]
  simp only
  rw [e4]
  simp only
  rw [between_append]

theorem readTop_close {t : CppText} (h : t.spaces ≠ []) : t.readTop R "}".toList = some { t with spaces := t.spaces.dropLast } := by
  unfold CppText.readTop
  rw [if_neg (by decide), if_pos rfl, if_neg h]

theorem readLine_top {t : CppText} (h : t.place = .top) (l : Str) : t.readLine R l = t.readTop R l := by
  unfold CppText.readLine
  rw [h]

/-- The scopes that lines declare. -/
def declaredBy (D : List (List Str × Str)) : List Str := D.map fun x => joinScope (x.1 ++ [x.2])

theorem read_pre (E : List PreLine) : ∀ (d : Nat) (t : CppText), t.place = .top → ∀ r, track t.spaces E = some r →
    (∀ n, PreLine.opens n ∈ E ∨ PreLine.declares n ∈ E → isIdent n = true) →
    (∀ n, PreLine.declares n ∈ E → n ∉ scopelessNames) →
    (∀ q ∈ opened t.spaces E, (q = ["jnivm".toList] ∨ ∀ k, q.getLast? = some k → k ∉ scopelessNames) ∧ joinScope q ∉ t.names ∧ joinScope q ∉ declaredBy r.2 ∧ R.base.cls (joinScope q) = none) →
    (∀ s ∈ declaredBy r.2, s ∉ t.packages ∧ R.base.cls s = none) →
    t.readLines R (preLines d E) = some { t with spaces := r.1, names := t.names ++ declaredBy r.2, packages := t.packages ++ (opened t.spaces E).map joinScope } := by
  induction E with
  | nil =>
    intro d t _ r h _ _ _ _
    cases h
    simp [preLines, CppText.readLines, opened, declaredBy]
  | cons e E ih =>
    intro d t ht r h hid hsc ho hd
    have hsc' : ∀ n, PreLine.declares n ∈ E → n ∉ scopelessNames := fun n hn => hsc n (by simp [hn])
    have hid' : ∀ n, PreLine.opens n ∈ E ∨ PreLine.declares n ∈ E → isIdent n = true := fun n hn =>
      hid n (by rcases hn with hn | hn <;> simp [hn])
    cases e with
    | opens n =>
      have hstep : t.readLine R (stripBlanks (indentBy d ("namespace ".toList ++ n ++ " {".toList))) =
          some { t with spaces := t.spaces ++ [n], packages := t.packages ++ [joinScope (t.spaces ++ [n])] } := by
        unfold indentBy
        rw [stripBlanks_replicate]
        have : stripBlanks ("namespace ".toList ++ n ++ " {".toList) = "namespace ".toList ++ n ++ " {".toList :=
          stripBlanks_cons (by decide) _
        rw [this]
        rw [readLine_top ht, readTop_open]
        obtain ⟨h0, h1, _, h3⟩ := ho (t.spaces ++ [n]) (by simp [opened])
        have h0' : n ∉ scopelessNames ∨ joinScope (t.spaces ++ [n]) = "jnivm".toList := by
          rcases h0 with h0 | h0
          · rw [h0]
            exact .inr rfl
          · exact .inl (h0 n (by simp))
        unfold CppText.openSpace
        simp only
        rw [if_pos ⟨hid n (by simp), h0', h1, h3⟩]
      rw [preLines, readLines_step hstep]
      rw [ih (d + 1) { t with spaces := t.spaces ++ [n], packages := t.packages ++ [joinScope (t.spaces ++ [n])] } ht r h hid' hsc'
        (fun q hq => ho q (by rw [opened]; exact List.mem_cons_of_mem _ hq)) (fun s hs => ?_)]
      · simp [opened]
      · obtain ⟨h1, h2⟩ := hd s hs
        refine ⟨?_, h2⟩
        simp only [List.mem_append, List.mem_singleton, not_or]
        refine ⟨h1, ?_⟩
        rintro rfl
        exact (ho (t.spaces ++ [n]) (by simp [opened])).2.2.1 hs
    | declares n =>
      unfold track at h
      obtain ⟨q, hq, rfl⟩ := Option.map_eq_some_iff.1 h
      have hmem : joinScope (t.spaces ++ [n]) ∈ declaredBy ((t.spaces, n) :: q.2) := by simp [declaredBy]
      have hstep : t.readLine R (stripBlanks (indentBy d ("class ".toList ++ n ++ ";".toList))) =
          some { t with names := t.names ++ [joinScope (t.spaces ++ [n])] } := by
        unfold indentBy
        rw [stripBlanks_replicate]
        have : stripBlanks ("class ".toList ++ n ++ ";".toList) = "class ".toList ++ n ++ ";".toList :=
          stripBlanks_cons (by decide) _
        rw [this]
        rw [readLine_top ht, readTop_class]
        obtain ⟨h1, h2⟩ := hd _ hmem
        unfold CppText.declare
        rw [if_pos ⟨hid n (by simp), hsc n (by simp), h1, h2⟩]
      rw [preLines, readLines_step hstep]
      rw [ih d { t with names := t.names ++ [joinScope (t.spaces ++ [n])] } ht q hq hid' hsc' (fun p hp => ?_) (fun s hs => ?_)]
      · simp [opened, declaredBy]
      · obtain ⟨h0, h1, h2, h3⟩ := ho p (by simpa [opened] using hp)
        simp only [declaredBy, List.map_cons, List.mem_cons, not_or] at h2
        refine ⟨h0, ?_, h2.2, h3⟩
        simp only [List.mem_append, List.mem_singleton, not_or]
        exact ⟨h1, h2.1⟩
      · exact hd s (by simp only [declaredBy, List.map_cons, List.mem_cons]; exact .inr hs)
    | closes =>
      unfold track at h
      split at h
      · cases h
      · rename_i hne
        have hstep : t.readLine R (stripBlanks (indentBy (d - 1) "}".toList)) = some { t with spaces := t.spaces.dropLast } := by
          unfold indentBy
          rw [stripBlanks_replicate]
          have : stripBlanks "}".toList = "}".toList := by decide
          rw [this]
          rw [readLine_top ht]
          exact readTop_close hne
        rw [preLines, readLines_step hstep]
        rw [ih (d - 1) { t with spaces := t.spaces.dropLast } ht r h hid' hsc' ho hd]
        rfl

end Jnivm
