import Verif.Lemmas.CppLines
import Verif.Props.ClassDump
/-! Lemmas about the parts of class names and their C++ names. -/
namespace Jnivm
open Spec

/-! ### Parts -/

theorem nameParts_ne (s : Str) : nameParts s ≠ [] := by
  cases s with
  | nil => simp [nameParts]
  | cons c t =>
    unfold nameParts
    split
    · simp
    · split <;> simp

theorem nameParts_sep {c : Char} (hc : c = '/' ∨ c = '$') (a b : Str) : nameParts (a ++ c :: b) = nameParts a ++ nameParts b := by
  induction a with
  | nil =>
    show nameParts (c :: b) = [[]] ++ nameParts b
    rw [nameParts.eq_2, if_pos hc]; rfl
  | cons d a ih =>
    rw [List.cons_append, nameParts, nameParts]
    by_cases hd : d = '/' ∨ d = '$'
    · rw [if_pos hd, if_pos hd, ih]; rfl
    · rw [if_neg hd, if_neg hd, ih]
      cases h : nameParts a with
      | nil => exact absurd h (nameParts_ne a)
      | cons p ps => rfl

theorem nameParts_one {s : Str} (h1 : '/' ∉ s) (h2 : '$' ∉ s) : nameParts s = [s] := by
  induction s with
  | nil => rfl
  | cons c t ih =>
    simp only [List.mem_cons, not_or] at h1 h2
    rw [nameParts, if_neg (fun h => h.elim (fun e => h1.1 e.symm) fun e => h2.1 e.symm), ih h1.2 h2.2]

theorem joinScope_cons (x : Str) {l : List Str} (h : l ≠ []) : joinScope (x :: l) = x ++ "::".toList ++ joinScope l := by
  cases l with
  | nil => exact absurd rfl h
  | cons y l => rfl

theorem joinScope_snoc {l : List Str} (h : l ≠ []) (x : Str) : joinScope (l ++ [x]) = joinScope l ++ "::".toList ++ x := by
  induction l with
  | nil => exact absurd rfl h
  | cons y l ih =>
    cases l with
    | nil => rfl
    | cons z l =>
      rw [List.cons_append, joinScope_cons y (by simp), joinScope_cons y (by simp), ih (by simp)]
      simp only [List.append_assoc]

theorem cppName_parts (n : Str) : cppName n = joinScope (nameParts n) := by
  induction n with
  | nil => rfl
  | cons c t ih =>
    rw [cppName, nameParts, ih]
    by_cases hc : c = '/' ∨ c = '$'
    · rw [if_pos hc, if_pos hc, joinScope_cons _ (nameParts_ne t)]
      rfl
    · rw [if_neg hc, if_neg hc]
      cases h : nameParts t with
      | nil => exact absurd h (nameParts_ne t)
      | cons p ps =>
        cases ps with
        | nil => rfl
        | cons q ps => rfl

theorem cppScope_parts {n : Str} (h : PlainName n) : cppScope n = joinScope ("jnivm".toList :: nameParts n) := by
  rw [cppScope_plain h, cppName_parts, joinScope_cons _ (nameParts_ne n)]
  rfl

theorem splitScope_append {x : Str} (h : ':' ∉ x) (s : Str) : splitScope (s ++ "::".toList ++ x) = some (s, x) := by
  have e : (s ++ "::".toList ++ x).reverse = x.reverse ++ ':' :: (":".toList ++ s.reverse) := by
    rw [show "::".toList = [':', ':'] from rfl, show ":".toList = [':'] from rfl]
    simp
  unfold splitScope
  rw [e, splitFirst_append (by simpa using h)]
  simp only [Option.bind_some, after_append, Option.map_some, List.reverse_reverse]

theorem lastName_append {x : Str} (h : ':' ∉ x) (s : Str) : lastName (s ++ "::".toList ++ x) = x := by
  unfold lastName
  rw [splitScope_append h]

/-- The parts of the name of a class end with its simple name. -/
theorem nameParts_simple {n s : Str} (h : SimpleName n s) (hn : n.head? ≠ some '[') : ∃ pre, nameParts n = pre ++ [s] := by
  obtain ⟨h1, h2⟩ := h
  rw [if_neg hn] at h2
  obtain ⟨h2, h3⟩ := h2
  rcases h3 with rfl | ⟨pre, rfl⟩ | ⟨pre, rfl⟩
  · exact ⟨[], nameParts_one h1 h2⟩
  · exact ⟨nameParts pre, by rw [nameParts_sep (.inl rfl), nameParts_one h1 h2]⟩
  · exact ⟨nameParts pre, by rw [nameParts_sep (.inr rfl), nameParts_one h1 h2]⟩

theorem cppScope_simple {n s : Str} (hp : PlainName n) (h : SimpleName n s) (hn : n.head? ≠ some '[') :
    ∃ pre, cppScope n = pre ++ "::".toList ++ s := by
  obtain ⟨pre, e⟩ := nameParts_simple h hn
  refine ⟨joinScope ("jnivm".toList :: pre), ?_⟩
  rw [cppScope_parts hp, e, ← List.cons_append, joinScope_snoc (by simp)]

theorem wordName_parts {n : Str} (h : ∀ x ∈ nameParts n, isIdent x = true) : WordName n := by
  induction n with
  | nil => intro c hc; cases hc
  | cons d t ih =>
    rw [nameParts] at h
    by_cases hd : d = '/' ∨ d = '$'
    · rw [if_pos hd] at h
      intro c hc
      rcases List.mem_cons.1 hc with rfl | hc
      · exact .inr hd
      · exact ih (fun x hx => h x (by simp [hx])) c hc
    · rw [if_neg hd] at h
      have hw : ∀ x ∈ nameParts t, ∀ c ∈ x, wordChar c = true := by
        intro x hx
        cases e : nameParts t with
        | nil => exact absurd e (nameParts_ne t)
        | cons p ps =>
          rw [e] at h hx
          rcases List.mem_cons.1 hx with rfl | hx
          · intro c hc
            exact (ident_word (h (d :: x) (by simp))).2 c (by simp [hc])
          · exact (ident_word (h x (by simp [hx]))).2
      have hd' : wordChar d = true := by
        cases e : nameParts t with
        | nil => exact absurd e (nameParts_ne t)
        | cons p ps =>
          rw [e] at h
          exact (ident_word (h (d :: p) (by simp))).2 d (by simp)
      have key : ∀ t : Str, (∀ x ∈ nameParts t, ∀ c ∈ x, wordChar c = true) → WordName t := by
        intro t
        induction t with
        | nil => intro _ c hc; cases hc
        | cons e t ih =>
          intro h
          rw [nameParts] at h
          by_cases he : e = '/' ∨ e = '$'
          · rw [if_pos he] at h
            intro c hc
            rcases List.mem_cons.1 hc with rfl | hc
            · exact .inr he
            · exact ih (fun x hx => h x (by simp [hx])) c hc
          · rw [if_neg he] at h
            cases hp : nameParts t with
            | nil => exact absurd hp (nameParts_ne t)
            | cons p ps =>
              rw [hp] at h ih
              intro c hc
              rcases List.mem_cons.1 hc with rfl | hc
              · exact .inl (h (c :: p) (by simp) c (by simp))
              · refine ih (fun x hx => ?_) c hc
                rcases List.mem_cons.1 hx with rfl | hx
                · intro c hc
                  exact h (e :: x) (by simp) c (by simp [hc])
                · exact h x (by simp [hx])
      intro c hc
      rcases List.mem_cons.1 hc with rfl | hc
      · exact .inl hd'
      · exact key t hw c hc

theorem plainName_before {a b : Str} (h : PlainName (a ++ '/' :: b)) : PlainName a := by
  intro x y e
  exact h x (y ++ '/' :: b) (by rw [e]; simp)

theorem plainName_outer {a b : Str} (h : PlainName (a ++ '$' :: b)) : PlainName a := by
  intro x y e
  exact h x (y ++ '$' :: b) (by rw [e]; simp)

/-- The parts of a class in its packages. -/
theorem nameParts_packages {ps : List Str} {s : Str} (hp : ∀ p ∈ ps, '/' ∉ p) (h1 : '/' ∉ s) (h2 : '$' ∉ s)
    (h : PlainName (inPackages ps s)) : nameParts (inPackages ps s) = ps ++ [s] := by
  have key : ∀ (ps : List Str) (pre : Str), (∀ p ∈ ps, '/' ∉ p) → PlainName (pre ++ inPackages ps s) → nameParts (inPackages ps s) = ps ++ [s] := by
    intro ps
    induction ps with
    | nil => intro pre _ _; exact nameParts_one h1 h2
    | cons p ps ih =>
      intro pre hp h
      have e : inPackages (p :: ps) s = p ++ '/' :: inPackages ps s := by
        simp [inPackages, show "/".toList = ['/'] from rfl]
      rw [e] at h
      have hd : '$' ∉ p := by
        intro hx
        exact (h (pre ++ p) (inPackages ps s) (by simp)).2.2 (by simp [hx])
      rw [e, nameParts_sep (.inl rfl), nameParts_one (hp p (by simp)) hd,
        ih (pre ++ p ++ ['/']) (fun q hq => hp q (by simp [hq])) (by simpa using h)]
      rfl
  exact key ps [] hp h

theorem parts_lacks {n : Str} : ∀ x ∈ nameParts n, '/' ∉ x ∧ '$' ∉ x := by
  induction n with
  | nil => intro x hx; simp [nameParts] at hx; subst hx; simp
  | cons c t ih =>
    intro x hx
    rw [nameParts] at hx
    by_cases hc : c = '/' ∨ c = '$'
    · rw [if_pos hc] at hx
      rcases List.mem_cons.1 hx with rfl | hx
      · simp
      · exact ih x hx
    · rw [if_neg hc] at hx
      cases hp : nameParts t with
      | nil => exact absurd hp (nameParts_ne t)
      | cons p ps =>
        rw [hp] at hx ih
        rcases List.mem_cons.1 hx with rfl | hx
        · obtain ⟨a, b⟩ := ih p (by simp)
          simp only [List.mem_cons, not_or] at hc ⊢
          exact ⟨⟨fun e => hc.1 e.symm, a⟩, fun e => hc.2 e.symm, b⟩
        · exact ih x (by simp [hx])

/-- An inner class of a class that is dumped is dumped too. -/
theorem dumped_inner {n k : Str} (h : Dumped n) : Dumped (n ++ '$' :: k) := by
  have hb : ∀ m ∈ builtin, '$' ∉ m := by decide +kernel
  have hn : n ≠ [] → (n ++ '$' :: k).head? = n.head? := by cases n <;> simp
  have hh : (n ++ '$' :: k).head? ≠ some '[' := by
    cases n with
    | nil => simp
    | cons c n => exact h.1
  refine ⟨hh, fun m hm hin => ?_⟩
  rcases hm with rfl | ⟨_, i, e, hi⟩
  · exact hb _ hin (by simp)
  · have hd := hb m hin
    -- m has no '$', so it ends at or before the first one
    have : ∃ i', n = m ++ i' ∧ (i' = [] ∨ ∃ j, i' = '$' :: j ∧ '/' ∉ j) := by
      have key : ∀ (m n : Str) (i k : Str), '$' ∉ m → n ++ '$' :: k = m ++ '$' :: i → '/' ∉ i →
          ∃ i', n = m ++ i' ∧ (i' = [] ∨ ∃ j, i' = '$' :: j ∧ '/' ∉ j) := by
        intro m
        induction m with
        | nil =>
          intro n i k _ e hi
          cases n with
          | nil => exact ⟨[], rfl, .inl rfl⟩
          | cons c n =>
            simp only [List.nil_append, List.cons_append, List.cons.injEq] at e
            obtain ⟨rfl, rfl⟩ := e
            exact ⟨'$' :: n, rfl, .inr ⟨n, rfl, fun hx => hi (by simp [hx])⟩⟩
        | cons d m ih =>
          intro n i k hd e hi
          simp only [List.mem_cons, not_or] at hd
          cases n with
          | nil =>
            simp only [List.nil_append, List.cons_append, List.cons.injEq] at e
            exact absurd e.1 hd.1
          | cons c n =>
            simp only [List.cons_append, List.cons.injEq] at e
            obtain ⟨rfl, e⟩ := e
            obtain ⟨i', rfl, h⟩ := ih n i k hd.2 e hi
            exact ⟨i', rfl, h⟩
      exact key m n i k hd e hi
    obtain ⟨i', rfl, rfl | ⟨j, rfl, hj⟩⟩ := this
    · exact h.2 m (.inl (by simp)) hin
    · exact h.2 m (.inr ⟨h.1, j, rfl, hj⟩) hin

/-! ### Namespaces -/

theorem opened_ne {E : List PreLine} : ∀ {st : List Str}, ∀ q ∈ opened st E, q ≠ [] := by
  induction E with
  | nil => intro st q hq; cases hq
  | cons e E ih =>
    intro st q hq
    cases e with
    | opens n =>
      rw [opened] at hq
      rcases List.mem_cons.1 hq with rfl | hq
      · simp
      · exact ih q hq
    | declares n => exact ih q hq
    | closes => exact ih q hq

theorem opens_opened {E : List PreLine} {n : Str} : ∀ {st : List Str}, PreLine.opens n ∈ E → ∃ q ∈ opened st E, q.getLast? = some n := by
  induction E with
  | nil => intro st h; cases h
  | cons e E ih =>
    intro st h
    rcases List.mem_cons.1 h with rfl | h'
    · exact ⟨st ++ [n], by simp [opened], by simp⟩
    · cases e with
      | opens k =>
        obtain ⟨q, hq, e⟩ := ih (st := st ++ [k]) h'
        exact ⟨q, by simp [opened, hq], e⟩
      | declares k => exact ih (st := st) h'
      | closes => exact ih (st := st.dropLast) h'

theorem declares_tracked {E : List PreLine} {n : Str} : ∀ {st : List Str} {r}, track st E = some r → PreLine.declares n ∈ E →
    ∃ q, (q, n) ∈ r.2 := by
  induction E with
  | nil => intro st r _ h; cases h
  | cons e E ih =>
    intro st r ht h
    cases e with
    | opens k => exact ih (st := st ++ [k]) ht (by simpa using h)
    | declares k =>
      unfold track at ht
      obtain ⟨q, hq, rfl⟩ := Option.map_eq_some_iff.1 ht
      rcases List.mem_cons.1 h with e | h
      · cases e
        exact ⟨st, by simp⟩
      · obtain ⟨p, hp⟩ := ih hq h
        exact ⟨p, by simp [hp]⟩
    | closes =>
      unfold track at ht
      split at ht
      · cases ht
      · exact ih ht (by simpa using h)

end Jnivm
