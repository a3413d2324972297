import Verif.Spec.CppText
/-! Lemmas about reading C++ text. -/
namespace Jnivm
open Spec

/-! ### Texts -/

theorem after_append (p s : Str) : after p (p ++ s) = some s := by
  induction p with
  | nil => rfl
  | cons c p ih => simp only [List.cons_append, after, if_pos, ih]

theorem after_some {p s r : Str} (h : after p s = some r) : s = p ++ r := by
  induction p generalizing s with
  | nil => cases h; rfl
  | cons c p ih =>
    cases s with
    | nil => cases h
    | cons d s =>
      simp only [after] at h
      by_cases hc : c = d
      · rw [if_pos hc] at h
        rw [hc, ih h]
        rfl
      · rw [if_neg hc] at h
        cases h

theorem after_lacks {p s : Str} {c : Char} (hp : c ∈ p) (hs : c ∉ s) : after p s = none := by
  cases h : after p s with
  | none => rfl
  | some r => exact absurd (by rw [after_some h]; exact List.mem_append_left _ hp) hs

theorem before_append (q s : Str) : before q (s ++ q) = some s := by
  simp only [before, List.reverse_append, after_append, Option.map_some, List.reverse_reverse]

theorem before_lacks {q s : Str} {c : Char} (hq : c ∈ q) (hs : c ∉ s) : before q s = none := by
  simp only [before, after_lacks (List.mem_reverse.2 hq) (fun h => hs (List.mem_reverse.1 h)), Option.map_none]

theorem between_append (p q s : Str) : between p q (p ++ s ++ q) = some s := by
  simp only [between, List.append_assoc, after_append, Option.bind_some, before_append]

theorem between_none {p q s : Str} (h : after p s = none) : between p q s = none := by
  simp only [between, h, Option.bind_none]

theorem splitFirst_append {ch : Char} {a : Str} (h : ch ∉ a) (b : Str) :
    splitFirst ch (a ++ ch :: b) = some (a, b) := by
  induction a with
  | nil => simp [splitFirst]
  | cons c a ih =>
    simp only [List.mem_cons, not_or] at h
    simp only [List.cons_append, splitFirst, if_neg (Ne.symm h.1), ih h.2, Option.map_some]

theorem splitFirst_none {ch : Char} {a : Str} (h : ch ∉ a) : splitFirst ch a = none := by
  induction a with
  | nil => rfl
  | cons c a ih =>
    simp only [List.mem_cons, not_or] at h
    simp only [splitFirst, if_neg (Ne.symm h.1), ih h.2, Option.map_none]

theorem commaParts_cons {c : Char} (h : c ≠ ',') (t : Str) :
    commaParts (c :: t) = match commaParts t with
      | [] => [[c]]
      | p :: ps => (c :: p) :: ps := by
  refine (commaParts.eq_3 c t ?_).trans rfl
  intro t' h1 h2
  exact absurd h1 h

theorem commaParts_one {p : Str} (h : ',' ∉ p) : commaParts p = [p] := by
  induction p with
  | nil => rfl
  | cons c p ih =>
    simp only [List.mem_cons, not_or] at h
    rw [commaParts_cons (Ne.symm h.1), ih h.2]

theorem commaParts_append {p : Str} (h : ',' ∉ p) (t : Str) : commaParts (p ++ ", ".toList ++ t) = p :: commaParts t := by
  have e : ", ".toList = [',', ' '] := by decide
  rw [e]
  induction p with
  | nil => rfl
  | cons c p ih =>
    simp only [List.mem_cons, not_or] at h
    rw [List.cons_append, List.cons_append, commaParts_cons (Ne.symm h.1), ih h.2]

theorem items_commas {l : List Str} (h : ∀ p ∈ l, p ≠ [] ∧ ',' ∉ p) : items (commas l) = l := by
  have key : ∀ l : List Str, l ≠ [] → (∀ p ∈ l, p ≠ [] ∧ ',' ∉ p) → commas l ≠ [] ∧ commaParts (commas l) = l := by
    intro l
    induction l with
    | nil => intro h; exact absurd rfl h
    | cons p l ih =>
      intro _ hl
      cases l with
      | nil => exact ⟨(hl p (by simp)).1, commaParts_one (hl p (by simp)).2⟩
      | cons q l =>
        refine ⟨?_, ?_⟩
        · intro h
          simp only [commas, List.append_eq_nil_iff] at h
          exact (hl p (by simp)).1 h.1.1
        · simp only [commas]
          rw [commaParts_append (hl p (by simp)).2, (ih (by simp) fun x hx => hl x (by simp [hx])).2]
  unfold items
  cases l with
  | nil => rfl
  | cons p l =>
    obtain ⟨h1, h2⟩ := key _ (by simp) h
    rw [if_neg h1, h2]

theorem readAllOf_map {α β γ : Type} {f : β → Option γ} {g : α → γ} {k : α → β} {l : List α}
    (h : ∀ x ∈ l, f (k x) = some (g x)) : readAllOf f (l.map k) = some (l.map g) := by
  induction l with
  | nil => rfl
  | cons x l ih =>
    simp only [List.map_cons, readAllOf, h x (by simp), Option.bind_some, ih fun y hy => h y (by simp [hy]),
      Option.map_some]

theorem readAllOf_append {β γ : Type} {f : β → Option γ} {a b : List β} {x y : List γ}
    (ha : readAllOf f a = some x) (hb : readAllOf f b = some y) : readAllOf f (a ++ b) = some (x ++ y) := by
  induction a generalizing x with
  | nil => cases ha; exact hb
  | cons s a ih =>
    simp only [readAllOf, Option.bind_eq_some_iff, Option.map_eq_some_iff] at ha
    obtain ⟨v, h1, vs, h2, rfl⟩ := ha
    simp only [List.cons_append, readAllOf, h1, Option.bind_some, ih h2, Option.map_some]

theorem lookup_none {β : Type} {l : List (Str × β)} {s : Str} (h : ∀ e ∈ l, e.1 ≠ s) : l.lookup s = none := by
  induction l with
  | nil => rfl
  | cons e l ih =>
    obtain ⟨k, v⟩ := e
    have : s ≠ k := fun hx => h (k, v) (by simp) hx.symm
    simp only [List.lookup, beq_eq_false_iff_ne.2 this]
    exact ih fun e he => h e (by simp [he])

/-! ### Types -/

/-- The characters of the text of a type. -/
def typeChar (c : Char) : Bool := wordChar c || c == ':' || c == '<' || c == '>'

theorem cppName_chars {n : Str} (h : WordName n) : ∀ c ∈ cppName n, wordChar c = true ∨ c = ':' := by
  induction n with
  | nil => intro c hc; cases hc
  | cons d n ih =>
    intro c hc
    simp only [cppName, List.mem_append] at hc
    rcases hc with hc | hc
    · by_cases hd : d = '/' ∨ d = '$'
      · rw [if_pos hd] at hc
        have : ∀ c ∈ "::".toList, c = ':' := by decide
        exact .inr (this c hc)
      · rw [if_neg hd, List.mem_singleton] at hc
        rw [hc]
        rcases h d (by simp) with h | h
        · exact .inl h
        · exact absurd h hd
    · exact ih (fun x hx => h x (by simp [hx])) c hc

theorem cppClass_chars (fake : Bool) {n : Str} (h : WordName n) : ∀ c ∈ cppClass fake n, wordChar c = true ∨ c = ':' := by
  have hj : ∀ c ∈ "jnivm::".toList, wordChar c = true ∨ c = ':' := by decide +kernel
  have base : ∀ c ∈ "jnivm::".toList ++ cppName n, wordChar c = true ∨ c = ':' := by
    intro c hc
    rcases List.mem_append.1 hc with hc | hc
    · exact hj c hc
    · exact cppName_chars h c hc
  have f : ∀ s ∈ ["FakeJni::JString".toList, "FakeJni::JObject".toList, "FakeJni::JThrowable".toList,
      "FakeJni::JClass".toList, "FakeJni::JWeak".toList], ∀ c ∈ s, wordChar c = true ∨ c = ':' := by decide +kernel
  unfold cppClass
  cases fake with
  | false => exact base
  | true =>
    simp only [if_true]
    split
    · exact f _ (by simp)
    · split
      · exact f _ (by simp)
      · split
        · exact f _ (by simp)
        · split
          · exact f _ (by simp)
          · split
            · exact f _ (by simp)
            · exact base

theorem typeChar_of {c : Char} (h : wordChar c = true ∨ c = ':') : typeChar c = true := by
  rcases h with h | rfl
  · simp [typeChar, h]
  · decide

theorem cppBare_chars (fake : Bool) : ∀ {t : Ty}, (∀ n ∈ t.classNames, WordName n) →
    ∀ c ∈ cppBare fake t, typeChar c = true := by
  have hp : ∀ fake p, ∀ c ∈ cppPrim fake p, typeChar c = true := by
    intro fake p
    cases fake <;> cases p <;> decide +kernel
  have hl : ∀ s ∈ ["jnivm::Array<".toList, "FakeJni::JArray<".toList, ">".toList, "Array".toList],
      ∀ c ∈ s, typeChar c = true := by decide +kernel
  intro t
  induction t with
  | prim p => exact fun _ => hp fake p
  | cls n => exact fun h c hc => typeChar_of (cppClass_chars fake (h n (by simp [Ty.classNames])) c hc)
  | arr t ih =>
    intro h c hc
    cases t with
    | prim p =>
      unfold cppBare at hc
      cases fake with
      | true =>
        simp only [if_true, List.mem_append] at hc
        rcases hc with hc | hc
        · exact hp _ _ c hc
        · exact hl _ (by simp) c hc
      | false =>
        simp only [Bool.false_eq_true, if_false, List.mem_append] at hc
        rcases hc with (hc | hc) | hc
        · exact hl _ (by simp) c hc
        · exact hp _ _ c hc
        · exact hl _ (by simp) c hc
    | cls n =>
      unfold cppBare at hc
      simp only [List.mem_append] at hc
      rcases hc with (hc | hc) | hc
      · cases fake
        · exact hl _ (by simp) c hc
        · exact hl _ (by simp) c hc
      · exact ih h c hc
      · exact hl _ (by simp) c hc
    | arr u =>
      unfold cppBare at hc
      simp only [List.mem_append] at hc
      rcases hc with (hc | hc) | hc
      · cases fake
        · exact hl _ (by simp) c hc
        · exact hl _ (by simp) c hc
      · exact ih h c hc
      · exact hl _ (by simp) c hc

theorem cppType_chars (fake : Bool) {t : Ty} (h : ∀ n ∈ t.classNames, WordName n) :
    ∀ c ∈ cppType fake t, typeChar c = true := by
  have hl : ∀ s ∈ ["std::shared_ptr<".toList, ">".toList], ∀ c ∈ s, typeChar c = true := by decide +kernel
  cases t with
  | prim p => exact cppBare_chars fake h
  | cls n =>
    intro c hc
    simp only [cppType, List.mem_append] at hc
    rcases hc with (hc | hc) | hc
    · exact hl _ (by simp) c hc
    · exact cppBare_chars fake h c hc
    · exact hl _ (by simp) c hc
  | arr u =>
    intro c hc
    simp only [cppType, List.mem_append] at hc
    rcases hc with (hc | hc) | hc
    · exact hl _ (by simp) c hc
    · exact cppBare_chars fake h c hc
    · exact hl _ (by simp) c hc

theorem cppType_ne (fake : Bool) (t : Ty) : cppType fake t ≠ [] := by
  cases t with
  | prim p => cases fake <;> cases p <;> decide +kernel
  | cls n => simp [cppType]
  | arr u => simp [cppType]

/-- The C++ type of an object or value, classes by number. -/
def bareOf (num : Str → Nat) : Ty → CppClass
  | .prim p => .prim p
  | .cls n => .cls (num n)
  | .arr t => .arr (bareOf num t)

/-- The C++ type of a parameter. -/
def typeOf (num : Str → Nat) : Ty → CppTy
  | .prim p => .data .value (.prim p)
  | t => .data .shared (bareOf num t)

/-- The C++ type of a result. -/
def retOf (num : Str → Nat) : Option Ty → CppTy
  | none => .void
  | some t => typeOf num t

theorem lookup_prim (fake : Bool) (p : Prim) : cppPrims.lookup (cppPrim fake p) = some p := by
  cases fake <;> cases p <;> decide +kernel

theorem words_lack (c : Char) (hc : c = '<' ∨ c = '*' ∨ c = ' ') :
    (∀ e ∈ cppPrims, c ∉ e.1) ∧ ∀ e ∈ cppArrays, c ∉ e.1 := by
  rcases hc with rfl | rfl | rfl <;> decide +kernel

theorem readBare_word {N : CppNames} {fake : Bool} {n : Str} (hn : WordName n) (k : Nat) :
    readBare N (k + 1) (cppClass fake n) = (N.cls (cppClass fake n)).map .cls := by
  have lack : '<' ∉ cppClass fake n := by
    intro hc
    rcases cppClass_chars fake hn _ hc with h | h
    · exact absurd h (by decide)
    · exact absurd h (by decide)
  have hw : cppPrims.lookup (cppClass fake n) = none ∧ cppArrays.lookup (cppClass fake n) = none := by
    have base : cppPrims.lookup ("jnivm::".toList ++ cppName n) = none ∧
        cppArrays.lookup ("jnivm::".toList ++ cppName n) = none := by
      have ht : (∀ e ∈ cppPrims, after "jnivm::".toList e.1 = none) ∧
          ∀ e ∈ cppArrays, after "jnivm::".toList e.1 = none := by decide +kernel
      refine ⟨lookup_none fun e he hx => ?_, lookup_none fun e he hx => ?_⟩
      · have := ht.1 e he
        rw [hx, after_append] at this
        cases this
      · have := ht.2 e he
        rw [hx, after_append] at this
        cases this
    have f : ∀ s ∈ ["FakeJni::JString".toList, "FakeJni::JObject".toList, "FakeJni::JThrowable".toList,
      "FakeJni::JClass".toList, "FakeJni::JWeak".toList], cppPrims.lookup s = none ∧ cppArrays.lookup s = none := by
        decide +kernel
    unfold cppClass
    cases fake with
    | false => exact base
    | true =>
      simp only [if_true]
      split
      · exact f _ (by simp)
      · split
        · exact f _ (by simp)
        · split
          · exact f _ (by simp)
          · split
            · exact f _ (by simp)
            · split
              · exact f _ (by simp)
              · exact base
  unfold readBare
  rw [hw.1, hw.2, between_none (after_lacks (c := '<') (by decide) lack),
    between_none (after_lacks (c := '<') (by decide) lack)]

theorem readBare_class {N : CppNames} {fake : Bool} {n : Str} {x : Nat} (hn : WordName n)
    (h : N.cls (cppClass fake n) = some x) (k : Nat) : readBare N (k + 1) (cppClass fake n) = some (.cls x) := by
  rw [readBare_word hn, h, Option.map_some]

theorem readBare_arr {N : CppNames} (fake : Bool) (i : Str) (k : Nat) :
    readBare N (k + 1) ((if fake then "FakeJni::JArray<".toList else "jnivm::Array<".toList) ++ i ++ ">".toList) =
      (readBare N k i).map .arr := by
  have hw : ∀ s : Str, '<' ∈ s → cppPrims.lookup s = none ∧ cppArrays.lookup s = none := by
    intro s hs
    refine ⟨lookup_none fun e he hx => ?_, lookup_none fun e he hx => ?_⟩
    · exact (words_lack '<' (.inl rfl)).1 e he (by rw [hx]; exact hs)
    · exact (words_lack '<' (.inl rfl)).2 e he (by rw [hx]; exact hs)
  cases fake with
  | false =>
    simp only [Bool.false_eq_true, if_false]
    obtain ⟨h1, h2⟩ := hw ("jnivm::Array<".toList ++ i ++ ">".toList)
      (by rw [List.append_assoc]; exact List.mem_append_left _ (by decide))
    conv => lhs; unfold readBare
    rw [h1, h2, between_append]
  | true =>
    simp only [if_true]
    obtain ⟨h1, h2⟩ := hw ("FakeJni::JArray<".toList ++ i ++ ">".toList)
      (by rw [List.append_assoc]; exact List.mem_append_left _ (by decide))
    have h3 : after "jnivm::Array<".toList ("FakeJni::JArray<".toList ++ i ++ ">".toList) = none := by
      have e1 : "jnivm::Array<".toList = 'j' :: "nivm::Array<".toList := by decide +kernel
      have e2 : "FakeJni::JArray<".toList = 'F' :: "akeJni::JArray<".toList := by decide +kernel
      rw [e1, e2]
      rfl
    conv => lhs; unfold readBare
    rw [h1, h2, between_none h3, between_append]

theorem readBare_array {N : CppNames} (fake : Bool) {i : Str} {k : Nat} {x : CppClass} (h : readBare N k i = some x) :
    readBare N (k + 1) ((if fake then "FakeJni::JArray<".toList else "jnivm::Array<".toList) ++ i ++ ">".toList) =
      some (.arr x) := by
  rw [readBare_arr, h, Option.map_some]

theorem readBare_cpp {N : CppNames} {fake : Bool} {num : Str → Nat} : ∀ {t : Ty},
    (∀ n ∈ t.classNames, WordName n ∧ N.cls (cppClass fake n) = some (num n)) →
    ∀ k, (cppBare fake t).length < k → readBare N k (cppBare fake t) = some (bareOf num t) := by
  have hprim : ∀ p k, readBare N (k + 1) (cppPrim fake p) = some (.prim p) := by
    intro p k
    unfold readBare
    rw [lookup_prim]
  intro t
  induction t with
  | prim p =>
    intro _ k hk
    obtain ⟨k, rfl⟩ : ∃ j, k = j + 1 := ⟨k - 1, by omega⟩
    exact hprim p k
  | cls n =>
    intro h k hk
    obtain ⟨k, rfl⟩ : ∃ j, k = j + 1 := ⟨k - 1, by omega⟩
    exact readBare_class (h n (by simp [Ty.classNames])).1 (h n (by simp [Ty.classNames])).2 k
  | arr t ih =>
    intro h k hk
    have step : cppBare fake (.arr t) =
        (if fake then "FakeJni::JArray<".toList else "jnivm::Array<".toList) ++ cppBare fake t ++ ">".toList →
        readBare N k (cppBare fake (.arr t)) = some (bareOf num (.arr t)) := by
      intro e
      have hlen : (cppBare fake t).length + 1 ≤ (cppBare fake (.arr t)).length := by
        rw [e]
        simp only [List.length_append]
        have : (">".toList).length = 1 := by decide
        omega
      obtain ⟨k, rfl⟩ : ∃ j, k = j + 1 := ⟨k - 1, by omega⟩
      rw [e]
      exact readBare_array fake (ih h k (by omega))
    cases t with
    | cls n => exact step rfl
    | arr u => exact step rfl
    | prim p =>
      cases fake with
      | false => exact step rfl
      | true =>
        obtain ⟨k, rfl⟩ : ∃ j, k = j + 1 := ⟨k - 1, by omega⟩
        have e : cppBare true (.arr (.prim p)) = cppPrim true p ++ "Array".toList := rfl
        have h1 : cppPrims.lookup (cppPrim true p ++ "Array".toList) = none ∧
            cppArrays.lookup (cppPrim true p ++ "Array".toList) = some p := by
          cases p <;> decide +kernel
        rw [e]
        unfold readBare
        rw [h1.1, h1.2]
        rfl

theorem readType_cpp {N : CppNames} {fake : Bool} {num : Str → Nat} {t : Ty}
    (h : ∀ n ∈ t.classNames, WordName n ∧ N.cls (cppClass fake n) = some (num n)) :
    readType N (cppType fake t) = some (typeOf num t) := by
  have shared : cppType fake t = "std::shared_ptr<".toList ++ cppBare fake t ++ ">".toList →
      readType N (cppType fake t) = some (.data .shared (bareOf num t)) := by
    intro e
    have hv : cppType fake t ≠ "void".toList := by
      intro hx
      have : '<' ∉ "void".toList := by decide
      rw [← hx, e, List.append_assoc] at this
      exact this (List.mem_append_left _ (by decide))
    unfold readType
    rw [if_neg hv, e, between_append]
    simp only [readBare_cpp h _ (Nat.lt_succ_self _), Option.map_some]
  cases t with
  | cls n => exact shared rfl
  | arr u => exact shared rfl
  | prim p =>
    have e : cppType fake (.prim p) = cppPrim fake p := rfl
    have h1 : cppPrim fake p ≠ "void".toList ∧ between "std::shared_ptr<".toList ">".toList (cppPrim fake p) = none ∧
        before "*".toList (cppPrim fake p) = none := by
      cases fake <;> cases p <;> decide +kernel
    rw [e]
    unfold readType
    rw [if_neg h1.1, h1.2.1, h1.2.2]
    have := readBare_cpp (N := N) (fake := fake) (num := num) (t := .prim p) h _ (Nat.lt_succ_self _)
    have e' : cppBare fake (.prim p) = cppPrim fake p := rfl
    rw [e'] at this
    simp only [this, Option.map_some]
    rfl

theorem readType_ret {N : CppNames} {fake : Bool} {num : Str → Nat} {ret : Option Ty}
    (h : ∀ t, ret = some t → ∀ n ∈ t.classNames, WordName n ∧ N.cls (cppClass fake n) = some (num n)) :
    readType N (cppRet fake ret) = some (retOf num ret) := by
  cases ret with
  | none => exact if_pos rfl
  | some t => exact readType_cpp (h t rfl)

end Jnivm
