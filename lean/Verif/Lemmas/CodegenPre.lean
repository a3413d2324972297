import Verif.Lemmas.CodegenBinding
/-! Lemmas about the forward declarations at the top of the class dump. -/
namespace Jnivm
open Spec

/-! ### Lines -/

theorem track_append (E F : List PreLine) : ∀ st, track st (E ++ F) =
    (track st E).bind fun r => (track r.1 F).map fun q => (q.1, r.2 ++ q.2) := by
  induction E with
  | nil =>
    intro st
    simp only [List.nil_append, track, Option.bind_some]
    cases track st F <;> rfl
  | cons e E ih =>
    intro st
    cases e with
    | opens n => exact ih _
    | declares n =>
      simp only [List.cons_append, track, ih]
      cases track st E with
      | none => rfl
      | some r =>
        simp only [Option.bind_some, Option.map_some]
        cases track r.1 F <;> rfl
    | closes =>
      simp only [List.cons_append, track, ih]
      split <;> rfl

/-- Further open namespaces around do not matter. -/
theorem track_below (E : List PreLine) : ∀ (st : List Str) (r), track st E = some r → ∀ p : List Str,
    ∃ q, track (p ++ st) E = some q ∧ q.1 = p ++ r.1 := by
  induction E with
  | nil => intro st r h p; cases h; exact ⟨_, rfl, rfl⟩
  | cons e E ih =>
    intro st r h p
    cases e with
    | opens n =>
      have := ih _ r h p
      rw [← List.append_assoc] at this
      exact this
    | declares n =>
      unfold track at h ⊢
      obtain ⟨q, hq, rfl⟩ := Option.map_eq_some_iff.1 h
      obtain ⟨q', h1, h2⟩ := ih _ q hq p
      exact ⟨(q'.1, (p ++ st, n) :: q'.2), by rw [h1]; rfl, h2⟩
    | closes =>
      unfold track at h ⊢
      split at h
      · cases h
      · rename_i hne
        rw [if_neg (by simp [hne]), List.dropLast_append_of_ne_nil hne]
        exact ih _ r h p

theorem indentBy_succ (d : Nat) (l : Str) : indentBy (d + 1) l = "    ".toList ++ indentBy d l := by
  unfold indentBy
  rw [show 4 * (d + 1) = 4 * d + 1 + 1 + 1 + 1 by omega]
  rfl

theorem preLines_shift (E : List PreLine) : ∀ st r, track st E = some r →
    preLines (st.length + 1) E = (preLines st.length E).map ("    ".toList ++ ·) := by
  induction E with
  | nil => intro _ _ _; rfl
  | cons e E ih =>
    intro st r h
    cases e with
    | opens n =>
      simp only [preLines, List.map_cons, indentBy_succ]
      have := ih _ r h
      rw [List.length_append, List.length_singleton] at this
      rw [this]
    | declares n =>
      simp only [preLines, List.map_cons, indentBy_succ]
      unfold track at h
      obtain ⟨q, hq, _⟩ := Option.map_eq_some_iff.1 h
      rw [ih st q hq]
    | closes =>
      unfold track at h
      split at h
      · cases h
      · rename_i hne
        have hl : 0 < st.length := List.length_pos_iff.2 hne
        have := ih _ r h
        rw [List.length_dropLast] at this
        simp only [preLines, List.map_cons]
        rw [show st.length + 1 - 1 = st.length - 1 + 1 by omega, this, indentBy_succ]

theorem preLines_append (E F : List PreLine) : ∀ st r, track st E = some r →
    preLines st.length (E ++ F) = preLines st.length E ++ preLines r.1.length F := by
  induction E with
  | nil => intro st r h; cases h; rfl
  | cons e E ih =>
    intro st r h
    cases e with
    | opens n =>
      have := ih _ r h
      rw [List.length_append, List.length_singleton] at this
      simp only [List.cons_append, preLines, this]
    | declares n =>
      unfold track at h
      obtain ⟨q, hq, rfl⟩ := Option.map_eq_some_iff.1 h
      simp only [List.cons_append, preLines, ih st q hq]
    | closes =>
      unfold track at h
      split at h
      · cases h
      · have := ih _ r h
        rw [List.length_dropLast] at this
        simp only [List.cons_append, preLines, this]

theorem joinLines_append {a b : List Str} (ha : a ≠ []) (hb : b ≠ []) :
    joinLines (a ++ b) = joinLines a ++ '\n' :: joinLines b := by
  induction a with
  | nil => exact absurd rfl ha
  | cons x a ih =>
    cases a with
    | nil =>
      cases b with
      | nil => exact absurd rfl hb
      | cons y b => rfl
    | cons y a =>
      have := ih (by simp)
      simp only [List.cons_append] at this ⊢
      rw [joinLines, this, joinLines]
      simp

/-- A line without newline that is not empty. -/
def GoodLine (l : Str) : Prop := '\n' ∉ l ∧ l ≠ []

theorem indent_line {l : Str} (h : '\n' ∉ l) (rest : Str) :
    indent false (l ++ '\n' :: rest) = l ++ '\n' :: indent true rest := by
  induction l with
  | nil => rfl
  | cons c l ih =>
    have hc : c ≠ '\n' := fun e => h (by simp [e])
    rw [List.cons_append, indent, if_neg hc, ih fun hl => h (by simp [hl])]
    rfl

theorem indent_true {l : Str} (h : GoodLine l) (rest : Str) :
    indent true (l ++ rest) = "    ".toList ++ indent false (l ++ rest) := by
  obtain ⟨h1, h2⟩ := h
  cases l with
  | nil => exact absurd rfl h2
  | cons c l =>
    have hc : c ≠ '\n' := fun e => h1 (by simp [e])
    rw [List.cons_append, indent, indent, if_neg hc, if_neg hc]
    rfl

theorem indent_lines : ∀ (ls : List Str), (∀ l ∈ ls, GoodLine l) →
    indent true (joinLines ls) = joinLines (ls.map ("    ".toList ++ ·))
  | [], _ => rfl
  | [x], h => by
    have hx := h x (by simp)
    have := indent_true hx []
    rw [List.append_nil, indent_plain hx.1] at this
    exact this
  | x :: y :: ls, h => by
    have hx := h x (by simp)
    rw [joinLines, indent_true hx, indent_line hx.1, indent_lines (y :: ls) fun l hl => h l (by simp [hl])]
    simp [joinLines]

theorem joinLines_ne {ls : List Str} (h : ∀ l ∈ ls, GoodLine l) (hne : ls ≠ []) : joinLines ls ≠ [] := by
  cases ls with
  | nil => exact absurd rfl hne
  | cons x ls =>
    have := (h x (by simp)).2
    cases ls with
    | nil => exact this
    | cons y ls =>
      rw [joinLines]
      intro e
      exact this (List.append_eq_nil_iff.1 e).1

/-! ### The loop -/

/-- The indentation inside of a namespace; a namespace without name has no block. -/
def nsIndent (name l : Str) : Str := if name = [] then l else "    ".toList ++ l

def nsOpening (name : Str) : Str := if name = [] then [] else "namespace ".toList ++ name ++ " {\n".toList

/-- The state of the loop after these lines. -/
def preAcc (name : Str) (ls : List Str) : Str × Bool :=
  if ls = [] then ([], true) else (nsOpening name ++ joinLines (ls.map (nsIndent name)), false)

theorem nsIndent_lines (name : Str) {ls : List Str} (h : ∀ l ∈ ls, GoodLine l) :
    (if name = [] then joinLines ls else indent true (joinLines ls)) = joinLines (ls.map (nsIndent name)) := by
  by_cases hn : name = []
  · have : nsIndent name = id := by funext l; simp [nsIndent, hn]
    rw [if_pos hn, this, List.map_id]
  · have : nsIndent name = ("    ".toList ++ ·) := by funext l; simp [nsIndent, hn]
    rw [if_neg hn, this, indent_lines ls h]

theorem preStep_lines (name : Str) {a b : List Str} (hb : ∀ l ∈ b, GoodLine l) :
    preStep name (preAcc name a) (joinLines b) = preAcc name (a ++ b) := by
  unfold preStep
  by_cases hbe : b = []
  · subst hbe
    rw [if_pos (by rfl), List.append_nil]
  · rw [if_neg (joinLines_ne hb hbe), nsIndent_lines name hb]
    by_cases ha : a = []
    · subst ha
      unfold preAcc
      simp only [if_true, List.nil_append, if_neg hbe]
      rfl
    · unfold preAcc
      have hab : a ++ b ≠ [] := fun e => ha (List.append_eq_nil_iff.1 e).1
      rw [if_neg ha, if_neg hab]
      simp only [Bool.false_eq_true, if_false, List.map_append]
      rw [joinLines_append (by simpa using ha) (by simpa using hbe)]
      simp only [List.append_assoc]
      rfl

theorem preLoop_lines (name : Str) (xs : List (List Str)) (h : ∀ x ∈ xs, ∀ l ∈ x, GoodLine l) : ∀ a,
    preLoop name (preAcc name a) (xs.map fun x => .ok (joinLines x)) = .ok (preAcc name (a ++ xs.flatten)) := by
  induction xs with
  | nil => intro a; simp [preLoop]
  | cons x xs ih =>
    intro a
    rw [List.map_cons, preLoop, Res.bind_ok, preStep_lines name (h x (by simp)), ih fun y hy => h y (by simp [hy])]
    simp

/-! ### What is declared -/

variable {r : Registry} {π : Nat → List Str} {σ : Nat → List Str × List Str} {w : World}

def topDecl (r : Registry) (c : Nat) : List Str :=
  match r.cls[c]? with
  | none => []
  | some cd => if cd.nativeprefix ∈ blacklisted then [] else [cd.name]

def nsName (r : Registry) (n : Nat) : Str :=
  match r.ns[n]? with
  | none => []
  | some nd => nd.name

/-- The classes below a namespace that are not inner classes: the path and the name. -/
def topList (r : Registry) : Nat → Nat → List (List Str × Str)
  | 0, _ => []
  | d + 1, n =>
    match r.ns[n]? with
    | none => []
    | some nd => nd.classes.flatMap (fun c => (topDecl r c).map fun s => ([], s)) ++
        nd.namespaces.flatMap fun k => (topList r d k).map fun x => (nsName r k :: x.1, x.2)

def preBlock (name : Str) (body : List PreLine) : List PreLine :=
  if body = [] then [] else if name = [] then body else .opens name :: (body ++ [.closes])

def preBody (r : Registry) (f : Nat → List PreLine) (nd : NsNode) : List PreLine :=
  nd.classes.flatMap (fun c => (topDecl r c).map .declares) ++ nd.namespaces.flatMap f

def preEvents (r : Registry) : Nat → Nat → List PreLine
  | 0, _ => []
  | d + 1, n =>
    match r.ns[n]? with
    | none => []
    | some nd => preBlock nd.name (preBody r (preEvents r d) nd)

/-- The namespaces around: those without name do not count. -/
def named (ps : List Str) : List Str := ps.filter (· ≠ [])

theorem track_declares (st : List Str) (l : List Str) :
    track st (l.map .declares) = some (st, l.map fun s => (st, s)) := by
  induction l with
  | nil => rfl
  | cons s l ih => simp [track, ih]

theorem track_flatMap {α : Type} {st : List Str} {f : α → List PreLine} {g : α → List (List Str × Str)} (l : List α)
    (h : ∀ x ∈ l, track st (f x) = some (st, g x)) : track st (l.flatMap f) = some (st, l.flatMap g) := by
  induction l with
  | nil => rfl
  | cons x l ih =>
    rw [List.flatMap_cons, track_append, h x (by simp)]
    simp only [Option.bind_some]
    rw [ih fun y hy => h y (by simp [hy])]
    rfl

theorem track_block {st : List Str} {name : Str} {body : List PreLine} {D : List (List Str × Str)}
    (h : track (st ++ named [name]) body = some (st ++ named [name], D)) (hD : body = [] → D = []) :
    track st (preBlock name body) = some (st, D) := by
  unfold preBlock
  by_cases hb : body = []
  · rw [if_pos hb, hD hb]; rfl
  · rw [if_neg hb]
    by_cases hn : name = []
    · rw [if_pos hn]
      simpa [named, hn] using h
    · rw [if_neg hn, track, track_append]
      have e : named [name] = [name] := by simp [named, hn]
      rw [e] at h
      rw [h]
      simp [track]

theorem preEvents_track (r : Registry) (d : Nat) : ∀ n st, track st (preEvents r d n) =
    some (st, (topList r d n).map fun x => (st ++ named (nsName r n :: x.1), x.2)) := by
  induction d with
  | zero => intro n st; rfl
  | succ d ih =>
    intro n st
    rw [preEvents, topList]
    cases hn : r.ns[n]? with
    | none => rfl
    | some nd =>
      simp only
      have hname : nsName r n = nd.name := by unfold nsName; rw [hn]
      rw [hname]
      have hbody : track (st ++ named [nd.name]) (preBody r (preEvents r d) nd) =
          some (st ++ named [nd.name], ((nd.classes.flatMap (fun c => (topDecl r c).map fun s => (([] : List Str), s)) ++
            nd.namespaces.flatMap fun k => (topList r d k).map fun x => (nsName r k :: x.1, x.2)).map
              fun x => (st ++ named (nd.name :: x.1), x.2))) := by
        unfold preBody
        rw [track_append, track_flatMap (g := fun c => (topDecl r c).map fun s => (st ++ named [nd.name], s)) _
          fun c _ => track_declares _ _]
        simp only [Option.bind_some]
        rw [track_flatMap (g := fun k => (topList r d k).map fun x =>
          (st ++ named [nd.name] ++ named (nsName r k :: x.1), x.2)) _ fun k _ => ih k _]
        simp only [Option.map_some]
        refine congrArg (fun q => some (st ++ named [nd.name], q)) ?_
        rw [List.map_append, List.map_flatMap, List.map_flatMap]
        refine congr (congrArg _ ?_) ?_
        · apply flatMap_eq
          intro c _
          rw [List.map_map]
          rfl
        · apply flatMap_eq
          intro k _
          rw [List.map_map]
          apply List.map_congr_left
          intro x _
          have e : ∀ a b : List Str, named (a ++ b) = named a ++ named b := fun a b => by simp [named]
          simp only [Function.comp]
          rw [List.append_assoc, ← e]
          rfl
      refine track_block hbody fun hb => ?_
      rw [hb] at hbody
      have := (Prod.mk.inj (Option.some.inj hbody)).2
      exact this.symm

theorem topList_of_events (r : Registry) (d : Nat) : ∀ n, preEvents r d n ≠ [] → topList r d n ≠ [] := by
  induction d with
  | zero => intro n h; exact absurd rfl h
  | succ d ih =>
    intro n h
    rw [preEvents] at h
    rw [topList]
    cases hn : r.ns[n]? with
    | none => rw [hn] at h; exact absurd rfl h
    | some nd =>
      rw [hn] at h
      simp only at h ⊢
      intro e
      obtain ⟨e1, e2⟩ := List.append_eq_nil_iff.1 e
      rw [List.flatMap_eq_nil_iff] at e1 e2
      apply h
      have hb : preBody r (preEvents r d) nd = [] := by
        unfold preBody
        rw [List.append_eq_nil_iff, List.flatMap_eq_nil_iff, List.flatMap_eq_nil_iff]
        refine ⟨fun c hc => ?_, fun k hk => ?_⟩
        · have := e1 c hc
          rw [List.map_eq_nil_iff] at this ⊢
          exact this
        · have := e2 k hk
          rw [List.map_eq_nil_iff] at this
          exact Classical.byContradiction fun hne => ih k hne this
      rw [hb]; rfl

/-! ### Which namespaces are opened -/

theorem opened_append (E F : List PreLine) : ∀ st r, track st E = some r →
    opened st (E ++ F) = opened st E ++ opened r.1 F := by
  induction E with
  | nil => intro st r h; cases h; rfl
  | cons e E ih =>
    intro st r h
    cases e with
    | opens n => rw [List.cons_append, opened, opened, ih _ r h, List.cons_append]
    | declares n =>
      unfold track at h
      obtain ⟨q, hq, rfl⟩ := Option.map_eq_some_iff.1 h
      rw [List.cons_append, opened, opened, ih st q hq]
    | closes =>
      unfold track at h
      split at h
      · cases h
      · rw [List.cons_append, opened, opened, ih _ r h]

theorem opened_flatMap {α : Type} {st : List Str} {f : α → List PreLine} {g : α → List (List Str × Str)} (l : List α)
    (h : ∀ x ∈ l, track st (f x) = some (st, g x)) : opened st (l.flatMap f) = l.flatMap fun x => opened st (f x) := by
  induction l with
  | nil => rfl
  | cons x l ih =>
    rw [List.flatMap_cons, List.flatMap_cons, opened_append _ _ _ _ (h x (by simp)), ih fun y hy => h y (by simp [hy])]

theorem opened_declares (st : List Str) (l : List Str) : opened st (l.map .declares) = [] := by
  induction l with
  | nil => rfl
  | cons s l ih => rw [List.map_cons, opened, ih]

theorem preEvents_opened (r : Registry) (d : Nat) : ∀ n st, ∀ q ∈ opened st (preEvents r d n),
    ∃ x ∈ topList r d n, q <+: st ++ named (nsName r n :: x.1) := by
  induction d with
  | zero => intro n st q hq; cases hq
  | succ d ih =>
    intro n st q hq
    have hne : preEvents r (d + 1) n ≠ [] := by intro e; rw [e] at hq; cases hq
    obtain ⟨x0, hx0⟩ := List.exists_mem_of_ne_nil _ (topList_of_events r (d + 1) n hne)
    rw [preEvents] at hq
    cases hn : r.ns[n]? with
    | none => rw [hn] at hq; cases hq
    | some nd =>
      rw [hn] at hq
      simp only at hq
      have hname : nsName r n = nd.name := by unfold nsName; rw [hn]
      rw [hname]
      have e : ∀ a b : List Str, named (a ++ b) = named a ++ named b := fun a b => by simp [named]
      have hbody : ∀ q ∈ opened (st ++ named [nd.name]) (preBody r (preEvents r d) nd),
          ∃ x ∈ topList r (d + 1) n, q <+: st ++ named (nd.name :: x.1) := by
        intro q hq
        unfold preBody at hq
        rw [opened_append _ _ _ _ (track_flatMap (g := fun c => (topDecl r c).map fun s => (st ++ named [nd.name], s)) _
          fun c _ => track_declares _ _), opened_flatMap _ fun c _ => track_declares _ _] at hq
        rw [opened_flatMap _ fun k _ => preEvents_track r d k _] at hq
        rcases List.mem_append.1 hq with hq | hq
        · obtain ⟨c, _, hq⟩ := List.mem_flatMap.1 hq
          rw [opened_declares] at hq
          cases hq
        · obtain ⟨k, hk, hq⟩ := List.mem_flatMap.1 hq
          obtain ⟨x, hx, hp⟩ := ih k _ q hq
          refine ⟨(nsName r k :: x.1, x.2), ?_, ?_⟩
          · rw [topList, hn]
            exact List.mem_append_right _ (List.mem_flatMap.2 ⟨k, hk, List.mem_map.2 ⟨x, hx, rfl⟩⟩)
          · rw [List.append_assoc, ← e] at hp
            exact hp
      unfold preBlock at hq
      split at hq
      · cases hq
      · split at hq
        · rename_i h
          apply hbody
          rw [h]
          simpa [named] using hq
        · rename_i h
          have en : named [nd.name] = [nd.name] := by simp [named, h]
          rw [opened, List.mem_cons] at hq
          rcases hq with rfl | hq
          · refine ⟨x0, hx0, ?_⟩
            rw [show nd.name :: x0.1 = [nd.name] ++ x0.1 from rfl, e, en, ← List.append_assoc]
            exact List.prefix_append _ _
          · have hE := preEvents_track r (d + 1) n st
            rw [preEvents, hn] at hE
            simp only at hE
            unfold preBlock at hE
            rename_i hb
            rw [if_neg hb, if_neg h, track, track_append] at hE
            cases hT : track (st ++ [nd.name]) (preBody r (preEvents r d) nd) with
            | none => rw [hT] at hE; cases hE
            | some t =>
              rw [opened_append _ _ _ _ hT] at hq
              have : opened t.1 [PreLine.closes] = [] := rfl
              rw [this, List.append_nil, ← en] at hq
              exact hbody q hq

/-! ### The text -/

/-- No name in the lines contains a newline. -/
def CleanLines (E : List PreLine) : Prop := ∀ n, PreLine.opens n ∈ E ∨ PreLine.declares n ∈ E → '\n' ∉ n

theorem cleanLines_good {E : List PreLine} (h : CleanLines E) : ∀ d, ∀ l ∈ preLines d E, GoodLine l := by
  have hi : ∀ d l, GoodLine l → GoodLine (indentBy d l) := by
    intro d l ⟨h1, h2⟩
    refine ⟨?_, fun e => h2 (List.append_eq_nil_iff.1 e).2⟩
    unfold indentBy
    rw [List.mem_append, not_or]
    exact ⟨fun hc => absurd (List.eq_of_mem_replicate hc) (by decide), h1⟩
  induction E with
  | nil => intro d l hl; cases hl
  | cons e E ih =>
    intro d l hl
    have ih := ih fun n hn => h n (by rcases hn with hn | hn <;> simp [hn])
    cases e with
    | opens n =>
      have hn := h n (by simp)
      rcases List.mem_cons.1 hl with rfl | hl
      · apply hi
        refine ⟨?_, by simp⟩
        have : '\n' ∉ "namespace ".toList ∧ '\n' ∉ " {".toList := by decide
        simp only [List.mem_append, not_or]
        exact ⟨⟨this.1, hn⟩, this.2⟩
      · exact ih _ l hl
    | declares n =>
      have hn := h n (by simp)
      rcases List.mem_cons.1 hl with rfl | hl
      · apply hi
        refine ⟨?_, by simp⟩
        have : '\n' ∉ "class ".toList ∧ '\n' ∉ ";".toList := by decide
        simp only [List.mem_append, not_or]
        exact ⟨⟨this.1, hn⟩, this.2⟩
      · exact ih _ l hl
    | closes =>
      rcases List.mem_cons.1 hl with rfl | hl
      · exact hi _ _ (by unfold GoodLine; decide)
      · exact ih _ l hl

/-- The names of the classes below a namespace, and its own, contain no newline. -/
def CleanBelow (r : Registry) (d n : Nat) : Prop :=
  ∀ x ∈ topList r d n, '\n' ∉ nsName r n ∧ (∀ q ∈ x.1, '\n' ∉ q) ∧ '\n' ∉ x.2

theorem CleanBelow.kid {d n k : Nat} {nd : NsNode} (h : CleanBelow r (d + 1) n) (hn : r.ns[n]? = some nd)
    (hk : k ∈ nd.namespaces) : CleanBelow r d k := by
  intro x hx
  have hm : (nsName r k :: x.1, x.2) ∈ topList r (d + 1) n := by
    rw [topList, hn]
    exact List.mem_append_right _ (List.mem_flatMap.2 ⟨k, hk, List.mem_map.2 ⟨x, hx, rfl⟩⟩)
  obtain ⟨_, h2, h3⟩ := h _ hm
  exact ⟨h2 _ (by simp), fun q hq => h2 q (by simp [hq]), h3⟩

theorem preEvents_clean (r : Registry) (d : Nat) : ∀ n, CleanBelow r d n → CleanLines (preEvents r d n) := by
  induction d with
  | zero => intro n _ m hm; simp [preEvents] at hm
  | succ d ih =>
    intro n h
    by_cases he : preEvents r (d + 1) n = []
    · rw [he]; intro m hm; simp at hm
    · obtain ⟨x, hx⟩ := List.exists_mem_of_ne_nil _ (topList_of_events r (d + 1) n he)
      have hname := (h x hx).1
      rw [preEvents]
      cases hn : r.ns[n]? with
      | none => intro m hm; simp at hm
      | some nd =>
        have e : nsName r n = nd.name := by unfold nsName; rw [hn]
        rw [e] at hname
        simp only
        have hb : CleanLines (preBody r (preEvents r d) nd) := by
          intro m hm
          have : m ∈ nd.classes.flatMap (topDecl r) ∨ ∃ k ∈ nd.namespaces,
              PreLine.opens m ∈ preEvents r d k ∨ PreLine.declares m ∈ preEvents r d k := by
            unfold preBody at hm
            simp only [List.mem_append, List.mem_flatMap, List.mem_map] at hm ⊢
            rcases hm with (⟨c, _, s, _, hs⟩ | ⟨k, hk, hm⟩) | (⟨c, hc, s, hs, e⟩ | ⟨k, hk, hm⟩)
            · cases hs
            · exact .inr ⟨k, hk, .inl hm⟩
            · cases e; exact .inl ⟨c, hc, hs⟩
            · exact .inr ⟨k, hk, .inr hm⟩
          rcases this with hm | ⟨k, hk, hm⟩
          · obtain ⟨c, hc, hs⟩ := List.mem_flatMap.1 hm
            have : (([] : List Str), m) ∈ topList r (d + 1) n := by
              rw [topList, hn]
              exact List.mem_append_left _ (List.mem_flatMap.2 ⟨c, hc, List.mem_map.2 ⟨m, hs, rfl⟩⟩)
            exact (h _ this).2.2
          · exact ih k (h.kid hn hk) m hm
        unfold preBlock
        split
        · intro m hm; simp at hm
        · split
          · exact hb
          · intro m hm
            simp only [List.mem_cons, List.mem_append, List.not_mem_nil, or_false, PreLine.opens.injEq,
              reduceCtorEq, false_or] at hm
            rcases hm with (rfl | hm) | hm
            · exact hname
            · exact hb m (.inl hm)
            · exact hb m (.inr hm)

theorem preLines_flatMap {α : Type} (f : α → List PreLine) (l : List α) (h : ∀ x ∈ l, ∃ D, track [] (f x) = some ([], D)) :
    preLines 0 (l.flatMap f) = (l.map fun x => preLines 0 (f x)).flatten := by
  induction l with
  | nil => rfl
  | cons x l ih =>
    obtain ⟨D, hD⟩ := h x (by simp)
    rw [List.flatMap_cons, List.map_cons, List.flatten_cons, ← ih fun y hy => h y (by simp [hy])]
    exact preLines_append _ _ [] _ hD

theorem classPre_lines {c : Nat} {cd : ClassNode} (h : w.reg.cls[c]? = some cd) :
    classPre w c = .ok (joinLines (preLines 0 ((topDecl w.reg c).map .declares))) := by
  unfold classPre topDecl
  rw [withClass_some h]
  simp only [h]
  split
  · rfl
  · rfl

theorem nsPre_lines (inv : TreeInv w.reg π σ) {B : Nat} (hB : Bound w.reg π σ B) (d : Nat) :
    ∀ n nd, w.reg.ns[n]? = some nd → 2 * B < d + (π n).length → CleanBelow w.reg d n →
      nsPre w d n = .ok (joinLines (preLines 0 (preEvents w.reg d n))) := by
  induction d with
  | zero =>
    intro n nd hn hf _
    obtain ⟨d', e, _⟩ := fuel_ns inv hB hn hf
    omega
  | succ d ih =>
    intro n nd hn hf hclean
    obtain ⟨d', e, hc, hk⟩ := fuel_ns inv hB hn hf
    cases e
    have hgood := cleanLines_good (preEvents_clean w.reg (d + 1) n hclean) 0
    have hcleanE := preEvents_clean w.reg (d + 1) n hclean
    rw [nsPre, withNs_some hn]
    -- the texts of the parts
    have htexts : nd.classes.map (classPre w) ++ nd.namespaces.map (nsPre w d) =
        (nd.classes.map (fun c => preLines 0 ((topDecl w.reg c).map .declares)) ++
          nd.namespaces.map fun k => preLines 0 (preEvents w.reg d k)).map fun x => .ok (joinLines x) := by
      rw [List.map_append, List.map_map, List.map_map]
      refine congr (congrArg _ ?_) ?_
      · apply List.map_congr_left
        intro c hcm
        obtain ⟨cd, h1, _⟩ := hc c hcm
        exact classPre_lines h1
      · apply List.map_congr_left
        intro k hkm
        obtain ⟨kd, h1, h2⟩ := hk k hkm
        exact ih k kd h1 h2 (hclean.kid hn hkm)
    have hflat : (nd.classes.map (fun c => preLines 0 ((topDecl w.reg c).map .declares)) ++
          nd.namespaces.map fun k => preLines 0 (preEvents w.reg d k)).flatten =
        preLines 0 (preBody w.reg (preEvents w.reg d) nd) := by
      rw [List.flatten_append]
      unfold preBody
      have t1 := track_flatMap (st := []) (g := fun c => (topDecl w.reg c).map fun s => (([] : List Str), s)) nd.classes
        fun c _ => track_declares [] (topDecl w.reg c)
      have := preLines_append _ (nd.namespaces.flatMap (preEvents w.reg d)) [] _ t1
      refine Eq.trans ?_ this.symm
      refine congr (congrArg _ ?_) ?_
      · exact (preLines_flatMap _ _ fun c _ => ⟨_, track_declares [] _⟩).symm
      · exact (preLines_flatMap _ _ fun k _ => ⟨_, preEvents_track w.reg d k []⟩).symm
    have hE : preEvents w.reg (d + 1) n = preBlock nd.name (preBody w.reg (preEvents w.reg d) nd) := by
      rw [preEvents, hn]
    rw [hE] at hcleanE hgood ⊢
    have hbody : CleanLines (preBody w.reg (preEvents w.reg d) nd) := by
      intro m hm
      apply hcleanE
      unfold preBlock
      have hne : preBody w.reg (preEvents w.reg d) nd ≠ [] := by
        intro e; rw [e] at hm; simp at hm
      rw [if_neg hne]
      split
      · exact hm
      · rcases hm with hm | hm <;> simp [hm]
    have hbg := cleanLines_good hbody 0
    rw [htexts]
    have hacc : (([], true) : Str × Bool) = preAcc nd.name [] := rfl
    rw [hacc, preLoop_lines nd.name _ (by
      intro x hx l hl
      apply hbg l
      rw [← hflat]
      exact List.mem_flatten.2 ⟨x, hx, hl⟩) [], List.nil_append, hflat, Res.bind_ok]
    refine congrArg Res.ok ?_
    obtain ⟨D, hD⟩ : ∃ D, track [] (preBody w.reg (preEvents w.reg d) nd) = some ([], D) := by
      unfold preBody
      rw [track_append, track_flatMap (g := fun c => (topDecl w.reg c).map fun s => (([] : List Str), s)) _
          fun c _ => track_declares _ _]
      simp only [Option.bind_some]
      rw [track_flatMap _ fun k _ => preEvents_track w.reg d k []]
      exact ⟨_, rfl⟩
    generalize preBody w.reg (preEvents w.reg d) nd = body at hD hbg
    unfold preBlock preAcc
    by_cases hb : body = []
    · subst hb; rfl
    · rw [if_neg hb]
      have hln : preLines 0 body ≠ [] := by
        cases body with
        | nil => exact absurd rfl hb
        | cons e body => cases e <;> simp [preLines]
      rw [if_neg hln]
      by_cases hname : nd.name = []
      · rw [if_pos hname]
        have e1 : nsIndent nd.name = id := by funext l; simp [nsIndent, hname]
        rw [e1, List.map_id]
        simp [nsOpening, hname]
      · rw [if_neg hname]
        have e1 : nsIndent nd.name = ("    ".toList ++ ·) := by funext l; simp [nsIndent, hname]
        simp only [Bool.not_false, Bool.true_and, hname, ne_eq, not_false_eq_true, decide_true, if_true]
        have e2 : preLines 0 (PreLine.opens nd.name :: (body ++ [PreLine.closes])) =
            ["namespace ".toList ++ nd.name ++ " {".toList] ++ (preLines 0 body).map ("    ".toList ++ ·) ++ ["}".toList] := by
          rw [preLines]
          have hD' : ∃ r, track [nd.name] body = some r ∧ r.1 = [nd.name] := by
            obtain ⟨q, h1, h2⟩ := track_below body [] _ hD [nd.name]
            exact ⟨q, h1, h2⟩
          obtain ⟨r, h1, h2⟩ := hD'
          have h3 := preLines_append body [PreLine.closes] [nd.name] r h1
          rw [h2] at h3
          have h4 := preLines_shift body [] _ hD
          simp only [List.length_nil, Nat.zero_add] at h4
          simp only [List.length_singleton] at h3
          rw [Nat.zero_add, h3, h4]
          simp [indentBy, preLines]
        rw [e2, e1]
        have hmn : (preLines 0 body).map ("    ".toList ++ ·) ≠ [] := by
          rw [Ne, List.map_eq_nil_iff]; exact hln
        rw [joinLines_append (by simp) (by simp), joinLines_append (by simp) hmn]
        unfold nsOpening
        rw [if_neg hname]
        show "namespace ".toList ++ nd.name ++ " {\n".toList ++ _ ++ _ = ("namespace ".toList ++ nd.name ++ " {".toList) ++ _ ++ _
        simp only [List.append_assoc]
        refine congrArg (fun x => "namespace ".toList ++ (nd.name ++ x)) ?_
        simp only [show " {\n".toList = " {".toList ++ ['\n'] by decide, show "\n}".toList = '\n' :: "}".toList by decide, List.append_assoc]
        rfl

/-! ### Which classes are declared -/

theorem topList_sound (inv : TreeInv r π σ) (sib : SibInv r) (d : Nat) :
    ∀ (ps : List Str) (n : Nat) (nd : NsNode), r.nsAt ps = some n → r.ns[n]? = some nd →
      ∀ x ∈ topList r d n, ∃ c cd, r.clsAt (ps ++ x.1) [x.2] = some c ∧ r.cls[c]? = some cd ∧
        cd.nativeprefix ∉ blacklisted := by
  induction d with
  | zero => intro _ _ _ _ _ x hx; simp [topList] at hx
  | succ d ih =>
    intro ps n nd hat hn x hx
    rw [topList, hn] at hx
    rcases List.mem_append.1 hx with hx | hx
    · obtain ⟨c, hc, hx⟩ := List.mem_flatMap.1 hx
      obtain ⟨s, hs, rfl⟩ := List.mem_map.1 hx
      obtain ⟨cd, hcd, _⟩ := inv.nsClasses n nd hn c hc
      unfold topDecl at hs
      rw [hcd] at hs
      simp only at hs
      split at hs
      · cases hs
      · rename_i hb
        rw [List.mem_singleton] at hs
        subst hs
        refine ⟨c, cd, ?_, hcd, hb⟩
        rw [List.append_nil]
        exact clsAt_of_ns sib hat hn hc hcd
    · obtain ⟨k, hk, hx⟩ := List.mem_flatMap.1 hx
      obtain ⟨y, hy, rfl⟩ := List.mem_map.1 hx
      obtain ⟨kd, hkd, _⟩ := inv.nsKids n nd hn k hk
      have hat' := nsAt_kid sib hat hn hk hkd
      have e : nsName r k = kd.name := by unfold nsName; rw [hkd]
      have := ih _ k kd hat' hkd y hy
      simp only
      rw [e, show ps ++ kd.name :: y.1 = ps ++ [kd.name] ++ y.1 by simp]
      exact this

theorem topList_complete (qs : List Str) : ∀ (d : Nat) (ps : List Str) (n : Nat) (nd : NsNode) (s : Str) (c : Nat)
    (cd : ClassNode), qs.length < d → r.nsAt ps = some n → r.ns[n]? = some nd → r.clsAt (ps ++ qs) [s] = some c →
      r.cls[c]? = some cd → cd.nativeprefix ∉ blacklisted → (qs, s) ∈ topList r d n := by
  induction qs with
  | nil =>
    intro d ps n nd s c cd hd hat hn h1 h2 h3
    cases d with
    | zero => cases hd
    | succ d =>
      rw [List.append_nil, clsAt_one, hat, Option.bind_some] at h1
      obtain ⟨h6, cd', h7, h8⟩ := nsClass_mem hn h1
      rw [h2] at h7; cases h7
      rw [topList, hn]
      refine List.mem_append_left _ (List.mem_flatMap.2 ⟨c, h6, List.mem_map.2 ⟨s, ?_, rfl⟩⟩)
      unfold topDecl
      rw [h2]
      simp only
      rw [if_neg h3, h8]
      simp
  | cons x qs ih =>
    intro d ps n nd s c cd hd hat hn h1 h2 h3
    cases d with
    | zero => cases hd
    | succ d =>
      rw [show ps ++ x :: qs = (ps ++ [x]) ++ qs by simp] at h1
      obtain ⟨n', y, cs', e', h4, c', h5⟩ := clsAt_ns h1
      obtain ⟨m, hm⟩ := nsAt_prefix h4
      have hm' := hm
      rw [nsAt_snoc, hat] at hm'
      obtain ⟨h6, md, h7, h8⟩ := nsChild_mem hn hm'
      rw [topList, hn]
      refine List.mem_append_right _ (List.mem_flatMap.2 ⟨m, h6, List.mem_map.2 ⟨(qs, s), ?_, ?_⟩⟩)
      · simp at hd
        exact ih d (ps ++ [x]) m md s c cd (by omega) hm h7 h1 h2 h3
      · have e : nsName r m = x := by unfold nsName; rw [h7]; exact h8
        rw [e]

theorem topList_nodup (inv : TreeInv r π σ) (sib : SibInv r) (d : Nat) :
    ∀ (ps : List Str) (n : Nat) (nd : NsNode), r.nsAt ps = some n → r.ns[n]? = some nd → (topList r d n).Nodup := by
  induction d with
  | zero => intro _ _ _ _ _; exact List.Pairwise.nil
  | succ d ih =>
    intro ps n nd hat hn
    rw [topList, hn]
    simp only
    unfold List.Nodup
    rw [List.pairwise_append, List.pairwise_flatMap, List.pairwise_flatMap]
    have hdecl : ∀ c ∈ nd.classes, ∀ x ∈ (topDecl r c).map (fun s => (([] : List Str), s)),
        x.1 = [] ∧ r.nsClass n x.2 = some c := by
      intro c hc x hx
      obtain ⟨s, hs, rfl⟩ := List.mem_map.1 hx
      obtain ⟨cd, hcd, _⟩ := inv.nsClasses n nd hn c hc
      unfold topDecl at hs
      rw [hcd] at hs
      simp only at hs
      split at hs
      · cases hs
      · rw [List.mem_singleton] at hs
        subst hs
        exact ⟨rfl, ((sib.nsClasses n nd hn).2 c hc cd hcd).1⟩
    have hkid : ∀ k ∈ nd.namespaces, ∀ x ∈ (topList r d k).map (fun x => (nsName r k :: x.1, x.2)),
        ∃ y qs, x.1 = y :: qs ∧ r.nsChild n y = some k := by
      intro k hk x hx
      obtain ⟨y, _, rfl⟩ := List.mem_map.1 hx
      obtain ⟨kd, hkd, _⟩ := inv.nsKids n nd hn k hk
      have e : nsName r k = kd.name := by unfold nsName; rw [hkd]
      exact ⟨kd.name, y.1, by rw [e], ((sib.nsKids n nd hn).2 k hk kd hkd).1⟩
    refine ⟨⟨?_, ?_⟩, ⟨?_, ?_⟩, ?_⟩
    · intro c _
      unfold topDecl
      cases r.cls[c]? with
      | none => exact List.Pairwise.nil
      | some cd =>
        simp only
        split
        · exact List.Pairwise.nil
        · exact List.pairwise_singleton _ _
    · refine List.Pairwise.imp_of_mem ?_ (sib.nsClasses n nd hn).1
      intro a b ha hb hab x hx y hy e
      obtain ⟨_, h1⟩ := hdecl a ha x hx
      obtain ⟨_, h2⟩ := hdecl b hb y hy
      rw [e, h2] at h1
      exact hab (Option.some.inj h1).symm
    · intro k hk
      obtain ⟨kd, hkd, _⟩ := inv.nsKids n nd hn k hk
      have := ih _ k kd (nsAt_kid sib hat hn hk hkd) hkd
      rw [List.pairwise_map]
      refine List.Pairwise.imp ?_ this
      rintro ⟨a, b⟩ ⟨a', b'⟩ hne e
      simp only [Prod.mk.injEq, List.cons.injEq, true_and] at e
      exact hne (by rw [e.1, e.2])
    · refine List.Pairwise.imp_of_mem ?_ (sib.nsKids n nd hn).1
      intro a b ha hb hab x hx y hy e
      obtain ⟨u, _, h1, h1'⟩ := hkid a ha x hx
      obtain ⟨v, _, h2, h2'⟩ := hkid b hb y hy
      rw [e, h2] at h1
      rw [← (List.cons.inj h1).1, h2'] at h1'
      exact hab (Option.some.inj h1').symm
    · intro x hx y hy e
      obtain ⟨c, hc, hx⟩ := List.mem_flatMap.1 hx
      obtain ⟨k, hk, hy⟩ := List.mem_flatMap.1 hy
      obtain ⟨h1, _⟩ := hdecl c hc x hx
      obtain ⟨_, _, h2, _⟩ := hkid k hk y hy
      rw [e, h2] at h1
      cases h1

theorem inPackages_join (ps : List Str) (s : Str) : inPackages ps s = joinName (ps, [s]) := rfl

/-- The forward declarations: which classes, and the text. -/
theorem nsPre_root (inv : RegInv w.reg) (hclean : ∀ n c, w.reg.byName.lookup n = some c → '\n' ∉ n) :
    ∃ d0, ∀ d, d0 ≤ d → ∃ (N : List (List Str × Str)) (E : List PreLine),
      N.Nodup ∧
      (∀ ps s, (ps, s) ∈ N ↔ (∀ p ∈ ps, '/' ∉ p) ∧ '/' ∉ s ∧ '$' ∉ s ∧ ∃ c, w.reg.byName.lookup (inPackages ps s) = some c ∧
        Dumped (inPackages ps s)) ∧
      track [] E = some ([], N.map fun x => ("jnivm".toList :: x.1.filter (· ≠ []), x.2)) ∧
      (∀ q ∈ opened [] E, ∃ x ∈ N, q <+: "jnivm".toList :: x.1.filter (· ≠ [])) ∧
      nsPre w d 0 = .ok (joinLines (preLines 0 E)) := by
  obtain ⟨π, σ, hT⟩ := inv.tree
  obtain ⟨B, hB⟩ := exists_bound w.reg π σ
  obtain ⟨B2, hB2⟩ := exists_max (fun c => (σ c).1.length) w.reg.cls.length
  have hroot : w.reg.ns[0]? = some (w.reg.ns[0]'hT.root) := List.getElem?_eq_getElem hT.root
  have hrn := inv.sib.rootName _ hroot
  have hname : nsName w.reg 0 = "jnivm".toList := by unfold nsName; rw [hroot]; exact hrn
  refine ⟨2 * B + B2 + 1, fun d hd => ?_⟩
  have hmem : ∀ ps s, (ps, s) ∈ topList w.reg d 0 ↔ (∀ p ∈ ps, '/' ∉ p) ∧ '/' ∉ s ∧ '$' ∉ s ∧
      ∃ c, w.reg.byName.lookup (inPackages ps s) = some c ∧ Dumped (inPackages ps s) := by
    intro ps s
    constructor
    · intro h
      obtain ⟨c, cd, h1, h2, h3⟩ := topList_sound hT inv.sib d [] 0 _ rfl hroot _ h
      rw [List.nil_append] at h1
      obtain ⟨hg, hb⟩ := clsAt_good inv.sib _ _ h1
      obtain ⟨cd', e1, _, _, e2⟩ := clsAt_spec hT _ _ h1
      rw [h2] at e1; cases e1
      have hh : (joinName (ps, [s])).head? ≠ some '[' := by rw [← e2]; exact hb cd h2
      refine ⟨hg.1, (hg.2.1 s (by simp)).1, (hg.2.1 s (by simp)).2, c, ?_, ?_⟩
      · rw [inPackages_join, inv.map _ hh, parts_join hg]; exact h1
      · rw [inPackages_join]
        refine ⟨hh, fun m hm => ?_⟩
        rw [encloses_iff hh, parts_join hg] at hm
        obtain ⟨g1, i, j, g2, g3, g4⟩ := hm
        have hi : i = [s] := by
          cases i with
          | nil => exact absurd rfl g3
          | cons y i =>
            have := (List.cons.inj g2).2
            have g5 := (List.cons.inj g2).1
            rw [(List.append_eq_nil_iff.1 this.symm).1, ← g5]
        have : m = joinName (ps, [s]) := by
          rw [← joinName_parts m]
          refine congrArg joinName (Prod.ext g1 ?_)
          rw [g4, hi]
        rw [this, ← e2]
        exact h3
    · rintro ⟨h1, h2, h3, c, h4, h5⟩
      have hg : GoodParts (ps, [s]) := ⟨h1, by simp [h2, h3], by simp⟩
      rw [inPackages_join] at h4 h5
      rw [inv.map _ h5.1, parts_join hg] at h4
      obtain ⟨cd, e1, e2, _, e3⟩ := clsAt_spec hT _ _ h4
      have l2 := hB2 c (List.getElem?_eq_some_iff.1 e1).1
      simp only [e2] at l2
      refine topList_complete ps d [] 0 _ s c cd (by omega) rfl hroot h4 e1 ?_
      rw [e3]
      exact h5.2 _ (.inl rfl)
  refine ⟨topList w.reg d 0, preEvents w.reg d 0, ?_, hmem, ?_, ?_, ?_⟩
  · exact topList_nodup hT inv.sib d [] 0 _ rfl hroot
  · rw [preEvents_track, hname]
    refine congrArg (fun q => some (([] : List Str), q)) ?_
    apply List.map_congr_left
    intro x _
    rfl
  · intro q hq
    have := preEvents_opened w.reg d 0 [] q hq
    rw [hname] at this
    exact this
  · refine nsPre_lines hT hB d 0 _ hroot (by omega) fun x hx => ?_
    obtain ⟨_, _, _, c, h4, _⟩ := (hmem x.1 x.2).1 hx
    have hc := hclean _ _ h4
    unfold inPackages at hc
    rw [List.mem_append, not_or, List.mem_flatMap] at hc
    refine ⟨by rw [hname]; decide, fun q hq hn => hc.1 ⟨q, hq, by simp [hn]⟩, hc.2⟩

end Jnivm
