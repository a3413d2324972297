import Verif.Lemmas.CppWhole
/-! Lemmas about reading and running a whole program. -/
namespace Jnivm
open Spec

variable {R : CppReader} {num : Str → Nat} {clazz : Nat} {T : Typing} {ws : World} {F pk : List Str} {L : List DumpEntry}
  {B : List (Bool × DumpEntry)} {es : DumpEntry → List DescEntry}

/-- The program with the classes `L`, the blocks `B`, the forward declarations `F` and the namespaces `pk`. -/
def programOf (R : CppReader) (num : Str → Nat) (clazz : Nat) (T : Typing) (ws : World) (F pk : List Str) (L : List DumpEntry)
    (B : List (Bool × DumpEntry)) (es : DumpEntry → List DescEntry) : CppText :=
  ⟨.finished, [], pk, F ++ L.flatMap innerScopes, L.map (entryDecl R num clazz T ws), (side false B).flatMap (entryDefs R num clazz T ws),
    if R.fake then L.map fun e => (cppScope e.name, es e) else [], 0,
    (L.map fun e => .register (num e.name) (if R.fake then none else some e.name)) ++ if R.fake then [] else B.flatMap (blockInit es)⟩

/-- Its lines behind the forward declarations. -/
def programLines (fake : Bool) (T : Typing) (ws : World) (L : List DumpEntry) (B : List (Bool × DumpEntry)) : List Str :=
  L.flatMap (entryHead fake T ws) ++ ((side false B).flatMap (entryDefLines fake T ws) ++
    ((if fake then L.flatMap (descLines T ws) ++ [[]] else []) ++ ([initHeading fake] ++
      ((L.map DumpEntry.name).map (fun n => (registration fake n).dropLast) ++
        ((if fake then [] else B.flatMap (blockLines T ws)) ++ [[], "}".toList])))))

theorem find_scope {e : DumpEntry} (hnd : (L.map fun e => cppScope e.name).Nodup) (he : e ∈ L) :
    (L.map (entryDecl R num clazz T ws)).find? (fun d => d.1.scope == cppScope e.name) = some (entryDecl R num clazz T ws e) := by
  induction L with
  | nil => cases he
  | cons x L ih =>
    rw [List.map_cons, List.nodup_cons] at hnd
    rw [List.map_cons]
    rcases List.mem_cons.1 he with rfl | he
    · rw [List.find?_cons_of_pos (by simp [entryDecl, declOf])]
    · rw [List.find?_cons_of_neg, ih hnd.2 he]
      intro h
      have h' : cppScope x.name = cppScope e.name := by simpa [entryDecl, declOf] using h
      exact hnd.1 (List.mem_map.2 ⟨e, he, h'.symm⟩)

theorem find_type {e : DumpEntry} (hnd : (L.map fun e => num e.name).Nodup) (ht : ∀ e ∈ L, num e.name = R.fresh (cppScope e.name)) (he : e ∈ L) :
    (L.map (entryDecl R num clazz T ws)).find? (fun d => d.1.type == num e.name) = some (entryDecl R num clazz T ws e) := by
  induction L with
  | nil => cases he
  | cons x L ih =>
    rw [List.map_cons, List.nodup_cons] at hnd
    rw [List.map_cons]
    have hx : (entryDecl R num clazz T ws x).1.type = num x.name := (ht x (by simp)).symm
    rcases List.mem_cons.1 he with rfl | he
    · rw [List.find?_cons_of_pos (by simp [hx])]
    · rw [List.find?_cons_of_neg, ih hnd.2 (fun e he => ht e (by simp [he])) he]
      intro h
      have h' : num x.name = num e.name := by simpa [hx] using h
      exact hnd.1 (List.mem_map.2 ⟨e, he, h'.symm⟩)

theorem find_desc {e : DumpEntry} (hnd : (L.map fun e => cppScope e.name).Nodup) (he : e ∈ L) :
    (L.map fun e => (cppScope e.name, es e)).find? (fun d => d.1 == cppScope e.name) = some (cppScope e.name, es e) := by
  induction L with
  | nil => cases he
  | cons x L ih =>
    rw [List.map_cons, List.nodup_cons] at hnd
    rw [List.map_cons]
    rcases List.mem_cons.1 he with rfl | he
    · rw [List.find?_cons_of_pos (by simp)]
    · rw [List.find?_cons_of_neg, ih hnd.2 he]
      intro h
      have h' : cppScope x.name = cppScope e.name := by simpa using h
      exact hnd.1 (List.mem_map.2 ⟨e, he, h'.symm⟩)

theorem read_blank {t : CppText} (ht : t.place = .top) : t.readLines R [[]] = some t := by
  have : t.readLine R (stripBlanks []) = some t := by
    rw [show stripBlanks [] = [] from rfl, readLine_top ht]
    unfold CppText.readTop
    rw [if_pos rfl]
  rw [readLines_step this]
  rfl

/-- What is needed to read the program. -/
structure ProgramOk (R : CppReader) (num : Str → Nat) (clazz : Nat) (T : Typing) (ws : World) (F pk : List Str) (L : List DumpEntry)
    (B : List (Bool × DumpEntry)) (es : DumpEntry → List DescEntry) : Prop where
  scopes : (L.map fun e => cppScope e.name).Nodup
  sides : side true B = L ∧ (side false B).Perm L ∧ Balanced [] B
  heads : ∀ a e b, L = a ++ e :: b → HeaderOk R num clazz T ws pk (F ++ a.flatMap innerScopes) e
  entries : ∀ e ∈ L, EntryOk R num clazz T ws (namesKnown R (F ++ L.flatMap innerScopes)) (es e) e
  names : ∀ e ∈ L, PlainName e.name ∧ WordName e.name ∧ '\n' ∉ e.name

theorem mem_side {α : Type} {b : Bool} {x : α} {l : List (Bool × α)} : x ∈ side b l ↔ (b, x) ∈ l := by
  unfold side
  constructor
  · intro h
    obtain ⟨y, hy, rfl⟩ := List.mem_map.1 h
    obtain ⟨h1, h2⟩ := List.mem_filter.1 hy
    have : y.1 = b := by simpa using h2
    rw [← this]
    exact h1
  · intro h
    exact List.mem_map.2 ⟨_, List.mem_filter.2 ⟨h, by simp⟩, rfl⟩

theorem ProgramOk.mem (h : ProgramOk R num clazz T ws F pk L B es) {x : Bool × DumpEntry} (hx : x ∈ B) : x.2 ∈ L := by
  obtain ⟨b, e⟩ := x
  cases b with
  | true => rw [← h.sides.1]; exact mem_side.2 hx
  | false => exact h.sides.2.1.mem_iff.1 (mem_side.2 hx)

theorem program_read (h : ProgramOk R num clazz T ws F pk L B es) :
    CppText.readLines R ⟨.top, [], pk, F, [], [], [], 0, []⟩ (programLines R.fake T ws L B) = some (programOf R num clazz T ws F pk L B es) := by
  have hpost : ∀ e ∈ side false B, e ∈ L := fun e he => h.sides.2.1.mem_iff.1 he
  have hcomp : ∀ e ∈ L, ((L.map (entryDecl R num clazz T ws)).find? fun d => d.1.scope == cppScope e.name).map (·.1) =
      some (entryDecl R num clazz T ws e).1 := by
    intro e he
    rw [find_scope h.scopes he]
    rfl
  unfold programLines
  -- declarations
  refine (readLines_then (headers_read (num := num) (clazz := clazz) L _ rfl rfl h.heads (by simpa using h.scopes)) _).trans ?_
  -- definitions
  refine (readLines_then (defs_read (num := num) (clazz := clazz) (side false B)
    ⟨.top, [], pk, F ++ L.flatMap innerScopes, [] ++ L.map (entryDecl R num clazz T ws), [], [], 0, []⟩ rfl rfl (fun e he => ?_) ?_) _).trans ?_
  · have := h.entries e (hpost e he)
    exact ⟨this.compiles, this.scope, hcomp e (hpost e he)⟩
  · refine defs_nodup (((h.sides.2.1).map _).nodup_iff.2 h.scopes) fun e he => ?_
    obtain ⟨a, b, hL⟩ := List.append_of_mem (hpost e he)
    have := (h.heads a e b hL).apart
    unfold membersApart at this
    simp only [Bool.and_eq_true, decide_eq_true_eq] at this
    exact this.1
  -- the rest
  have hreg : ∀ n ∈ L.map DumpEntry.name, PlainName n ∧ WordName n ∧ '\n' ∉ n ∧
      (namesKnown R (F ++ L.flatMap innerScopes)).cls (cppScope n) = some (num n) ∧
      num n ∈ (L.map (entryDecl R num clazz T ws)).map (·.1.type) := by
    intro n hn
    obtain ⟨e, he, rfl⟩ := List.mem_map.1 hn
    obtain ⟨h1, h2, h3⟩ := h.names e he
    have h4 := h.entries e he
    refine ⟨h1, h2, h3, h4.compiles.own, ?_⟩
    rw [List.map_map]
    exact List.mem_map.2 ⟨e, he, h4.type.symm⟩
  have emap : ∀ g : Bool → Str → Option Str, ((L.map DumpEntry.name).map fun n => InitLine.register (num n) (g R.fake n)) =
      L.map fun e => InitLine.register (num e.name) (g R.fake e.name) := by
    intro g
    rw [List.map_map]
    rfl
  by_cases hf : R.fake = true
  · rw [if_pos hf, if_pos hf, List.append_assoc, List.nil_append]
    refine (readLines_then (descs_read (num := num) (clazz := clazz) (es := es) hf L
      ⟨.top, [], pk, F ++ L.flatMap innerScopes, [] ++ L.map (entryDecl R num clazz T ws), [] ++ (side false B).flatMap (entryDefs R num clazz T ws), [], 0, []⟩
      rfl rfl (fun e he => ⟨h.entries e he, by exact hcomp e he⟩) (by simpa using h.scopes)) _).trans ?_
    refine (readLines_then (read_blank rfl) _).trans ?_
    refine (readLines_then (read_heading rfl rfl) _).trans ?_
    refine (readLines_then (read_registers (num := num) (t0 := programOf R num clazz T ws F pk L B es) (L.map DumpEntry.name) hreg
      ⟨.init, [], pk, F ++ L.flatMap innerScopes, [] ++ L.map (entryDecl R num clazz T ws), [] ++ (side false B).flatMap (entryDefs R num clazz T ws),
        [] ++ L.map fun e => (cppScope e.name, es e), 0, []⟩ rfl rfl rfl) _).trans ?_
    refine (read_finish rfl rfl).trans ?_
    unfold programOf
    rw [hf]
    simp
  · rw [if_neg hf, if_neg hf, List.nil_append]
    have hf : R.fake = false := by simpa using hf
    refine (readLines_then (read_heading rfl rfl) _).trans ?_
    refine (readLines_then (read_registers (num := num) (t0 := programOf R num clazz T ws F pk L B es) (L.map DumpEntry.name) hreg
      ⟨.init, [], pk, F ++ L.flatMap innerScopes, [] ++ L.map (entryDecl R num clazz T ws), [] ++ (side false B).flatMap (entryDefs R num clazz T ws), [], 0, []⟩ rfl rfl rfl) _).trans ?_
    refine (readLines_then (blocks_read (num := num) (clazz := clazz) (es := es) hf B []
      ⟨.init, [], pk, F ++ L.flatMap innerScopes, [] ++ L.map (entryDecl R num clazz T ws), [] ++ (side false B).flatMap (entryDefs R num clazz T ws), [], 0,
        [] ++ (L.map DumpEntry.name).map fun n => .register (num n) (if R.fake then none else some n)⟩ rfl h.sides.2.2 rfl
      (fun x hx => ⟨h.entries _ (h.mem hx), by exact hcomp _ (h.mem hx)⟩)) _).trans ?_
    refine (read_finish rfl rfl).trans ?_
    unfold programOf
    rw [hf]
    simp

theorem program_linked (h : ProgramOk R num clazz T ws F pk L B es) : (programOf R num clazz T ws F pk L B es).linked R = true := by
  unfold CppText.linked programOf
  simp only [Bool.true_and, List.all_eq_true]
  intro d hd
  obtain ⟨e, he, rfl⟩ := List.mem_map.1 hd
  simp only [Bool.and_eq_true, List.all_eq_true]
  refine ⟨fun m hm => ?_, ?_⟩
  · cases hn : m.needsDefinition with
    | false => rfl
    | true =>
      rw [Bool.not_true, Bool.false_or, List.contains_iff_mem]
      refine List.mem_flatMap.2 ⟨e, h.sides.2.1.mem_iff.2 he, ?_⟩
      exact List.mem_map.2 ⟨m, List.mem_filter.2 ⟨hm, hn⟩, rfl⟩
  · cases R.fake with
    | false => rfl
    | true =>
      simp only [Bool.not_true, Bool.false_or, if_true, List.map_map]
      rw [List.contains_iff_mem]
      exact List.mem_map.2 ⟨e, he, rfl⟩

/-- The texts behind the forward declarations are these lines. -/
theorem program_lines (h : ProgramOk R num clazz T ws F pk L B es) (hi : ∀ e ∈ L, ∀ k ∈ e.inner, isIdent k = true) :
    (R.fake = false → textLines (L.flatMap (headerText false ws T) ++ (side false B).flatMap (definitionText false ws T) ++
        "void InitJNIBinding(jnivm::ENV* env) {\n".toList ++ L.flatMap (fun e => registration false e.name) ++
        B.flatMap (blockText ws T) ++ "\n}".toList) = programLines false T ws L B) ∧
    (R.fake = true → textLines (L.flatMap (headerText true ws T) ++ (side false B).flatMap (definitionText true ws T) ++
        L.flatMap (descriptorText ws T) ++ "\nvoid InitJNIBinding(FakeJni::Jvm* vm) {\n".toList ++
        L.flatMap (fun e => registration true e.name) ++ "\n}".toList) = programLines true T ws L B) := by
  have hdecl : ∀ e ∈ L, Declarable R.fake (namesKnown R (F ++ L.flatMap innerScopes)) num clazz T e.name e.simple (ws.mem e.cls).fields (dumpedMethods ws e.cls) :=
    fun e he => (h.entries e he).compiles.toDeclarable
  have hpost : ∀ e ∈ side false B, e ∈ L := fun e he => h.sides.2.1.mem_iff.1 he
  have hs : ∀ e ∈ L, '\n' ∉ cppScope e.name := fun e he => (h.entries e he).scope.chars _ (by simp)
  have hn : ∀ e ∈ L, '\n' ∉ e.name := fun e he => (h.names e he).2.2
  have h1 : IsLines (L.flatMap (headerText R.fake ws T)) (L.flatMap (entryHead R.fake T ws)) :=
    isLines_flatMap fun e he => isLines_entry (hs e he) (hn e he) (hdecl e he) (hi e he)
  have h2 : IsLines ((side false B).flatMap (definitionText R.fake ws T)) ((side false B).flatMap (entryDefLines R.fake T ws)) :=
    isLines_flatMap fun e he => isLines_defs (hs e (hpost e he)) (hdecl e (hpost e he))
  have h3 : IsLines (L.flatMap (fun e => registration R.fake e.name)) ((L.map DumpEntry.name).map fun n => (registration R.fake n).dropLast) := by
    have : L.flatMap (fun e => registration R.fake e.name) = (L.map DumpEntry.name).flatMap (registration R.fake) := by rw [List.flatMap_map]
    rw [this]
    refine isLines_registers fun n hx => ?_
    obtain ⟨e, he, rfl⟩ := List.mem_map.1 hx
    exact hn e he
  have hlast : textLines "\n}".toList = [[], "}".toList] := by decide
  constructor
  · intro hf
    rw [hf] at h1 h2 h3 hdecl
    have h4 : IsLines "void InitJNIBinding(jnivm::ENV* env) {\n".toList [initHeading false] := by
      have e1 : "void InitJNIBinding(jnivm::ENV* env) {\n".toList = "void InitJNIBinding(jnivm::ENV* env) {".toList ++ "\n".toList := by decide +kernel
      rw [e1]
      exact isLines_line (by decide +kernel)
    have h5 : IsLines (B.flatMap (blockText ws T)) (B.flatMap (blockLines T ws)) :=
      isLines_flatMap fun x hx => isLines_block (hs _ (h.mem hx)) (hn _ (h.mem hx)) (hdecl _ (h.mem hx))
    rw [((((h1.append h2).append h4).append h3).append h5) "\n}".toList, hlast]
    unfold programLines
    rw [if_neg (by decide), if_neg (by decide)]
    simp only [List.append_assoc, List.nil_append]
  · intro hf
    rw [hf] at h1 h2 h3 hdecl
    have h4 : IsLines "\nvoid InitJNIBinding(FakeJni::Jvm* vm) {\n".toList [[], initHeading true] := by
      have e1 : "\nvoid InitJNIBinding(FakeJni::Jvm* vm) {\n".toList = ([] ++ "\n".toList) ++ ("void InitJNIBinding(FakeJni::Jvm* vm) {".toList ++ "\n".toList) := by decide +kernel
      rw [e1]
      exact (isLines_line (by simp)).append (isLines_line (by decide +kernel))
    have h5 : IsLines (L.flatMap (descriptorText ws T)) (L.flatMap (descLines T ws)) :=
      isLines_flatMap fun e he => isLines_desc (hs e he) (hdecl e he)
    rw [((((h1.append h2).append h5).append h4).append h3) "\n}".toList, hlast]
    unfold programLines
    rw [if_pos rfl, if_pos rfl]
    simp only [List.append_assoc, List.nil_append, List.cons_append]

variable {ci : CppInfo} {compat : Bool} {bases : Nat → List (Option Nat)}

/-- The program does what `initBinding` does with its classes. -/
theorem program_run {U : Nat → Str → Prop} {pr : DumpEntry → List Promise} (h : ProgramOk R num clazz T ws F pk L B es)
    (hnum : (L.map fun e => num e.name).Nodup)
    (hp : ∀ e ∈ L, ∀ w c, NamesIn ci U w → AllPromises false ci w c (es e) (pr e)) {w w' : World}
    (hbind : R.fake = false → MemReachable (bindTypes w (L.map (entryClass ci num bases es))) ∧ NamesIn ci U (bindTypes w (L.map (entryClass ci num bases es))) ∧
      ∀ e ∈ L, ∃ c, (bindTypes w (L.map (entryClass ci num bases es))).IsClass e.name c)
    (hrun : initBinding R.fake compat ci w (L.map (entryClass ci num bases es)) ((side false B).map (entryClass ci num bases es)) = .ok w') :
    (programOf R num clazz T ws F pk L B es).run compat ci bases w = .ok w' := by
  unfold initBinding at hrun
  unfold CppText.run
  cases hf : R.fake with
  | true =>
    rw [hf, if_pos rfl] at hrun
    have e1 : (programOf R num clazz T ws F pk L B es).init = L.map fun e => .register (num e.name) none := by
      unfold programOf
      rw [hf]
      simp
    rw [e1, run_registers (es := es) L, hrun]
    intro e he
    unfold CppText.registered
    have e2 : (programOf R num clazz T ws F pk L B es).classes = L.map (entryDecl R num clazz T ws) := rfl
    have e3 : (programOf R num clazz T ws F pk L B es).descs = L.map fun e => (cppScope e.name, es e) := by
      unfold programOf
      simp only
      rw [hf, if_pos rfl]
    have e4 : (entryDecl R num clazz T ws e).1.scope = cppScope e.name := rfl
    have e5 : (entryDecl R num clazz T ws e).2 = some e.name := by
      unfold entryDecl declOf
      simp only
      rw [hf, if_pos rfl]
    rw [e2, e3, find_type hnum (fun e he => (h.entries e he).type) he, Option.bind_some, e4, find_desc h.scopes he, Option.bind_some, e5]
    rfl
  | false =>
    rw [hf, if_neg (by decide)] at hrun
    obtain ⟨hr, hU, hc⟩ := hbind hf
    have e1 : (programOf R num clazz T ws F pk L B es).init =
        (L.map fun e => .register (num e.name) (some e.name)) ++ B.flatMap (blockInit es) := by
      unfold programOf
      rw [hf]
      simp
    have hc' : ∀ e : DumpEntry, ∃ c, e ∈ L → (bindTypes w (L.map (entryClass ci num bases es))).IsClass e.name c := by
      intro e
      by_cases he : e ∈ L
      · obtain ⟨c, hc⟩ := hc e he
        exact ⟨c, fun _ => hc⟩
      · exact ⟨0, fun h => absurd h he⟩
    obtain ⟨idx, hidx⟩ := Classical.axiomOfChoice hc'
    rw [e1, run_binds (es := es)]
    exact run_events (cls := entryClass ci num bases es) (fun _ => rfl) (fun _ => rfl) hp B [] h.sides.2.2 (fun x hx => h.mem hx) hr hU hidx hrun

end Jnivm
