import Verif.Lemmas.CppBuild
/-! Lemmas about reading the bindings of a program, and about running them. -/
namespace Jnivm
open Spec

variable {R : CppReader} {num : Str → Nat} {clazz : Nat} {T : Typing} {ws : World}

/-- The lines that bind the members of a class. -/
def entryLines (fake : Bool) (T : Typing) (ws : World) (e : DumpEntry) : List Str :=
  classLines fake T (cppScope e.name) e.simple (ws.mem e.cls).fields (dumpedMethods ws e.cls)

/-- The class compiles, and its lines give the entries `es`. -/
structure EntryOk (R : CppReader) (num : Str → Nat) (clazz : Nat) (T : Typing) (ws : World) (N : CppNames) (es : List DescEntry) (e : DumpEntry) : Prop where
  env : N.env = R.base.env
  scope : GoodScope (cppScope e.name) e.simple
  type : num e.name = R.fresh (cppScope e.name)
  compiles : Compiles R.fake N num clazz T e.name e.simple (ws.mem e.cls).fields (dumpedMethods ws e.cls)
  reads : readClass R.fake N (cppScope e.name) e.simple
    (classBody R.fake T e.inner e.simple (ws.mem e.cls).fields (dumpedMethods ws e.cls)) (entryLines R.fake T ws e) (R.fn (cppScope e.name)) = some es

variable {N : CppNames} {es : DumpEntry → List DescEntry}

theorem EntryOk.lines {e : DumpEntry} {l : List DescEntry} (h : EntryOk R num clazz T ws N l e) :
    readAllOf (fun line => if R.fake then readEntry N (entryDecl R num clazz T ws e).1 (R.fn (cppScope e.name) line) line
      else readHook N (entryDecl R num clazz T ws e).1 (R.fn (cppScope e.name) line) line) (entryLines R.fake T ws e) = some l := by
  have hr := h.reads
  have hm := (members_read h.compiles.toDeclarable e.inner).1
  unfold readClass at hr
  rw [h.compiles.own, Option.bind_some, hm, Option.bind_some] at hr
  have hD : (entryDecl R num clazz T ws e).1 = ⟨num e.name, cppScope e.name, e.simple,
      membersOf R.fake N num clazz T e.inner (ws.mem e.cls).fields (dumpedMethods ws e.cls)⟩ := by
    unfold entryDecl declOf
    rw [h.type, membersOf_env R.fake h.env]
  rw [hD]
  exact hr

/-! ### Descriptors -/

/-- The lines of a descriptor. -/
def descLines (T : Typing) (ws : World) (e : DumpEntry) : List Str :=
  ["BEGIN_NATIVE_DESCRIPTOR(".toList ++ cppScope e.name ++ ")".toList] ++ (entryLines true T ws e).map List.dropLast ++ ["END_NATIVE_DESCRIPTOR".toList]

theorem descs_read (hf : R.fake = true) (L : List DumpEntry) : ∀ t : CppText, t.place = .top → t.spaces = [] →
    (∀ e ∈ L, EntryOk R num clazz T ws (t.known R) (es e) e ∧ t.complete (cppScope e.name) = some (entryDecl R num clazz T ws e).1) →
    (t.descs.map (·.1) ++ L.map fun e => cppScope e.name).Nodup →
    t.readLines R (L.flatMap (descLines T ws)) = some { t with descs := t.descs ++ L.map fun e => (cppScope e.name, es e) } := by
  induction L with
  | nil =>
    intro t _ _ _ _
    simp [CppText.readLines]
  | cons e L ih =>
    intro t ht hsp h hnd
    obtain ⟨h1, h2⟩ := h e (by simp)
    have hl := h1.lines
    have hline := classLines_line h1.compiles.toDeclarable (h1.scope.chars _ (by simp))
    rw [hf] at hl hline
    simp only [if_true] at hl
    have hstep := descriptor_read (R := R) (es := es e) ht hsp hf h2 rfl (by
      intro hx
      exact (List.nodup_append.1 hnd).2.2 _ hx _ (by simp) rfl) hline hl
    rw [List.flatMap_cons]
    refine (readLines_then hstep _).trans ?_
    refine (ih { t with descs := t.descs ++ [(cppScope e.name, es e)] } ht hsp (fun e he => h e (by simp [he])) (by
      rw [List.map_append, List.append_assoc]
      exact hnd)).trans ?_
    simp

theorem isLines_desc {e : DumpEntry} (hs : '\n' ∉ cppScope e.name)
    (hD : Declarable true N num clazz T e.name e.simple (ws.mem e.cls).fields (dumpedMethods ws e.cls)) :
    IsLines (descriptorText ws T e) (descLines T ws e) := by
  rw [(regenerate_lines ws T e).2.2]
  have e1 : ∀ s : Str, "BEGIN_NATIVE_DESCRIPTOR(".toList ++ cppScope e.name ++ ")\n".toList ++ s ++ "END_NATIVE_DESCRIPTOR\n".toList =
      (("BEGIN_NATIVE_DESCRIPTOR(".toList ++ cppScope e.name ++ ")".toList) ++ "\n".toList) ++ s ++ ("END_NATIVE_DESCRIPTOR".toList ++ "\n".toList) := by
    intro s
    have e1 : ")\n".toList = ")".toList ++ "\n".toList := by decide
    have e2 : "END_NATIVE_DESCRIPTOR\n".toList = "END_NATIVE_DESCRIPTOR".toList ++ "\n".toList := by decide +kernel
    rw [e1, e2]
    simp only [List.append_assoc]
  rw [e1]
  refine ((isLines_line ?_).append (isLines_flatten fun x hx => (classLines_line hD hs x hx).line)).append (isLines_line (by decide +kernel))
  simp only [List.mem_append, not_or]
  exact ⟨⟨by decide +kernel, hs⟩, by decide⟩

/-! ### Blocks -/

/-- The lines of one side of a block. -/
def blockLines (T : Typing) (ws : World) (x : Bool × DumpEntry) : List Str :=
  if x.1 then ["{".toList, "auto c = env->GetClass(\"".toList ++ x.2.name ++ "\");".toList]
  else (entryLines false T ws x.2).map List.dropLast ++ ["}".toList]

/-- What they do. -/
def blockInit (es : DumpEntry → List DescEntry) (x : Bool × DumpEntry) : List InitLine :=
  if x.1 then [.opens x.2.name] else (es x.2).map .hook ++ [.closes]

theorem blocks_read (hf : R.fake = false) (B : List (Bool × DumpEntry)) : ∀ (st : List DumpEntry) (t : CppText), t.place = .init → Balanced st B →
    t.depth = st.length →
    (∀ x ∈ B, EntryOk R num clazz T ws (t.known R) (es x.2) x.2 ∧ t.complete (cppScope x.2.name) = some (entryDecl R num clazz T ws x.2).1) →
    t.readLines R (B.flatMap (blockLines T ws)) = some { t with depth := 0, init := t.init ++ B.flatMap (blockInit es) } := by
  induction B with
  | nil =>
    intro st t _ hb hd _
    cases st with
    | nil =>
      cases t
      simp only [List.length_nil] at hd
      subst hd
      simp [CppText.readLines]
    | cons x st => exact absurd hb (by simp [Balanced])
  | cons x B ih =>
    intro st t ht hb hd h
    obtain ⟨b, e⟩ := x
    obtain ⟨h1, h2⟩ := h (b, e) (by simp)
    have h' : ∀ x ∈ B, _ := fun x hx => h x (List.mem_cons_of_mem _ hx)
    rw [List.flatMap_cons]
    cases b with
    | true =>
      have hb' : Balanced (e :: st) B := by cases st <;> exact hb
      refine (readLines_then (read_opens ht e.name) _).trans ?_
      refine (ih (e :: st) { t with depth := t.depth + 1, init := t.init ++ [.opens e.name] } ht hb' (by simp [hd]) h').trans ?_
      simp [blockInit]
    | false =>
      cases st with
      | nil => exact absurd hb (by simp [Balanced])
      | cons y st =>
        have hb' : Balanced st B := by
          simp only [Balanced] at hb
          exact hb.2
        have hd0 : t.depth ≠ 0 := by rw [hd]; simp
        have hl := h1.lines
        have hline := classLines_line h1.compiles.toDeclarable (h1.scope.chars _ (by simp))
        have hD := h1.compiles.toDeclarable
        rw [hf] at hl hline hD
        simp only [Bool.false_eq_true, if_false] at hl
        have hsc := classLines_scope hD (h1.scope.chars _ (by simp))
        have hstep := read_hooks (R := R) hf (entryLines false T ws e) t (es e) ht hd0 h2 (fun l hl => ⟨hline l hl, hsc l hl⟩) hl
        have e1 : blockLines T ws (false, e) = (entryLines false T ws e).map List.dropLast ++ ["}".toList] := rfl
        rw [e1, List.append_assoc]
        refine (readLines_then hstep _).trans ?_
        refine (readLines_then (read_closes (t := { t with init := t.init ++ (es e).map .hook }) ht hd0) _).trans ?_
        refine (ih st { t with depth := t.depth - 1, init := t.init ++ (es e).map .hook ++ [.closes] } ht hb' (by simp [hd]) h').trans ?_
        simp [blockInit]

theorem isLines_block {x : Bool × DumpEntry} (hs : '\n' ∉ cppScope x.2.name) (hn : '\n' ∉ x.2.name)
    (hD : Declarable false N num clazz T x.2.name x.2.simple (ws.mem x.2.cls).fields (dumpedMethods ws x.2.cls)) :
    IsLines (blockText ws T x) (blockLines T ws x) := by
  obtain ⟨b, e⟩ := x
  cases b with
  | true =>
    have e1 : blockText ws T (true, e) = ("{".toList ++ "\n".toList) ++ (("auto c = env->GetClass(\"".toList ++ e.name ++ "\");".toList) ++ "\n".toList) := by
      have e1 : "{\nauto c = env->GetClass(\"".toList = "{".toList ++ ("\n".toList ++ "auto c = env->GetClass(\"".toList) := by decide +kernel
      have e2 : "\");\n".toList = "\");".toList ++ "\n".toList := by decide
      unfold blockText
      rw [if_pos rfl, e1, e2]
      simp only [List.append_assoc]
    rw [e1]
    refine (isLines_line (by decide)).append (isLines_line ?_)
    simp only [List.mem_append, not_or]
    exact ⟨⟨by decide +kernel, hn⟩, by decide⟩
  | false =>
    rw [(regenerate_lines ws T e).2.1]
    have e1 : "}\n".toList = "}".toList ++ "\n".toList := by decide
    rw [e1]
    exact (isLines_flatten fun x hx => (classLines_line hD hs x hx).line).append (isLines_line (by decide))

/-! ### Running -/

variable {ci : CppInfo} {compat : Bool} {bases : Nat → List (Option Nat)} {t : CppText}

/-- The class of an entry as the VM sees it. -/
def entryClass (ci : CppInfo) (num : Str → Nat) (bases : Nat → List (Option Nat)) (es : DumpEntry → List DescEntry) (e : DumpEntry) : DescClass :=
  ⟨ci.id (.cls (num e.name)), e.name, bases (num e.name), true, es e⟩

theorem run_hooks {c : Nat} {st : List (Option Nat)} {l : List InitLine} (hs : List DescEntry) : ∀ {w w' : World} {rs : List Registration},
    makeAll false hs = .ok rs → w.registerAll ci c rs = .ok w' →
    t.runInit compat ci bases w (some c :: st) (hs.map .hook ++ l) = t.runInit compat ci bases w' (some c :: st) l := by
  induction hs with
  | nil =>
    intro w w' rs h1 h2
    cases h1
    cases h2
    rfl
  | cons e hs ih =>
    intro w w' rs h1 h2
    simp only [makeAll] at h1
    obtain ⟨r, e1, h1⟩ := Res.bind_eq_ok.1 h1
    obtain ⟨rs', e2, h1⟩ := Res.bind_eq_ok.1 h1
    cases h1
    simp only [World.registerAll] at h2
    obtain ⟨w1, e3, h2⟩ := Res.bind_eq_ok.1 h2
    have : t.runInit compat ci bases w (some c :: st) ((e :: hs).map .hook ++ l) =
        t.runInit compat ci bases w1 (some c :: st) (hs.map .hook ++ l) := by
      rw [List.map_cons, List.cons_append]
      simp only [CppText.runInit, makeAll, e1, Res.bind_ok, World.registerAll, e3]
    rw [this]
    exact ih e2 h2

theorem run_events {U : Nat → Str → Prop} {cls : DumpEntry → DescClass} {pr : DumpEntry → List Promise} {S : List DumpEntry} {idx : DumpEntry → Nat}
    (hcls : ∀ e, (cls e).name = e.name) (hes : ∀ e, (cls e).entries = es e)
    (hp : ∀ e ∈ S, ∀ w c, NamesIn ci U w → AllPromises false ci w c (es e) (pr e)) (B : List (Bool × DumpEntry)) :
    ∀ (st : List DumpEntry) {w w' : World}, Balanced st B → (∀ x ∈ B, x.2 ∈ S) → MemReachable w → NamesIn ci U w →
      (∀ e ∈ S, w.IsClass e.name (idx e)) → runBlocks ci w ((side false B).map cls) = .ok w' →
      t.runInit compat ci bases w (st.map fun e => some (idx e)) (B.flatMap (blockInit es)) = .ok w' := by
  induction B with
  | nil =>
    intro st w w' _ _ _ _ _ h
    cases h
    rfl
  | cons x B ih =>
    intro st w w' hb hS hr hU hc h
    obtain ⟨b, e⟩ := x
    have he : e ∈ S := hS (b, e) (by simp)
    have hS' : ∀ x ∈ B, x.2 ∈ S := fun x hx => hS x (List.mem_cons_of_mem _ hx)
    have hfind : findClass false w.reg e.name = (w.reg, some (idx e)) := findClass_existing (hc e he)
    rw [List.flatMap_cons]
    cases b with
    | true =>
      have hb' : Balanced (e :: st) B := by cases st <;> exact hb
      have hside : side false ((true, e) :: B) = side false B := rfl
      rw [hside] at h
      have : t.runInit compat ci bases w (st.map fun e => some (idx e)) (blockInit es (true, e) ++ B.flatMap (blockInit es)) =
          t.runInit compat ci bases w ((e :: st).map fun e => some (idx e)) (B.flatMap (blockInit es)) := by
        show t.runInit compat ci bases w (st.map fun e => some (idx e)) (.opens e.name :: B.flatMap (blockInit es)) = _
        simp only [CppText.runInit, hfind, List.map_cons]
      rw [this]
      exact ih (e :: st) hb' hS' hr hU hc h
    | false =>
      cases st with
      | nil => exact absurd hb (by simp [Balanced])
      | cons y st =>
        simp only [Balanced] at hb
        obtain ⟨rfl, hb'⟩ := hb
        have hside : side false ((false, y) :: B) = y :: side false B := rfl
        rw [hside, List.map_cons] at h
        unfold runBlocks at h
        obtain ⟨w1, e1, h⟩ := Res.bind_eq_ok.1 h
        have hcy : w.IsClass (cls y).name (idx y) := by rw [hcls]; exact hc y he
        obtain ⟨w1', e1', hr1, k1, _⟩ := runBlock_ok hr hcy (hes y ▸ hp y he w (idx y) hU)
        rw [e1] at e1'
        cases e1'
        have e2 := e1
        unfold runBlock at e2
        rw [hcls, hfind] at e2
        simp only at e2
        obtain ⟨rs, e3, e4⟩ := Res.bind_eq_ok.1 e2
        rw [hes] at e3
        have e5 : blockInit es (false, y) = (es y).map .hook ++ [.closes] := rfl
        rw [e5, List.append_assoc, List.map_cons, run_hooks (es y) e3 e4]
        have e6 : t.runInit compat ci bases w1 (some (idx y) :: st.map fun e => some (idx e)) ([.closes] ++ B.flatMap (blockInit es)) =
            t.runInit compat ci bases w1 (st.map fun e => some (idx e)) (B.flatMap (blockInit es)) := rfl
        rw [e6]
        exact ih st hb' hS' hr1 (hU.mono k1) (fun e he => k1.keep _ _ (hc e he)) h

theorem run_binds {l : List InitLine} (L : List DumpEntry) : ∀ w : World,
    t.runInit compat ci bases w [] ((L.map fun e => .register (num e.name) (some e.name)) ++ l) =
      t.runInit compat ci bases (bindTypes w (L.map (entryClass ci num bases es))) [] l := by
  induction L with
  | nil => intro w; rfl
  | cons e L ih =>
    intro w
    rw [List.map_cons, List.cons_append, List.map_cons]
    simp only [CppText.runInit]
    rw [ih]
    rfl

theorem run_registers (L : List DumpEntry) (h : ∀ e ∈ L, t.registered ci bases (num e.name) = some (entryClass ci num bases es e)) : ∀ w : World,
    t.runInit compat ci bases w [] (L.map fun e => .register (num e.name) none) =
      runRegisters compat ci w (L.map (entryClass ci num bases es)) := by
  induction L with
  | nil => intro w; rfl
  | cons e L ih =>
    intro w
    rw [List.map_cons, List.map_cons]
    simp only [CppText.runInit, h e (by simp), runRegisters]
    cases w.registerClass compat ci (entryClass ci num bases es e) with
    | ub _ => rfl
    | throws _ => rfl
    | diverges => rfl
    | ok p => exact ih (fun e he => h e (by simp [he])) p.1

end Jnivm
