import Verif.Lemmas.FieldVars
/-!
C64: fields that are C++ variables hold what was set.
-/
namespace Jnivm
open Spec

variable {w : CppTypes}

/-! ## Objects with variables -/

/-- A new object and a new block of static variables hold nulls. -/
theorem new_vars_null {h h' : Heap} {t n : Nat} {op : HeapOp} {x : Nat} (hr : HeapReachable h)
    (hop : (∃ c, op = .newRecord n c) ∨ op = .newStatics n) (hx : op.run h t = .ok (h', .ref (some x))) :
    ¬ Live h x ∧ Live h' x ∧ ∀ i < n, VarIs h' x i none := by
  have hp := hr.inv.toPre
  obtain ⟨h1, hx1, rfl⟩ := Heap.run_ok hx
  have st := Heap.step_exec hp hx1
  have key : x = h.next ∧ (∃ o, h1.objs x = some o ∧ o.kind = .record (List.replicate n none)) ∧
      x ∈ h1.roots := by
    rcases hop with ⟨c, rfl⟩ | rfl
    · obtain ⟨r, hb, hr⟩ := Heap.outRef_ok (Heap.exec_ok hx1).1
      obtain ⟨rfl, _, _, ho, _⟩ := Heap.newRecord_ok hb
      cases hr
      obtain ⟨e', he', hf⟩ := Heap.local_pushed hp (by trivial) hx1 (by simp)
      exact ⟨rfl, ho, Heap.mem_roots.2 (.inr (.inr ⟨t, e', st.pre.thread t e' he', he', .inl hf⟩))⟩
    · have hb := (Heap.exec_ok hx1).1
      simp only [HeapOp.body] at hb
      injection hb with hb; injection hb with hb1 hb2
      injection hb2 with hb2; injection hb2 with hb2
      subst hb1 hb2
      refine ⟨rfl, ⟨⟨.record (List.replicate n none), none⟩, ?_, rfl⟩, Heap.mem_roots.2 (.inr (.inl ?_))⟩
      · simp [Heap.newStatics, Heap.alloc]
      · simp [Heap.newStatics]
  obtain ⟨rfl, ⟨o, ho, hk⟩, hroot⟩ := key
  have ho' := Heap.collect_keep st.pre.bound (.root hroot) ho
  refine ⟨?_, ⟨o, ho'⟩, fun i hi => ⟨o, _, ho', hk, by simp [hi]⟩⟩
  rintro ⟨o2, h2⟩
  exact Nat.lt_irrefl _ (hp.bound _ _ h2)

example : ∃ h h' h2, HeapReachable h ∧ (HeapOp.newRecord 2 none).run h 0 = .ok (h', .ref (some 10)) ∧
    (HeapOp.newStatics 1).run h 0 = .ok (h2, .ref (some 10)) := by
  obtain ⟨h, hx, hr, hp⟩ := reachable_of (ops := [(0, .newObject none)])
    (p := fun h => ((HeapOp.newRecord 2 none).run h 0).holds fun x => x.2 == .ref (some 10) &&
      ((HeapOp.newStatics 1).run h 0).holds fun y => y.2 == .ref (some 10))
    (by decide +kernel)
  simp only [Bool.and_eq_true, beq_iff_eq, Res.holds_iff] at hp
  obtain ⟨⟨h1, o1⟩, h2, rfl, ⟨h3, o3⟩, h4, rfl⟩ := hp
  exact ⟨h, h1, h3, hr, h2, h4⟩

/-- A variable keeps its value through every history that does not set it, for as long as the object
lives. -/
theorem var_kept {h h' : Heap} (hr : HeapReachable h) {x n : Nat} {v : Option Nat} (hs : VarIs h x n v)
    {ops : List (Nat × HeapOp)} (hk : Along (fun h _ op => KeepsVar x n h op) h ops)
    (hx : runHeap h ops = .ok h') (hl : Live h' x) : VarIs h' x n v := by
  have key : x < h'.next ∧ (Live h' x → VarIs h' x n v) := by
    refine Along.induct (Q := fun h => x < h.next ∧ (Live h x → VarIs h x n v))
      (fun h t op h' out hi hq hp hx => ?_) hr.inv ⟨?_, fun _ => hs⟩ hk hx
    · exact ⟨Nat.lt_of_lt_of_le hq.1 (runStep hi.toPre hx).next, var_run hi hx hp hq.1 hq.2⟩
    · obtain ⟨o, _, ho, _⟩ := hs
      exact hr.inv.bound x o ho
  exact key.2 hl

/-- Another variable of the object is set and the local reference to the stored object deleted. -/
example : ∃ h h', HeapReachable h ∧ VarIs h 9 0 (some 10) ∧
    Along (fun h _ op => KeepsVar 9 0 h op) h
      [(0, .setVar (some 9) 1 (some 9)), (0, .deleteLocalRef (some 10))] ∧
    runHeap h [(0, .setVar (some 9) 1 (some 9)), (0, .deleteLocalRef (some 10))] = .ok h' ∧ Live h' 9 := by
  obtain ⟨h, _, hr, hp⟩ := reachable_of
    (ops := [(0, .newRecord 2 none), (0, .newObject none), (0, .setVar (some 9) 0 (some 10))])
    (p := fun h => (h.objs 9 == some ⟨.record [some 10, none], none⟩) &&
      (runHeap h [(0, .setVar (some 9) 1 (some 9)), (0, .deleteLocalRef (some 10))]).holds fun h' =>
        (h'.objs 9).isSome)
    (by decide +kernel)
  simp only [Bool.and_eq_true, beq_iff_eq, Res.holds_iff] at hp
  obtain ⟨h9, h', hx, hl⟩ := hp
  refine ⟨h, h', hr, ⟨_, _, h9, rfl, rfl⟩, ⟨?_, fun _ _ _ => ⟨?_, fun _ _ _ => True.intro⟩⟩, hx,
    Option.isSome_iff_exists.1 hl⟩
  · intro a i v hop _
    cases hop; simp
  · intro a i v hop _
    cases hop

/-- An object in a variable of a live object is alive. -/
theorem var_owned {h : Heap} (hr : HeapReachable h) {x n y : Nat} (hs : VarIs h x n (some y)) : Live h y := by
  obtain ⟨o, vars, ho, hk, hy⟩ := hs
  exact hr.inv.edges x y ⟨o, ho, by
    rw [hk]; simp only [Kind.edges, List.mem_filterMap, id]
    exact ⟨some y, List.mem_of_getElem? hy, rfl⟩⟩

/-- Static variables, and what they hold, are never released: not by any history of any threads. -/
theorem statics_stay {h h' : Heap} {t n b : Nat} {out : Out} (hr : HeapReachable h)
    (hx : (HeapOp.newStatics n).run h t = .ok (h', out)) (hout : out = .ref (some b))
    {ops : List (Nat × HeapOp)} {h2 : Heap} (hx2 : runHeap h' ops = .ok h2) :
    Live h2 b ∧ ∀ i y, VarIs h2 b i (some y) → Live h2 y := by
  subst hout
  have hr1 := hr.step hx
  have hpin : b ∈ h'.pinned := by
    obtain ⟨h1, hx1, rfl⟩ := Heap.run_ok hx
    have hb := (Heap.exec_ok hx1).1
    simp only [HeapOp.body] at hb
    injection hb with hb; injection hb with hb1 hb2
    injection hb2 with hb2; injection hb2 with hb2
    subst hb1 hb2
    simp [Heap.newStatics]
  have hpin2 : b ∈ h2.pinned :=
    Along.induct (P := fun _ _ _ => True) (Q := fun h => b ∈ h.pinned)
      (fun h t op h' out hi hq _ hx => (Heap.pins_run hi.toPre hx).subset hq) hr1.inv hpin Along.trivial hx2
  have hr2 := hr1.steps hx2
  exact ⟨hr2.inv.roots b (Heap.mem_roots.2 (.inr (.inl hpin2))), fun i y hy => var_owned hr2 hy⟩

example : ∃ h h' h2 out, HeapReachable h ∧ (HeapOp.newStatics 2).run h 0 = .ok (h', out) ∧
    out = .ref (some 10) ∧
    runHeap h' [(0, .setVar (some 10) 1 (some 9)), (0, .deleteLocalRef (some 9)), (0, .detach)] = .ok h2 ∧
    VarIs h2 10 1 (some 9) := by
  obtain ⟨h, _, hr, hp⟩ := reachable_of (ops := [(0, .newObject none)])
    (p := fun h => ((HeapOp.newStatics 2).run h 0).holds fun x => x.2 == .ref (some 10) &&
      (runHeap x.1 [(0, .setVar (some 10) 1 (some 9)), (0, .deleteLocalRef (some 9)), (0, .detach)]).holds
        fun h2 => h2.objs 10 == some ⟨.record [none, some 9], none⟩)
    (by decide +kernel)
  simp only [Bool.and_eq_true, beq_iff_eq, Res.holds_iff] at hp
  obtain ⟨⟨h', out⟩, hx, rfl, h2, hx2, h10⟩ := hp
  exact ⟨h, h', h2, _, hr, hx, rfl, hx2, _, _, h10, rfl, rfl⟩

/-- A variable of null cannot be read, and setting one through a weak reference whose object is gone is
undefined too; only a null reference itself is ignored when a variable is set. -/
theorem var_of_null {h : Heap} (hr : HeapReachable h) {t : Nat} {e : Env} (he : h.envs t = some e)
    {r v x : Option Nat} (hd : Denotes h r none) (hv : Denotes h v x) (i : Nat) (ty : Option Str) :
    (HeapOp.getVar r i ty).run h t = .ub .nullDeref ∧
      (HeapOp.setVar r i v).run h t = if r = none then .ok (h.collect, .unit) else .ub .nullDeref := by
  have hp := hr.inv.toPre
  have hden := (Heap.denote_iff hp).2 hd
  have hval := (Heap.denote_iff hp).2 hv
  constructor
  · rw [HeapOp.run, Heap.exec_of_body he, HeapOp.body, Heap.getVar, Heap.recordOf, hden]; rfl
  · rw [HeapOp.run, Heap.exec_of_body he, HeapOp.body]
    cases r with
    | none => rfl
    | some r => simp only [Heap.setVar, hval, Res.bind_ok, Heap.recordOf, hden]; rfl

/-- A weak reference to an object that was released. -/
example : ∃ h e, HeapReachable h ∧ h.envs 0 = some e ∧ Denotes h (some 10) none ∧
    Denotes h (some 11) (some 11) := by
  obtain ⟨h, _, hr, hp⟩ := reachable_of
    (ops := [(0, .newRecord 1 none), (0, .newWeakGlobalRef (some 9)), (0, .deleteLocalRef (some 9)),
      (0, .newObject none)])
    (p := fun h => (h.envs 0).isSome && h.denote (some 10) == .ok none && h.denote (some 11) == .ok (some 11))
    (by decide +kernel)
  simp only [Bool.and_eq_true, beq_iff_eq] at hp
  obtain ⟨⟨he, hd⟩, hv⟩ := hp
  obtain ⟨e, he⟩ := Option.isSome_iff_exists.1 he
  exact ⟨h, e, hr, he, (Heap.denote_iff hr.inv.toPre).1 hd, (Heap.denote_iff hr.inv.toPre).1 hv⟩

/-! ## What was set is read back -/

/-- A variable of a primitive type or `bool`: what was set is read back, by any thread and through any reference
to the object, after every history of calls that does not set the variable.  The only change to the value is the
one C++ makes: a `bool` becomes 0 or 1. -/
theorem field_bits {s s1 s2 : VarHeap} (hr : VarsReachable w s) {t u x : Nat} {f g : FieldVar}
    {obj obj2 : Option Nat} {k : JType} {b : BitVec 64} (hobj : obj ≠ none) (ho : OwnerIs w s.heap f obj x)
    (hset : s.set w t f obj (.bits k b) = .ok s1) {ops : List (Nat × VarOp)}
    (hk : AlongVars (KeepsField w x f.index) w s1 ops) (hx : runVars w s1 ops = .ok s2) {e : Env}
    (he : s2.heap.envs u = some e) (hg : OwnerIs w s2.heap g obj2 x) (ha : ClassArg s2.heap g obj2)
    (hi : g.index = f.index) (hty : g.type = f.type) :
    s2.get w u g k obj2 = .ok (s2, .bits k (stored f.type b)) := by
  obtain ⟨hj, hb⟩ := VarHeap.set_bits hr.heap.inv.toPre hobj ho hset
  have hr1 : HeapReachable s1.heap := (hr.step (op := .set f obj (.bits k b)) hset).heap
  obtain ⟨hr2, hb2⟩ := AlongVars.induct (Q := fun s => s.bits x f.index = stored f.type b)
    (fun s t op s' hr hq hp hx => by rw [(varOp_kept hr.inv.toPre hp hx).1]; exact hq) hr1 hb hk hx
  have hp2 := hr2.inv.toPre
  have henv : s2.heap.env u = .ok e := by simp [Heap.env, he]
  have hkind : (∃ k, f.type = .prim k) ∨ f.type = .bool := by
    rcases VarHeap.set_cases hset with ⟨h, _⟩ | ⟨_, _, hx⟩
    · exact absurd h hobj
    · obtain ⟨_, _, ⟨ty, _, _, h, _⟩ | ⟨_, _, h, _⟩ | ⟨_, _, h, _⟩ | ⟨_, _, _, _, _, _, h, _⟩ |
        ⟨_, _, _, _, _, h, _⟩⟩ := VarHeap.store_cases hr.heap.inv.toPre hx
      · exact .inl ⟨ty, h⟩
      · exact .inr h
      · cases h
      · cases h
      · cases h
  simp only [VarHeap.get, henv, Res.bind_ok, VarHeap.param_ok hp2 ha, (VarHeap.owner_iff hp2).2 hg, hty, hi, hj,
    ne_eq, not_true_eq_false, if_false]
  rcases hkind with ⟨ty, h⟩ | h
  · rw [h] at hb2 ⊢; simp only [hb2]
  · rw [h] at hb2 ⊢; simp only [hb2]

/-- Class 0 has the variables; objects 9 and 12 are of it, object 10 is of class 1, which is bound to
`java/lang/Object`. -/
def varTypes : CppTypes where
  isa i c := (i, c) ∈ [(9, .cls 0), (12, .cls 0), (10, .cls 1)]
  name c := if c = .cls 1 then some "java/lang/Object".toList else none

def flagField : FieldVar := ⟨.inst (.cls 0), 2, .bool⟩

def linkField : FieldVar := ⟨.inst (.cls 0), 0, .shared (.cls 1)⟩

/-- An object with variables, an object to store, a global reference to the first one, a second object with
variables. -/
def varSetup : List (Nat × VarOp) :=
  [(0, .jni (.newRecord 2 none)), (0, .jni (.newObject none)), (0, .jni (.newGlobalRef (some 9))),
    (0, .jni (.newRecord 2 none)), (1, .jni .attach)]

/-- The variable is read, set in another object, another variable is set, a call is refused, and local references
are deleted. -/
def varAfter : List (Nat × VarOp) :=
  [(0, .get linkField .object (some 11)), (0, .set linkField (some 12) (.ref none)),
    (0, .set ⟨.inst (.cls 0), 1, .shared (.cls 0)⟩ (some 9) (.ref (some 12))),
    (0, .set linkField (some 12) (.ref (some 12))),
    (0, .set ⟨.inst (.cls 0), 3, .prim .long⟩ (some 9) (.bits .long 7)),
    (0, .jni (.deleteLocalRef (some 10))), (0, .jni (.deleteLocalRef (some 9))),
    (0, .jni (.deleteLocalRef (some 10)))]

/-- Thread 0 sets a `bool` to 2 through a global reference, thread 1 reads 1 through the object. -/
example : ∃ s s1 s2 e, VarsReachable varTypes s ∧ OwnerIs varTypes s.heap flagField (some 11) 9 ∧
    s.set varTypes 0 flagField (some 11) (.bits .boolean 2) = .ok s1 ∧
    AlongVars (KeepsField varTypes 9 2) varTypes s1 varAfter.dropLast ∧ runVars varTypes s1 varAfter.dropLast = .ok s2 ∧
    s2.heap.envs 1 = some e ∧ OwnerIs varTypes s2.heap flagField (some 9) 9 ∧
    ClassArg s2.heap flagField (some 9) ∧ stored .bool 2 = 1 := by
  obtain ⟨s, _, hr, hp⟩ := varsReachable_of (w := varTypes) (ops := varSetup)
    (p := fun s => VarHeap.owner varTypes s.heap flagField (some 11) == .ok 9 &&
      (s.set varTypes 0 flagField (some 11) (.bits .boolean 2)).holds fun s1 =>
        alongVarsB (keepsFieldB varTypes 9 2) varTypes s1 varAfter.dropLast &&
        (runVars varTypes s1 varAfter.dropLast).holds fun s2 => (s2.heap.envs 1).isSome &&
          VarHeap.owner varTypes s2.heap flagField (some 9) == .ok 9)
    (by decide +kernel)
  simp only [Bool.and_eq_true, beq_iff_eq, Res.holds_iff] at hp
  obtain ⟨ho, s1, hs, ha, s2, hx, he, hg⟩ := hp
  obtain ⟨e, he⟩ := Option.isSome_iff_exists.1 he
  have hr1 := hr.step (op := .set flagField (some 11) (.bits .boolean 2)) hs
  exact ⟨s, s1, s2, e, hr, (VarHeap.owner_iff hr.heap.inv.toPre).1 ho, hs, alongVarsB_sound hr1.heap ha, hx, he,
    (VarHeap.owner_iff (hr1.steps hx).heap.inv.toPre).1 hg, True.intro, by decide⟩

/-- A variable of type `std::shared_ptr<T>`: the object that was set is read back, as a local reference of the
reading thread, after every history of calls that does not set the variable.  In particular the object is not
released meanwhile, even if the caller deletes all references to it. -/
theorem field_object {s s1 s2 : VarHeap} (hr : VarsReachable w s) {t u x : Nat} {f g : FieldVar}
    {obj obj2 r y : Option Nat} {c : CppClass} (hobj : obj ≠ none) (ho : OwnerIs w s.heap f obj x)
    (hf : f.type = .shared c) (hd : Denotes s.heap r y)
    (hset : s.set w t f obj (.ref r) = .ok s1) {ops : List (Nat × VarOp)}
    (hk : AlongVars (KeepsField w x f.index) w s1 ops) (hx : runVars w s1 ops = .ok s2) {e : Env}
    (he : s2.heap.envs u = some e) (hg : OwnerIs w s2.heap g obj2 x) (ha : ClassArg s2.heap g obj2)
    (hi : g.index = f.index) (hty : g.type = f.type) :
    ∃ s3, s2.get w u g .object obj2 = .ok (s3, .ref y) ∧
      ∀ j, y = some j → Live s3.heap j ∧ HasLocal s3.heap u j := by
  have hp := hr.heap.inv.toPre
  have hr1 : HeapReachable s1.heap := (hr.step (op := .set f obj (.ref r)) hset).heap
  have hlt : x < s1.heap.next := by
    obtain ⟨o, ho, _⟩ := VarHeap.owner_plain hp ho
    have h0 := hp.bound x o ho
    rcases varOp_heap hp (op := .set f obj (.ref r)) hset with h | ⟨hop, out, h, _⟩
    · rw [h]; exact h0
    · exact Nat.lt_of_lt_of_le h0 (runStep hp h).next
  obtain ⟨hr2, _, hq⟩ := AlongVars.induct
    (Q := fun s => x < s.heap.next ∧ (Live s.heap x → VarIs s.heap x f.index y))
    (fun s t op s' hr hq hp hx => by
      rcases keepsField_var hr.inv.toPre hp hx with h | ⟨hop, out, h, hkv⟩
      · rw [h]; exact hq
      · exact ⟨Nat.lt_of_lt_of_le hq.1 (runStep hr.inv.toPre h).next, var_run hr.inv h hkv hq.1 hq.2⟩)
    hr1 ⟨hlt, VarHeap.set_object hp hobj ho hf hd hset⟩ hk hx
  have hp2 := hr2.inv.toPre
  obtain ⟨o, hox, _⟩ := VarHeap.owner_plain hp2 hg
  have hv : VarIs s2.heap x g.index y := by rw [hi]; exact hq ⟨o, hox⟩
  obtain ⟨h', hrun, hget⟩ := VarHeap.get_object hp2 he ha hg (hty.trans hf) hv
  refine ⟨_, hget, ?_⟩
  rintro j rfl
  obtain ⟨h1, hx1, rfl⟩ := Heap.run_ok hrun
  have st := Heap.step_exec hp2 hx1
  obtain ⟨e', he', hfr⟩ := Heap.local_pushed hp2 (op := .getVar _ _ _) (by trivial) hx1 (by simp)
  refine ⟨?_, e', by simpa using he', hfr⟩
  obtain ⟨oj, hoj⟩ := st.pre.roots j (Heap.mem_roots.2 (.inr (.inr
    ⟨u, e', st.pre.thread u e' he', he', .inl hfr⟩)))
  exact ⟨oj, Heap.collect_keep st.pre.bound (.root (Heap.mem_roots.2 (.inr (.inr
    ⟨u, e', st.pre.thread u e' he', he', .inl hfr⟩)))) hoj⟩

/-- The stored object has no other reference when thread 1 reads it. -/
example : ∃ s s1 s2 e, VarsReachable varTypes s ∧
    OwnerIs varTypes s.heap linkField (some 11) 9 ∧ Denotes s.heap (some 10) (some 10) ∧
    s.set varTypes 0 linkField (some 11) (.ref (some 10)) = .ok s1 ∧
    AlongVars (KeepsField varTypes 9 0) varTypes s1 varAfter ∧ runVars varTypes s1 varAfter = .ok s2 ∧
    s2.heap.envs 1 = some e ∧ OwnerIs varTypes s2.heap linkField (some 11) 9 ∧
    ClassArg s2.heap linkField (some 11) ∧ ¬ HasLocal s2.heap 0 10 := by
  obtain ⟨s, _, hr, hp⟩ := varsReachable_of (w := varTypes) (ops := varSetup)
    (p := fun s => VarHeap.owner varTypes s.heap linkField (some 11) == .ok 9 &&
      s.heap.denote (some 10) == .ok (some 10) &&
      (s.set varTypes 0 linkField (some 11) (.ref (some 10))).holds fun s1 =>
        alongVarsB (keepsFieldB varTypes 9 0) varTypes s1 varAfter &&
        (runVars varTypes s1 varAfter).holds fun s2 => (s2.heap.envs 1).isSome &&
          VarHeap.owner varTypes s2.heap linkField (some 11) == .ok 9 &&
          (s2.heap.envs 0).all fun e => e.frames.all fun f => !f.contains 10)
    (by decide +kernel)
  simp only [Bool.and_eq_true, beq_iff_eq, Res.holds_iff] at hp
  obtain ⟨⟨ho, hd⟩, s1, hs, ha, s2, hx, ⟨he, hg⟩, hn⟩ := hp
  obtain ⟨e, he⟩ := Option.isSome_iff_exists.1 he
  have hr1 := hr.step (op := .set linkField (some 11) (.ref (some 10))) hs
  have hp0 := hr.heap.inv.toPre
  refine ⟨s, s1, s2, e, hr, (VarHeap.owner_iff hp0).1 ho, (Heap.denote_iff hp0).1 hd, hs,
    alongVarsB_sound hr1.heap ha, hx, he, (VarHeap.owner_iff (hr1.steps hx).heap.inv.toPre).1 hg, True.intro, ?_⟩
  rintro ⟨e, he, f, hf, hi⟩
  simp only [he, Option.all_some, List.all_eq_true] at hn
  have := hn f hf
  simp [hi] at this

/-- A call on a variable is defined: setting a primitive variable, or a pointer to null or to an instance of the
right type, works. -/
theorem field_set_ok {s : VarHeap} (hr : VarsReachable w s) {t x : Nat} {f : FieldVar} {obj : Option Nat}
    {v : VarVal} {e : Env} (he : s.heap.envs t = some e) (ho : OwnerIs w s.heap f obj x)
    (ha : ClassArg s.heap f obj) (hj : f.type.jni = v.jni)
    (hv : (∃ k b, v = .bits k b ∧ ((∃ ty, f.type = .prim ty) ∨ f.type = .bool)) ∨
      ∃ c r y z, v = .ref r ∧ f.type = .shared c ∧ DenotesA w s.heap c r y ∧ VarIs s.heap x f.index z) :
    ∃ s', s.set w t f obj v = .ok s' := by
  have hp := hr.heap.inv.toPre
  have henv : s.heap.env t = .ok e := by simp [Heap.env, he]
  cases obj with
  | none => exact ⟨s, by simp only [VarHeap.set, henv, Res.bind_ok]⟩
  | some o =>
    simp only [VarHeap.set, henv, Res.bind_ok, VarHeap.param_ok hp ha, hj, ne_eq, not_true_eq_false, if_false]
    rcases hv with ⟨k, b, rfl, ⟨ty, h⟩ | h⟩ | ⟨c, r, y, z, rfl, h, hd, vo, vars, hox, hk, hz⟩
    · exact ⟨_, by simp only [VarHeap.store, h, (VarHeap.owner_iff hp).2 ho, Res.bind_ok]; rfl⟩
    · exact ⟨_, by simp only [VarHeap.store, h, (VarHeap.owner_iff hp).2 ho, Res.bind_ok]; rfl⟩
    · have hlt : f.index < vars.length := by
        rcases Nat.lt_or_ge f.index vars.length with h1 | h1
        · exact h1
        · rw [List.getElem?_eq_none h1] at hz; cases hz
      have hrec : s.heap.recordOf (some x) f.index = .ok (x, vo, vars) := by
        rw [Heap.recordOf, (Heap.denote_iff hp).2 (VarHeap.owner_self hp ho), Res.bind_ok]
        simp only [hox, hk, if_pos hlt]
      have hy : s.heap.denote y = .ok y := by
        cases y with
        | none => rfl
        | some j =>
          obtain ⟨oj, hoj, hw⟩ := Heap.denotes_ok hp hd.1
          exact (Heap.denote_iff hp).2 (.direct hoj hw)
      have hrun : ∃ h', (HeapOp.setVar (some x) f.index y).run s.heap t = .ok (h', .unit) := by
        rw [HeapOp.run, Heap.exec_of_body he, HeapOp.body, Heap.setVar]
        simp only [hy, Res.bind_ok, hrec]
        exact ⟨_, rfl⟩
      obtain ⟨h', hrun⟩ := hrun
      exact ⟨{ s with heap := h' }, by
        simp only [VarHeap.store, h, VarHeap.unpack_of hp hd, (VarHeap.owner_iff hp).2 ho, Res.bind_ok, hrun]⟩

example : ∃ s e y z, VarsReachable varTypes s ∧ s.heap.envs 0 = some e ∧
    OwnerIs varTypes s.heap linkField (some 11) 9 ∧ ClassArg s.heap linkField (some 11) ∧
    DenotesA varTypes s.heap (.cls 1) (some 10) (some y) ∧ VarIs s.heap 9 0 z := by
  obtain ⟨s, _, hr, hp⟩ := varsReachable_of (w := varTypes) (ops := varSetup)
    (p := fun s => VarHeap.owner varTypes s.heap linkField (some 11) == .ok 9 && (s.heap.envs 0).isSome &&
      s.heap.denote (some 10) == .ok (some 10) &&
      (s.heap.objs 9).any fun o => o.kind == .record [none, none])
    (by decide +kernel)
  simp only [Bool.and_eq_true, beq_iff_eq, Option.any_eq_true] at hp
  obtain ⟨⟨⟨ho, he⟩, hd⟩, o, ho9, hk⟩ := hp
  obtain ⟨e, he⟩ := Option.isSome_iff_exists.1 he
  have hp0 := hr.heap.inv.toPre
  exact ⟨s, e, 10, none, hr, he, (VarHeap.owner_iff hp0).1 ho, True.intro,
    ⟨(Heap.denote_iff hp0).1 hd, by rintro i ⟨⟩; decide⟩, o, _, ho9, hk, rfl⟩

/-! ## Types -/

/-- Whatever histories of accesses through fields that were hooked to variables of their type: a variable of type
`std::shared_ptr<T>` is null or points to an instance of `T`, and so does what is read from it. -/
theorem field_typed {lay : VarLayout} {s s' : VarHeap} {ops : List (Nat × VarOp)}
    (hreg : ∀ x ∈ ops, Regular lay w x.2) (hx : runVars w VarHeap.initial ops = .ok s) :
    TypedVars lay w s ∧
    ∀ (f : FieldVar) (c : CppClass) (t : Nat) (obj : Option Nat) (y : Nat), Hooked lay w f →
      f.type = .shared c → s.get w t f .object obj = .ok (s', .ref (some y)) → w.isa y c = true := by
  have key : ∀ (ops : List (Nat × VarOp)) (s : VarHeap), (∀ x ∈ ops, Regular lay w x.2) →
      AlongVars (fun _ op => Regular lay w op) w s ops := by
    intro ops
    induction ops with
    | nil => exact fun _ _ => True.intro
    | cons x ops ih =>
      intro s h
      exact ⟨h x (List.mem_cons_self ..), fun s' _ => ih s' fun x hx => h x (List.mem_cons_of_mem _ hx),
        fun _ _ => ih s fun x hx => h x (List.mem_cons_of_mem _ hx)⟩
  obtain ⟨hr, hq⟩ := AlongVars.induct (Q := TypedVars lay w)
    (fun s t op s' hr hq hp hx => typedVars_run hr hx hp hq) HeapReachable.initial (by
      intro x i c y _ ⟨o, vars, ho, hk, _⟩
      obtain ⟨n, hn⟩ := Heap.initial_kinds ho
      rw [hk] at hn; cases hn) (key ops _ hreg) hx
  refine ⟨hq, fun f c t obj y hh hty hg => ?_⟩
  have hp := hr.inv.toPre
  obtain ⟨_, x, ho, ⟨h, _⟩ | ⟨h, _⟩ | ⟨c', h', r, h, hv, _, hrun⟩ | ⟨_, _, _, h, _⟩⟩ := VarHeap.get_cases hp hg
  · rcases h with ⟨_, h⟩ | h <;> rw [hty] at h <;> cases h
  · rw [hty] at h; cases h
  · cases hv
    have hlay : lay x f.index = some f.type := by
      unfold OwnerIs at ho
      unfold Hooked at hh
      cases hf : f.owner with
      | inst k => rw [hf] at hh ho; exact hh x ho.2
      | static b => rw [hf] at hh ho; rw [ho.1]; exact hh
    refine hq x f.index c y (hlay.trans (by rw [hty])) ?_
    obtain ⟨h1, hx1, rfl⟩ := Heap.run_ok hrun
    obtain ⟨r, hb, hr'⟩ := Heap.outRef_ok (Heap.exec_ok hx1).1
    cases hr'
    obtain ⟨⟨z, oz, vars⟩, hrec, hb2⟩ := Res.bind_eq_ok.1 hb
    dsimp only at hb2
    obtain ⟨hd, hoz, hk, hlt⟩ := Heap.recordOf_ok hrec
    cases Heap.denotes_fun ((Heap.denote_iff hp).1 hd) (VarHeap.owner_self hp ho)
    refine ⟨oz, vars, hoz, hk, ?_⟩
    have := (hp.toJNI? hp.typeClass? hb2).2
    rw [List.getD_eq_getElem?_getD] at this
    cases hg : vars[f.index]? with
    | none => rw [hg] at this; cases this
    | some a => rw [hg] at this; exact congrArg some this.symm
  · rw [hty] at h; cases h

/-- Every object of class 0 has a variable of type `std::shared_ptr<class 1>` and one of type
`std::shared_ptr<class 0>`. -/
def varLayout : VarLayout := fun x i =>
  if varTypes.isa x (.cls 0) then
    match i with
    | 0 => some (.shared (.cls 1))
    | 1 => some (.shared (.cls 0))
    | 2 => some .bool
    | 3 => some (.prim .long)
    | _ => none
  else none

example : (∀ x ∈ varSetup ++ (0, .set linkField (some 11) (.ref (some 10))) :: varAfter,
      Regular varLayout varTypes x.2) ∧ Hooked varLayout varTypes linkField ∧
    ∃ s s', runVars varTypes VarHeap.initial
        (varSetup ++ (0, .set linkField (some 11) (.ref (some 10))) :: varAfter) = .ok s ∧
      s.get varTypes 1 linkField .object (some 11) = .ok (s', .ref (some 10)) := by
  have hh : ∀ i ty, (i = 0 ∧ ty = .shared (.cls 1)) ∨ (i = 1 ∧ ty = .shared (.cls 0)) ∨
      (i = 3 ∧ ty = .prim .long) → Hooked varLayout varTypes ⟨.inst (.cls 0), i, ty⟩ := by
    rintro i ty (⟨rfl, rfl⟩ | ⟨rfl, rfl⟩ | ⟨rfl, rfl⟩) x hx <;>
      simp only [varLayout, hx, if_true]
  refine ⟨?_, hh 0 _ (.inl ⟨rfl, rfl⟩), ?_⟩
  · simp only [varSetup, varAfter, List.cons_append, List.nil_append, List.forall_mem_cons, Regular]
    refine ⟨trivial, trivial, trivial, trivial, trivial, hh 0 _ (.inl ⟨rfl, rfl⟩), hh 0 _ (.inl ⟨rfl, rfl⟩),
      hh 0 _ (.inl ⟨rfl, rfl⟩), hh 1 _ (.inr (.inl ⟨rfl, rfl⟩)), hh 0 _ (.inl ⟨rfl, rfl⟩),
      hh 3 _ (.inr (.inr ⟨rfl, rfl⟩)), trivial, trivial, trivial, fun _ h => nomatch h⟩
  · have h : (runVars varTypes VarHeap.initial
        (varSetup ++ (0, .set linkField (some 11) (.ref (some 10))) :: varAfter)).holds
        (fun s => (s.get varTypes 1 linkField .object (some 11)).holds fun x => x.2 == .ref (some 10)) = true := by
      decide +kernel
    simp only [Res.holds_iff, beq_iff_eq] at h
    obtain ⟨s, hx, ⟨s', v⟩, hg, rfl⟩ := h
    exact ⟨s, s', hx, hg⟩

/-- An object of another type is refused, and a null object for a variable of class type: an exception is thrown
and nothing has changed. -/
theorem field_wrong_type {s : VarHeap} (hr : VarsReachable w s) {t : Nat} {f : FieldVar} {o : Nat}
    {r y : Option Nat} {c : CppClass} {e : Env} (he : s.heap.envs t = some e) (ha : ClassArg s.heap f (some o))
    (hf : f.type = .shared c ∨ f.type = .value c) (hd : Denotes s.heap r y)
    (hbad : (∃ i, y = some i ∧ w.isa i c = false) ∨ (y = none ∧ f.type = .value c)) :
    s.set w t f (some o) (.ref r) = .throws (if y = none then .runtimeError else .badCast) ∧
    ∀ ops, runVars w s ((t, .set f (some o) (.ref r)) :: ops) = runVars w s ops := by
  have hp := hr.heap.inv.toPre
  have henv : s.heap.env t = .ok e := by simp [Heap.env, he]
  have key : s.set w t f (some o) (.ref r) = .throws (if y = none then .runtimeError else .badCast) := by
    have hj : f.type.jni = .object := by rcases hf with h | h <;> rw [h] <;> rfl
    simp only [VarHeap.set, henv, Res.bind_ok, VarHeap.param_ok hp ha, VarVal.jni, hj, ne_eq, not_true_eq_false,
      if_false]
    rcases hbad with ⟨i, rfl, hi⟩ | ⟨rfl, h⟩
    · have hu : s.heap.unpack w c r = .throws .badCast := by
        rw [Heap.unpack, (Heap.denote_iff hp).2 hd, Res.bind_ok]
        simp [hi]
      rcases hf with h | h <;> simp only [VarHeap.store, h, hu] <;> rfl
    · have hu : s.heap.unpack w c r = .ok none := by
        rw [Heap.unpack, (Heap.denote_iff hp).2 hd, Res.bind_ok]
      simp only [VarHeap.store, h, hu]
      rfl
  exact ⟨key, fun ops => by simp only [runVars, VarOp.run, key]⟩

example : ∃ s e, VarsReachable varTypes s ∧ s.heap.envs 0 = some e ∧ ClassArg s.heap linkField (some 9) ∧
    Denotes s.heap (some 11) (some 9) ∧ varTypes.isa 9 (.cls 1) = false := by
  obtain ⟨s, _, hr, hp⟩ := varsReachable_of (w := varTypes) (ops := varSetup)
    (p := fun s => (s.heap.envs 0).isSome && s.heap.denote (some 11) == .ok (some 9)) (by decide +kernel)
  simp only [Bool.and_eq_true, beq_iff_eq] at hp
  obtain ⟨e, he⟩ := Option.isSome_iff_exists.1 hp.1
  exact ⟨s, e, hr, he, True.intro, (Heap.denote_iff hr.heap.inv.toPre).1 hp.2, by decide⟩

/-- A function of the interface for another type, like `SetIntField` for a `jlong`, throws and changes
nothing. -/
theorem field_mismatch {s : VarHeap} (hr : VarsReachable w s) {t : Nat} {f : FieldVar} {obj : Option Nat}
    {e : Env} (he : s.heap.envs t = some e) (ha : ClassArg s.heap f obj) {ty : JType} (hty : f.type.jni ≠ ty)
    {v : VarVal} (hv : v.jni = ty) :
    s.get w t f ty obj = .throws .mismatchedHandle ∧
    (obj ≠ none → s.set w t f obj v = .throws .mismatchedHandle) := by
  have hp := hr.heap.inv.toPre
  have henv : s.heap.env t = .ok e := by simp [Heap.env, he]
  refine ⟨?_, fun hobj => ?_⟩
  · simp only [VarHeap.get, henv, Res.bind_ok, VarHeap.param_ok hp ha, ne_eq, hty, not_false_eq_true, if_true]
  · cases obj with
    | none => exact absurd rfl hobj
    | some o =>
      simp only [VarHeap.set, henv, Res.bind_ok, VarHeap.param_ok hp ha, hv, ne_eq, hty, not_false_eq_true, if_true]

example : ∃ s e, VarsReachable varTypes s ∧ s.heap.envs 0 = some e ∧
    ClassArg s.heap ⟨.inst (.cls 0), 3, .prim .long⟩ (some 9) ∧ (VarTy.prim .long).jni ≠ .int ∧
    (VarVal.bits .int 5).jni = .int := by
  obtain ⟨s, _, hr, hp⟩ := varsReachable_of (w := varTypes) (ops := varSetup)
    (p := fun s => (s.heap.envs 0).isSome) (by decide +kernel)
  obtain ⟨e, he⟩ := Option.isSome_iff_exists.1 hp
  exact ⟨s, e, hr, he, True.intro, by decide, rfl⟩

/-- Setting a field of null does nothing; reading a member variable of null, or of a cleared weak reference, is
undefined behaviour. -/
theorem field_of_null {s : VarHeap} (hr : VarsReachable w s) {t : Nat} {f : FieldVar} {e : Env}
    (he : s.heap.envs t = some e) :
    (∀ v, s.set w t f none v = .ok s) ∧
    ∀ c obj, f.owner = .inst c → Denotes s.heap obj none → s.get w t f f.type.jni obj = .ub .nullDeref := by
  have hp := hr.heap.inv.toPre
  have henv : s.heap.env t = .ok e := by simp [Heap.env, he]
  refine ⟨fun v => by simp only [VarHeap.set, henv, Res.bind_ok], fun c obj hf hd => ?_⟩
  have ho : VarHeap.owner w s.heap f obj = .ub .nullDeref := by
    simp only [VarHeap.owner, hf, Heap.unpack, (Heap.denote_iff hp).2 hd, Res.bind_ok]
  simp only [VarHeap.get, henv, Res.bind_ok, VarHeap.param, hf, ho, ne_eq, not_true_eq_false, if_false]
  rfl

/-- A weak reference whose object has been released. -/
example : ∃ s e, VarsReachable varTypes s ∧ s.heap.envs 0 = some e ∧ Denotes s.heap (some 13) none := by
  obtain ⟨s, _, hr, hp⟩ := varsReachable_of (w := varTypes) (ops := varSetup ++
      [(0, .jni (.newWeakGlobalRef (some 12))), (0, .jni (.deleteLocalRef (some 12)))])
    (p := fun s => (s.heap.envs 0).isSome && s.heap.denote (some 13) == .ok none) (by decide +kernel)
  simp only [Bool.and_eq_true, beq_iff_eq] at hp
  obtain ⟨e, he⟩ := Option.isSome_iff_exists.1 hp.1
  exact ⟨s, e, hr, he, (Heap.denote_iff hr.heap.inv.toPre).1 hp.2⟩

/-! ## Variables of class type -/

/-- Reading a variable of class type gives a new object each time: never the object that was set.  It has the
class of the object that was set, although only the part that belongs to the type of the variable was copied;
if that object had none, it has the class of the type. -/
theorem field_copy {s s1 s2 : VarHeap} (hr : VarsReachable w s) {t u x y : Nat} {f g : FieldVar}
    {obj obj2 r : Option Nat} {c : CppClass} {oy : Obj} (hobj : obj ≠ none) (ho : OwnerIs w s.heap f obj x)
    (hf : f.type = .value c) (hd : Denotes s.heap r (some y)) (hy : s.heap.objs y = some oy)
    (hset : s.set w t f obj (.ref r) = .ok s1) {ops : List (Nat × VarOp)}
    (hk : AlongVars (KeepsField w x f.index) w s1 ops) (hx : runVars w s1 ops = .ok s2) {e : Env}
    (he : s2.heap.envs u = some e) (hg : OwnerIs w s2.heap g obj2 x) (ha : ClassArg s2.heap g obj2)
    (hi : g.index = f.index) (hty : g.type = f.type) :
    ∃ s3 z o, s2.get w u g .object obj2 = .ok (s3, .ref (some z)) ∧ z ≠ y ∧ ¬ Live s2.heap z ∧
      s3.heap.objs z = some o ∧ (∀ k, oy.cls = some k → o.cls = some k) ∧
      (oy.cls = none → o.cls = (w.name c).bind s2.heap.typeClass) := by
  have hp := hr.heap.inv.toPre
  have hr1 := hr.step (op := .set f obj (.ref r)) hset
  have hc1 : s1.copies x f.index = oy.cls ∧ y < s1.heap.next := by
    rcases VarHeap.set_cases hset with ⟨h, _⟩ | ⟨_, _, hx⟩
    · exact absurd h hobj
    · obtain ⟨x', ho', hc⟩ := VarHeap.store_cases hp hx
      have hxx : x' = x := by
        have h1 := (VarHeap.owner_iff hp).2 ho'
        rw [(VarHeap.owner_iff hp).2 ho] at h1
        cases h1; rfl
      subst hxx
      rcases hc with ⟨ty, k, b, h1, _⟩ | ⟨k, b, h1, _⟩ | ⟨r, h1, _⟩ |
          ⟨_, _, _, _, _, h1, _⟩ | ⟨c, r, z, o, h1, hv, hd', hz, rfl⟩ <;>
        try (rw [hf] at h1; cases h1; done)
      cases hv
      cases Heap.denotes_fun hd hd'.1
      rw [hy] at hz; cases hz
      exact ⟨assign_same _ _ _ _, hp.bound y oy hy⟩
  obtain ⟨hr2, hc2, hlt⟩ := AlongVars.induct
    (Q := fun s => s.copies x f.index = oy.cls ∧ y < s.heap.next)
    (fun s t op s' hr hq hp hx => by
      refine ⟨by rw [(varOp_kept hr.inv.toPre hp hx).2.2]; exact hq.1, ?_⟩
      rcases varOp_heap hr.inv.toPre hx with h | ⟨hop, out, h, _⟩
      · rw [h]; exact hq.2
      · exact Nat.lt_of_lt_of_le hq.2 (runStep hr.inv.toPre h).next) hr1.heap hc1 hk hx
  obtain ⟨h', _, hget, o, ho3, hcl, hcn⟩ := VarHeap.get_copy (hr1.steps hx) he ha hg (hty.trans hf)
  rw [hi, hc2] at hcl hcn
  refine ⟨_, _, o, hget, (by omega), ?_, ho3, hcl, hcn⟩
  rintro ⟨o2, h2⟩
  exact Nat.lt_irrefl _ (hr2.inv.bound _ _ h2)

def valueField : FieldVar := ⟨.inst (.cls 0), 4, .value (.cls 1)⟩

/-- The object that was set has been released when the variable is read. -/
example : ∃ s s1 s2 e oy, VarsReachable varTypes s ∧ OwnerIs varTypes s.heap valueField (some 11) 9 ∧
    Denotes s.heap (some 10) (some 10) ∧ s.heap.objs 10 = some oy ∧
    s.set varTypes 0 valueField (some 11) (.ref (some 10)) = .ok s1 ∧
    AlongVars (KeepsField varTypes 9 4) varTypes s1 varAfter.dropLast ∧
    runVars varTypes s1 varAfter.dropLast = .ok s2 ∧ s2.heap.envs 1 = some e ∧
    OwnerIs varTypes s2.heap valueField (some 9) 9 ∧ ClassArg s2.heap valueField (some 9) ∧
    ¬ Live s2.heap 10 := by
  obtain ⟨s, _, hr, hp⟩ := varsReachable_of (w := varTypes) (ops := varSetup)
    (p := fun s => VarHeap.owner varTypes s.heap valueField (some 11) == .ok 9 &&
      s.heap.denote (some 10) == .ok (some 10) && (s.heap.objs 10).isSome &&
      (s.set varTypes 0 valueField (some 11) (.ref (some 10))).holds fun s1 =>
        alongVarsB (keepsFieldB varTypes 9 4) varTypes s1 varAfter.dropLast &&
        (runVars varTypes s1 varAfter.dropLast).holds fun s2 => (s2.heap.envs 1).isSome &&
          VarHeap.owner varTypes s2.heap valueField (some 9) == .ok 9 && (s2.heap.objs 10).isNone)
    (by decide +kernel)
  simp only [Bool.and_eq_true, beq_iff_eq, Res.holds_iff] at hp
  obtain ⟨⟨⟨ho, hd⟩, hy⟩, s1, hs, ha, s2, hx, ⟨he, hg⟩, hn⟩ := hp
  obtain ⟨e, he⟩ := Option.isSome_iff_exists.1 he
  obtain ⟨oy, hy⟩ := Option.isSome_iff_exists.1 hy
  have hr1 := hr.step (op := .set valueField (some 11) (.ref (some 10))) hs
  have hp0 := hr.heap.inv.toPre
  refine ⟨s, s1, s2, e, oy, hr, (VarHeap.owner_iff hp0).1 ho, (Heap.denote_iff hp0).1 hd, hy, hs,
    alongVarsB_sound hr1.heap ha, hx, he, (VarHeap.owner_iff (hr1.steps hx).heap.inv.toPre).1 hg, True.intro, ?_⟩
  rintro ⟨o, ho⟩
  rw [ho] at hn; cases hn

/-! ## Variables of type `jobject` -/

/-- A variable of type `jobject` gives back the reference that was set, no other reference to the object. -/
theorem field_handle {s s1 s2 : VarHeap} (hr : VarsReachable w s) {t u x : Nat} {f g : FieldVar}
    {obj obj2 r : Option Nat} (hobj : obj ≠ none) (ho : OwnerIs w s.heap f obj x) (hf : f.type = .jobject)
    (hset : s.set w t f obj (.ref r) = .ok s1) {ops : List (Nat × VarOp)}
    (hk : AlongVars (KeepsField w x f.index) w s1 ops) (hx : runVars w s1 ops = .ok s2) {e : Env}
    (he : s2.heap.envs u = some e) (hg : OwnerIs w s2.heap g obj2 x) (ha : ClassArg s2.heap g obj2)
    (hi : g.index = f.index) (hty : g.type = f.type) :
    s2.get w u g .object obj2 = .ok (s2, .ref r) := by
  have hp := hr.heap.inv.toPre
  have hr1 := (hr.step (op := .set f obj (.ref r)) hset).heap
  have hc1 : s1.refs x f.index = r := by
    rcases VarHeap.set_cases hset with ⟨h, _⟩ | ⟨_, _, hx⟩
    · exact absurd h hobj
    · obtain ⟨x', ho', hc⟩ := VarHeap.store_cases hp hx
      have hxx : x' = x := by
        have h1 := (VarHeap.owner_iff hp).2 ho'
        rw [(VarHeap.owner_iff hp).2 ho] at h1
        cases h1; rfl
      subst hxx
      rcases hc with ⟨ty, k, b, h1, _⟩ | ⟨k, b, h1, _⟩ | ⟨r, h1, hv, rfl⟩ |
          ⟨_, _, _, _, _, h1, _⟩ | ⟨c, r, z, o, h1, _⟩ <;>
        try (rw [hf] at h1; cases h1; done)
      cases hv
      exact assign_same _ _ _ _
  obtain ⟨hr2, hc2⟩ := AlongVars.induct (Q := fun s => s.refs x f.index = r)
    (fun s t op s' hr hq hp hx => by rw [(varOp_kept hr.inv.toPre hp hx).2.1]; exact hq) hr1 hc1 hk hx
  have hp2 := hr2.inv.toPre
  have henv : s2.heap.env u = .ok e := by simp [Heap.env, he]
  simp only [VarHeap.get, henv, Res.bind_ok, VarHeap.param_ok hp2 ha, (VarHeap.owner_iff hp2).2 hg, hty, hi, hf,
    VarTy.jni, ne_eq, not_true_eq_false, if_false, hc2]

/-- A static variable of type `jobject`. -/
def handleField (block : Nat) : FieldVar := ⟨.static block, 0, .jobject⟩

def handleSetup : List (Nat × VarOp) := [(0, .jni (.newStatics 1)), (0, .jni (.newObject none)), (1, .jni .attach)]

/-- A static field is only accessed with a class: any other object is refused with an exception. -/
theorem field_not_class {s : VarHeap} (hr : VarsReachable w s) {t b x : Nat} {f : FieldVar} {r : Option Nat}
    {e : Env} (he : s.heap.envs t = some e) (hf : f.owner = .static b) (hd : Denotes s.heap r (some x))
    (hk : ∀ o n, s.heap.objs x = some o → o.kind ≠ .cls n) (ty : JType) (v : VarVal) :
    s.get w t f ty r = .throws .badCast ∧ s.set w t f r v = .throws .badCast := by
  have hp := hr.heap.inv.toPre
  have henv : s.heap.env t = .ok e := by simp [Heap.env, he]
  have hden := (Heap.denote_iff hp).2 hd
  obtain ⟨o, ho, _⟩ := Heap.denotes_ok hp hd
  have hpar : VarHeap.param s.heap f r = .throws .badCast := by
    simp only [VarHeap.param, hf, Heap.cast, hden, Res.bind_ok, ho]
    cases hkk : o.kind with
    | cls n => exact absurd hkk (hk o n ho)
    | _ => rfl
  refine ⟨by simp only [VarHeap.get, henv, Res.bind_ok, hpar]; rfl, ?_⟩
  cases r with
  | none => simp [Heap.denote] at hden
  | some i => simp only [VarHeap.set, henv, Res.bind_ok, hpar]; rfl

/-- An object in place of the class. -/
example : ∃ s e, VarsReachable varTypes s ∧ s.heap.envs 0 = some e ∧ (handleField 9).owner = .static 9 ∧
    Denotes s.heap (some 10) (some 10) ∧ ∀ o n, s.heap.objs 10 = some o → o.kind ≠ .cls n := by
  obtain ⟨s, _, hr, hp⟩ := varsReachable_of (w := varTypes) (ops := handleSetup)
    (p := fun s => (s.heap.envs 0).isSome && s.heap.denote (some 10) == .ok (some 10) &&
      (s.heap.objs 10).any fun o => match o.kind with | .cls _ => false | _ => true)
    (by decide +kernel)
  simp only [Bool.and_eq_true, beq_iff_eq] at hp
  obtain ⟨⟨he, hd⟩, hk⟩ := hp
  obtain ⟨e, he⟩ := Option.isSome_iff_exists.1 he
  refine ⟨s, e, hr, he, rfl, (Heap.denote_iff hr.heap.inv.toPre).1 hd, fun o n ho hc => ?_⟩
  rw [ho] at hk; simp [hc] at hk

/-- The variable does not keep the object: what is read can be a reference that is no longer valid, although the
field was set to a valid one and nothing but `DeleteLocalRef` was called since. -/
theorem field_handle_dangles : ¬ ∀ (w : CppTypes) (s s1 s2 : VarHeap) (t u x : Nat) (f : FieldVar)
    (obj r r2 : Option Nat), VarsReachable w s → obj ≠ none → OwnerIs w s.heap f obj x → Denotes s.heap r r →
    s.set w t f obj (.ref r) = .ok s1 → ∀ ops, AlongVars (KeepsField w x f.index) w s1 ops →
    runVars w s1 ops = .ok s2 → ∀ s3, s2.get w u f .object obj = .ok (s3, .ref r2) → Valid s3.heap r2 := by
  intro H
  obtain ⟨s, _, hr, hp⟩ := varsReachable_of (w := varTypes) (ops := handleSetup)
    (p := fun s => VarHeap.owner varTypes s.heap (handleField 9) (some 0) == .ok 9 &&
      s.heap.denote (some 10) == .ok (some 10) &&
      (s.set varTypes 0 (handleField 9) (some 0) (.ref (some 10))).holds fun s1 =>
        (runVars varTypes s1 [(0, .jni (.deleteLocalRef (some 10)))]).holds fun s2 =>
          (s2.get varTypes 1 (handleField 9) .object (some 0)).holds fun x =>
            x.2 == .ref (some 10) && (x.1.heap.objs 10).isNone)
    (by decide +kernel)
  simp only [Bool.and_eq_true, beq_iff_eq, Res.holds_iff] at hp
  obtain ⟨⟨ho, hd⟩, s1, hs, s2, hx, ⟨s3, v⟩, hg, rfl, hn⟩ := hp
  have hp0 := hr.heap.inv.toPre
  have := H varTypes s s1 s2 0 1 9 (handleField 9) (some 0) (some 10) (some 10) hr (by simp)
    ((VarHeap.owner_iff hp0).1 ho) ((Heap.denote_iff hp0).1 hd) hs [(0, .jni (.deleteLocalRef (some 10)))]
    ⟨True.intro, fun _ _ => True.intro, fun _ _ => True.intro⟩ hx s3 hg
  obtain ⟨o, ho⟩ := this
  rw [ho] at hn; cases hn

example : ∃ s s1 e, VarsReachable varTypes s ∧ OwnerIs varTypes s.heap (handleField 9) (some 0) 9 ∧
    s.set varTypes 0 (handleField 9) (some 0) (.ref (some 10)) = .ok s1 ∧ s1.heap.envs 1 = some e ∧
    OwnerIs varTypes s1.heap (handleField 9) none 9 ∧ ClassArg s1.heap (handleField 9) none := by
  obtain ⟨s, _, hr, hp⟩ := varsReachable_of (w := varTypes) (ops := handleSetup)
    (p := fun s => VarHeap.owner varTypes s.heap (handleField 9) (some 0) == .ok 9 &&
      (s.set varTypes 0 (handleField 9) (some 0) (.ref (some 10))).holds fun s1 => (s1.heap.envs 1).isSome &&
        VarHeap.owner varTypes s1.heap (handleField 9) none == .ok 9)
    (by decide +kernel)
  simp only [Bool.and_eq_true, beq_iff_eq, Res.holds_iff] at hp
  obtain ⟨ho, s1, hs, he, hg⟩ := hp
  obtain ⟨e, he⟩ := Option.isSome_iff_exists.1 he
  have hr1 := hr.step (op := .set (handleField 9) (some 0) (.ref (some 10))) hs
  exact ⟨s, s1, e, hr, (VarHeap.owner_iff hr.heap.inv.toPre).1 ho, hs, he,
    (VarHeap.owner_iff hr1.heap.inv.toPre).1 hg, none, .null, by simp⟩

/-! ## Cycles -/

/-- An object that is kept only by its own variable is never released. -/
theorem field_cycle_leaks : ∃ (w : CppTypes) (s : VarHeap), VarsReachable w s ∧ Live s.heap 9 ∧
    VarIs s.heap 9 1 (some 9) ∧ ¬ Root s.heap 9 ∧ ∀ j, Owns s.heap j 9 → j = 9 := by
  obtain ⟨s, _, hr, hp⟩ := varsReachable_of (w := varTypes)
    (ops := [(0, .jni (.newRecord 2 none)), (0, .set ⟨.inst (.cls 0), 1, .shared (.cls 0)⟩ (some 9) (.ref (some 9))),
      (0, .jni (.deleteLocalRef (some 9)))])
    (p := fun s => (s.heap.objs 9 == some ⟨.record [none, some 9], none⟩) && !s.heap.roots.contains 9 &&
      s.heap.next == 10 && (List.range 9).all fun j => (s.heap.objs j).all fun o => !o.kind.edges.contains 9)
    (by decide +kernel)
  simp only [Bool.and_eq_true, beq_iff_eq, Bool.not_eq_true', List.all_eq_true, List.mem_range] at hp
  obtain ⟨⟨⟨h9, hroot⟩, hnext⟩, hall⟩ := hp
  have hp0 := hr.heap.inv.toPre
  refine ⟨varTypes, s, hr, ⟨_, h9⟩, ⟨_, _, h9, rfl, rfl⟩, fun h => ?_, fun j hj => ?_⟩
  · have := (root_iff hp0).1 h
    simp at hroot
    exact hroot this
  · obtain ⟨o, ho, hi⟩ := owns_iff.1 hj
    have hlt := hp0.bound j o ho
    rcases Nat.lt_or_ge j 9 with h | h
    · have := hall j h
      rw [ho, Option.all_some] at this
      simp [hi] at this
    · omega

end Jnivm
