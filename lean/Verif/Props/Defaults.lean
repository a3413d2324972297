import Verif.Lemmas.Defaults
import Verif.Props.Baron

/-!
C63: what calls and field reads return that nothing implements, in a build with
`JNIVM_ENABLE_RETURN_NON_ZERO`.  Histories are arbitrary: classes, members, types and earlier default
results in any order.
-/
namespace Jnivm
open Spec

variable {ops : List MakerOp} {m : Makers}

/-- Giving a type to a VM is always defined. -/
theorem bind_defined (hr : MemReachable m.world) (t : Nat) (n : Str) (bs : List (Option Nat)) (b : Bool) :
    ∃ m', m.bind t n bs b = .ok m' := by
  obtain ⟨r, c, e, _⟩ := findClass_create hr.inv.reg n
  have e1 : m.world.bindType t n bs = ((m.world.bindType t n bs).1, some c) := by
    simp only [World.bindType, e]
  exact ⟨_, by unfold Makers.bind; rw [e1]⟩

/-- A history that gives these types to a VM. -/
def giveOps (gs : List Given) : List MakerOp := gs.map fun g => .bind g.type g.name [none] g.makes

theorem givens_giveOps (gs : List Given) : givens (giveOps gs) = gs := by
  induction gs with
  | nil => rfl
  | cons g gs ih => exact congrArg (g :: ·) ih

theorem giveOps_run (gs : List Given) : ∃ m, runMakers .initial (giveOps gs) = .ok m := by
  have key : ∀ (gs hs : List Given) (m : Makers), MakersInv m hs → ∃ m', runMakers m (giveOps gs) = .ok m' := by
    intro gs
    induction gs with
    | nil => exact fun _ m _ => ⟨m, rfl⟩
    | cons g gs ih =>
      intro hs m inv
      obtain ⟨m1, h1⟩ := bind_defined inv.reach g.type g.name [none] g.makes
      obtain ⟨m2, h2⟩ := ih _ m1 (bind_makersInv inv h1)
      refine ⟨m2, ?_⟩
      show ((m.bind g.type g.name [none] g.makes).bind fun m => runMakers m (giveOps gs)) = .ok m2
      rw [h1]
      exact h2
  exact key gs [] _ initial_makersInv

/-- `VM::initialize` is defined, and gives the VM its nine types. -/
theorem initialize_run : ∃ m, runMakers .initial initializeOps = .ok m := by
  have key : ∀ (ops : List MakerOp), (∀ op ∈ ops, ∃ t n bs b, op = MakerOp.bind t n bs b) →
      ∀ (hs : List Given) (m : Makers), MakersInv m hs → ∃ m', runMakers m ops = .ok m' := by
    intro ops
    induction ops with
    | nil => exact fun _ _ m _ => ⟨m, rfl⟩
    | cons op ops ih =>
      intro hb hs m inv
      obtain ⟨t, n, bs, b, rfl⟩ := hb op (.head _)
      obtain ⟨m1, h1⟩ := bind_defined inv.reach t n bs b
      obtain ⟨m2, h2⟩ := ih (fun o ho => hb o (.tail _ ho)) _ m1 (bind_makersInv inv h1)
      refine ⟨m2, ?_⟩
      show ((m.bind t n bs b).bind fun m => runMakers m ops) = .ok m2
      rw [h1]
      exact h2
  refine key initializeOps ?_ [] _ initial_makersInv
  intro op ho
  simp only [initializeOps, List.mem_cons, List.not_mem_nil, or_false] at ho
  rcases ho with rfl | rfl | rfl | rfl | rfl | rfl | rfl | rfl | rfl <;> exact ⟨_, _, _, _, rfl⟩

/-- The history without steps. -/
theorem none_run : runMakers .initial [] = .ok .initial := rfl

/-- In a VM whose `FindClass` makes up classes every text, signature or not, has a defined default
result, and nothing but classes is added. -/
theorem default_total (h : runMakers .initial ops = .ok m) (sig : Str) :
    ∃ m' r, m.default .create sig = .ok (m', r) ∧ OnlyFound m m' := by
  have hr := (makers_inv h).reach
  have refs : ∀ n, ∃ m' x, m.newRefs .create n = .ok (m', x) := by
    intro n
    obtain ⟨m1, x, c, e, _⟩ := newRefs_ok (f := .create) (n := n) hr trivial
    exact ⟨m1, x, e⟩
  have : ∃ m' r, m.default .create sig = .ok (m', r) := by
    unfold Makers.default
    split
    · rename_i rest _
      obtain ⟨m1, x, e⟩ := refs (if rest.getLast? = some ';' then rest.dropLast else '[' :: 'L' :: rest)
      rw [e]
      exact ⟨_, _, rfl⟩
    · rename_i rest _
      obtain ⟨m1, x, e⟩ := refs ('[' :: '[' :: rest)
      rw [e]
      exact ⟨_, _, rfl⟩
    · split <;> exact ⟨_, _, rfl⟩
    · split
      · rename_i rest _ _
        obtain ⟨m1, c, e, _⟩ := newObject_ok hr rest.dropLast
        exact ⟨_, _, e⟩
      · exact ⟨_, _, rfl⟩
    · exact ⟨_, _, rfl⟩
  obtain ⟨m', r, e⟩ := this
  exact ⟨m', r, e, (default_found hr e).2⟩

example : ∃ m, runMakers .initial initializeOps = .ok m ∧
    ∃ m' r, m.default .create ")[[L;".toList = .ok (m', r) ∧ OnlyFound m m' := by
  obtain ⟨m, h⟩ := initialize_run
  exact ⟨m, h, default_total h _⟩

/-- Text of a class type. -/
theorem default_text_class {f : Finder} {sig n : Str} (hs : Returns sig (some (.cls n))) (hn : ')' ∉ n) :
    m.default f sig = m.newObject n := by
  have e := resultText_returns hs (by intro hm; simp [renderRet, Ty.render] at hm; exact hn hm)
  unfold Makers.default
  rw [e]
  show (if (n ++ [';']).getLast? = some ';' then m.newObject (n ++ [';']).dropLast else _) = _
  rw [if_pos (getLast_snoc n ';'), List.dropLast_concat]

/-- A method that returns a class, or a field of a class, in every kind of VM.  The last type with
this name is made if it can be made, and the object gets the class of the name that the type was given
last.  Otherwise the result is null if the class is the class of any type, and a plain object of the
class if it is not.  Afterwards the class exists. -/
theorem default_class (h : runMakers .initial ops = .ok m) (f : Finder) {sig n : Str}
    (hs : Returns sig (some (.cls n))) (hn : ')' ∉ n) :
    ∃ m' r c, m.default f sig = .ok (m', r) ∧ OnlyFound m m' ∧ m'.world.IsClass n c ∧
      (∀ g, lastGiven (givens ops) n = some g → g.makes = true →
        ∃ k d, nameOf (givens ops) g.type = some k ∧ m'.world.IsClass k d ∧ r = some ⟨.cpp g.type, some d⟩) ∧
      ((∀ g, lastGiven (givens ops) n = some g → g.makes = false) →
        (∀ t, nameOf (givens ops) t = some n → r = none) ∧
        ((∀ t, nameOf (givens ops) t ≠ some n) → r = some ⟨.dummy, some c⟩)) := by
  have inv := makers_inv h
  obtain ⟨m', c, e, hc, hr', hf⟩ := newObject_ok inv.reach n
  have inv' := inv.keep hr' hf.types hf.inst hf.bound hf.keep
  refine ⟨m', _, c, (default_text_class hs hn).trans e, hf, hc, fun g hg hm => ?_, fun hg => ⟨fun t ht => ?_, fun ht => ?_⟩⟩
  · have hi := inv'.inst n c hc
    rw [hf.inst, hg] at hi
    simp only [Option.bind_some, hm, if_true] at hi
    obtain ⟨hgm, _⟩ := lastGiven_mem hg
    cases hk : nameOf (givens ops) g.type with
    | none => exact absurd hk (nameOf_ne_none hgm)
    | some k =>
      obtain ⟨g', hg', _, hk'⟩ := nameOf_mem hk
      obtain ⟨d, hd⟩ := inv'.known g' hg'
      rw [hk'] at hd
      refine ⟨k, d, rfl, hd, ?_⟩
      unfold Makers.objectOf
      rw [hi]
      have := inv'.types g.type k d hk hd
      rw [hf.types] at this
      exact congrArg (fun x => some (Made.mk (.cpp g.type) x)) this
  · have hi : m.inst c = none := by
      have := inv'.inst n c hc
      rw [hf.inst] at this
      rw [this]
      cases hl : lastGiven (givens ops) n with
      | none => rfl
      | some g => simp [hg g hl]
    have htc := inv'.types t n c ht hc
    rw [hf.types] at htc
    have hb : t ∈ m.bound := (inv.bound t).2 (by rw [ht]; exact fun h => (nomatch h))
    unfold Makers.objectOf
    rw [hi]
    show (if (m.bound.any fun t => m.world.types t == some c) then none else _) = none
    rw [if_pos]
    rw [List.any_eq_true]
    exact ⟨t, hb, by simp [htc]⟩
  · have hi : m.inst c = none := by
      have := inv'.inst n c hc
      rw [hf.inst] at this
      rw [this]
      cases hl : lastGiven (givens ops) n with
      | none => rfl
      | some g => simp [hg g hl]
    unfold Makers.objectOf
    rw [hi]
    show (if (m.bound.any fun t => m.world.types t == some c) then none else some (Made.mk .dummy (some c))) = _
    rw [if_neg]
    rw [List.any_eq_true]
    rintro ⟨t, hb, htc⟩
    have htc' : m.world.types t = some c := by simpa using htc
    cases hk : nameOf (givens ops) t with
    | none => exact absurd hk ((inv.bound t).1 hb)
    | some k =>
      obtain ⟨g', hg', _, hk'⟩ := nameOf_mem hk
      obtain ⟨d, hd⟩ := inv'.known g' hg'
      rw [hk'] at hd
      have h2 := inv'.types t k d hk hd
      rw [hf.types, htc'] at h2
      cases h2
      exact ht t (hk.trans (congrArg some (isClass_one hr' hd hc)))

/-- After `VM::initialize`, a method that returns a byte buffer returns null. -/
example : ∃ m, runMakers .initial initializeOps = .ok m ∧
    ∃ m', m.default .known "(I)Ljava/nio/ByteBuffer;".toList = .ok (m', none) := by
  obtain ⟨m, h⟩ := initialize_run
  obtain ⟨m', r, c, e, _, _, _, hno⟩ := default_class h .known
    (sig := "(I)Ljava/nio/ByteBuffer;".toList) (n := "java/nio/ByteBuffer".toList)
    (.inr ⟨[.prim .int], by decide +kernel⟩) (by decide +kernel)
  refine ⟨m, h, m', ?_⟩
  rw [e]
  have hl : lastGiven (givens initializeOps) "java/nio/ByteBuffer".toList = some ⟨3, "java/nio/ByteBuffer".toList, false⟩ := by
    decide +kernel
  rw [(hno (fun g hg => by rw [hl] at hg; cases hg; rfl)).1 3 (by decide +kernel)]

/-- Text of an array of a class. -/
theorem default_text_array {f : Finder} {sig n : Str} (hs : Returns sig (some (.arr (.cls n)))) (hn : ')' ∉ n) :
    m.default f sig = (m.newRefs f n).bind fun (m, x) => .ok (m, some x) := by
  have e := resultText_returns hs (by intro hm; simp [renderRet, Ty.render] at hm; exact hn hm)
  unfold Makers.default
  rw [e]
  show ((m.newRefs f (if (n ++ [';']).getLast? = some ';' then (n ++ [';']).dropLast else _)).bind _) = _
  rw [if_pos (getLast_snoc n ';'), List.dropLast_concat]

/-- An array of a class that `FindClass` returns: an empty array of the declared class. -/
theorem default_class_array (h : runMakers .initial ops = .ok m) {f : Finder} {sig n : Str}
    (hs : Returns sig (some (.arr (.cls n)))) (hn : ElemName n) (ha : Allows f m.world n) :
    ∃ m' r, m.default f sig = .ok (m', r) ∧ OnlyFound m m' ∧
      MadeAs m'.world r (some (.refs, (Ty.arr (.cls n)).render)) := by
  have inv := makers_inv h
  obtain ⟨m', x, c, e, hk, hc, hcl, hr', hf⟩ := newRefs_ok inv.reach ha
  refine ⟨m', some x, ?_, hf, x, c, rfl, hk, hc, ?_⟩
  · rw [default_text_array hs hn.1, e]; rfl
  · have : arrayOf n = (Ty.arr (.cls n)).render := by
      unfold arrayOf
      rw [if_neg hn.2]
      rfl
    rw [← this]
    exact hcl

example : ∃ m' r, Makers.initial.default .create "[La/B;".toList = .ok (m', r) ∧
    MadeAs m'.world r (some (.refs, "[La/B;".toList)) := by
  obtain ⟨m', r, e, _, h⟩ := default_class_array (f := .create) (sig := "[La/B;".toList) none_run
    (n := "a/B".toList) (.inl (by decide +kernel)) (by decide +kernel) trivial
  exact ⟨m', r, e, h⟩

/-- Violation: an array of a class that `FindClass` does not return is undefined behaviour, a null
class is dereferenced.  This happens in fake-jni VMs for every unknown class and in Baron VMs for denied
ones. -/
theorem default_refused_array (h : runMakers .initial ops = .ok m) {f : Finder} {sig n : Str}
    (hs : Returns sig (some (.arr (.cls n)))) (hn : ElemName n) (ha : ¬ Allows f m.world n) :
    m.default f sig = .ub .nullDeref := by
  rw [default_text_array hs hn.1, newRefs_refused (makers_inv h).reach ha]
  rfl

example : Makers.initial.default .known "()[LTest;".toList = .ub .nullDeref :=
  default_refused_array none_run (n := "Test".toList) (.inr ⟨[], by decide +kernel⟩) (by decide +kernel)
    no_test_class

/-- Array classes other than that of arrays of booleans. -/
theorem default_prim_array (h : runMakers .initial ops = .ok m) (f : Finder) {sig : Str} {p : Prim}
    (hs : Returns sig (some (.arr (.prim p)))) (hp : p ≠ .boolean) :
    ∃ m' r, m.default f sig = .ok (m', r) ∧ OnlyFound m m' ∧
      MadeAs m'.world r (some (.prims p.letter, (Ty.arr (.prim p)).render)) := by
  have inv := makers_inv h
  obtain ⟨m', x, c, e, hk, hc, hcl, hr', hf⟩ := newPrims_ok inv.reach p.letter
  refine ⟨m', some x, ?_, hf, x, c, rfl, hk, hc, hcl⟩
  have et := resultText_returns hs (by cases p <;> decide)
  have key : m.default f sig = .ok ((m.newPrims p.letter).1, some (m.newPrims p.letter).2) := by
    unfold Makers.default
    rw [et]
    cases p <;> first | exact absurd rfl hp | rfl
  rw [key, e]

example : ∃ m' r, Makers.initial.default .known "()[J".toList = .ok (m', r) ∧
    MadeAs m'.world r (some (.prims 'J', "[J".toList)) := by
  obtain ⟨m', r, e, _, h⟩ := default_prim_array none_run .known (sig := "()[J".toList) (p := .long)
    (.inr ⟨[], by decide +kernel⟩) (by decide)
  exact ⟨m', r, e, h⟩

/-- Violation: for an array of booleans the result is null, there is no case for it. -/
theorem default_boolean_array (m : Makers) (f : Finder) {sig : Str}
    (hs : Returns sig (some (.arr (.prim .boolean)))) : m.default f sig = .ok (m, none) := by
  have et := resultText_returns hs (by decide)
  unfold Makers.default
  rw [et]
  rfl

example : Makers.initial.default .create "()[Z".toList = .ok (.initial, none) :=
  default_boolean_array _ _ (.inr ⟨[], by decide +kernel⟩)

/-- No result and primitive results have nothing to make. -/
theorem default_primitive (m : Makers) (f : Finder) {sig : Str} {ret : Option Ty} (hs : Returns sig ret)
    (hp : ret = none ∨ ∃ p, ret = some (.prim p)) : m.default f sig = .ok (m, none) := by
  have et := resultText_returns hs (by
    rcases hp with rfl | ⟨p, rfl⟩
    · decide
    · cases p <;> decide)
  unfold Makers.default
  rw [et]
  rcases hp with rfl | ⟨p, rfl⟩
  · rfl
  · cases p <;> rfl

example : Makers.initial.default .create "(La/B;)D".toList = .ok (.initial, none) :=
  default_primitive _ _ (ret := some (.prim .double)) (.inr ⟨[.cls "a/B".toList], by decide +kernel⟩) (.inr ⟨_, rfl⟩)

/-- Text of an array of arrays. -/
theorem default_text_nested {f : Finder} {sig : Str} {t : Ty} (hs : Returns sig (some (.arr (.arr t))))
    (hn : ElemNames t) :
    m.default f sig = (m.newRefs f (Ty.arr (.arr t)).render).bind fun (m, x) => .ok (m, some x) := by
  have e := resultText_returns hs (plain_render (t := .arr (.arr t)) hn)
  unfold Makers.default
  rw [e]
  rfl

/-- Violation: for an array of arrays the result has one dimension more than declared, so it is not an
instance of the declared class. -/
theorem default_nested_array (h : runMakers .initial ops = .ok m) {f : Finder} {sig : Str} {t : Ty}
    (hs : Returns sig (some (.arr (.arr t)))) (hn : ElemNames t)
    (ha : Allows f m.world (Ty.arr (.arr t)).render) :
    ∃ m' r, m.default f sig = .ok (m', r) ∧ OnlyFound m m' ∧
      MadeAs m'.world r (some (.refs, (Ty.arr (.arr (.arr t))).render)) ∧
      ¬ MadeAs m'.world r (some (.refs, (Ty.arr (.arr t)).render)) := by
  have inv := makers_inv h
  obtain ⟨m', x, c, e, hk, hc, hcl, hr', hf⟩ := newRefs_ok inv.reach ha
  have hcl' : m'.world.IsClass (Ty.arr (.arr (.arr t))).render c := hcl
  refine ⟨m', some x, ?_, hf, ⟨x, c, rfl, hk, hc, hcl'⟩, ?_⟩
  · rw [default_text_nested hs hn, e]; rfl
  · rintro ⟨y, d, hy, _, hd, hcd⟩
    cases hy
    rw [hc] at hd
    cases hd
    have e2 := isClass_one hr' hcl' hcd
    have := congrArg List.length e2
    simp [Ty.render] at this

example : ∃ m' r, Makers.initial.default .create "()[[I".toList = .ok (m', r) ∧
    MadeAs m'.world r (some (.refs, "[[[I".toList)) ∧ ¬ MadeAs m'.world r (some (.refs, "[[I".toList)) := by
  obtain ⟨m', r, e, _, h⟩ := default_nested_array (f := .create) none_run (sig := "()[[I".toList) (t := .prim .int)
    (.inr ⟨[], by decide +kernel⟩) trivial trivial
  exact ⟨m', r, e, h⟩

/-- In a VM whose `FindClass` makes up classes, and whose types were given one name each, the result is
what the README promises: an object of the class of the last type with this name if it can be made, null
if it cannot, a plain object of the class if there is no type, an empty array of the declared class, null
for other types.  Missing are arrays of booleans and arrays of arrays (`default_boolean_array`,
`default_nested_array`), types with several names (`default_renamed`), and the other VMs for arrays of
unknown classes (`default_refused_array`). -/
theorem default_partial (h : runMakers .initial ops = .ok m) (h1 : OneName (givens ops)) {sig : Str}
    {ret : Option Ty} (hs : Returns sig ret) (hp : ∀ t ∈ ret, ElemNames t ∧ Makeable t) :
    ∃ m' r, m.default .create sig = .ok (m', r) ∧ OnlyFound m m' ∧
      MadeAs m'.world r (wanted (givens ops) ret) := by
  cases ret with
  | none => exact ⟨m, none, default_primitive m _ hs (.inl rfl), .refl m, rfl⟩
  | some t =>
    obtain ⟨hpl, hmk⟩ := hp t rfl
    cases t with
    | prim p => exact ⟨m, none, default_primitive m _ hs (.inr ⟨p, rfl⟩), .refl m, rfl⟩
    | arr t =>
      cases t with
      | prim p => exact default_prim_array h .create hs (by rintro rfl; exact hmk)
      | cls n => exact default_class_array h hs hpl trivial
      | arr t => exact absurd hmk (by simp [Makeable])
    | cls n =>
      obtain ⟨m', r, c, e, hf, hc, hmake, hno⟩ := default_class h .create hs hpl.1
      refine ⟨m', r, e, hf, ?_⟩
      cases hl : lastGiven (givens ops) n with
      | none =>
        have ew : wanted (givens ops) (some (.cls n)) = some (.dummy, n) := by simp only [wanted, hl]
        rw [ew]
        refine ⟨_, c, (hno fun g hg => ?_).2 fun t ht => ?_, rfl, rfl, hc⟩
        · rw [hl] at hg; exact nomatch hg
        · obtain ⟨g, hg, _, hgn⟩ := nameOf_mem ht
          exact lastGiven_none.1 hl g hg hgn
      | some g =>
        obtain ⟨hgm, hgn⟩ := lastGiven_mem hl
        have hname := nameOf_one h1 hgm
        cases hm : g.makes with
        | true =>
          have ew : wanted (givens ops) (some (.cls n)) = some (.cpp g.type, n) := by
            simp only [wanted, hl, hm, if_true]
          rw [ew]
          obtain ⟨k, d, hk, hd, hrr⟩ := hmake g hl hm
          rw [hname] at hk
          cases hk
          exact ⟨_, d, hrr, rfl, rfl, hgn ▸ hd⟩
        | false =>
          have ew : wanted (givens ops) (some (.cls n)) = none := by
            simp only [wanted, hl, hm]
            rfl
          rw [ew]
          refine (hno fun g' hg' => ?_).1 g.type (hname.trans (congrArg some hgn))
          rw [hl] at hg'
          cases hg'
          exact hm

/-- After `VM::initialize`, a method that returns a string returns one, and a field of a class without
type has a plain object. -/
example : ∃ m, runMakers .initial initializeOps = .ok m ∧
    (∃ m' r, m.default .create "([J)Ljava/lang/String;".toList = .ok (m', r) ∧
      MadeAs m'.world r (some (.cpp 2, "java/lang/String".toList))) ∧
    (∃ m' r, m.default .create "La/B;".toList = .ok (m', r) ∧ MadeAs m'.world r (some (.dummy, "a/B".toList))) := by
  obtain ⟨m, h⟩ := initialize_run
  have h1 : OneName (givens initializeOps) := by decide +kernel
  refine ⟨m, h, ?_, ?_⟩
  · obtain ⟨m', r, e, _, hm⟩ := default_partial h h1 (sig := "([J)Ljava/lang/String;".toList)
      (ret := some (.cls "java/lang/String".toList)) (.inr ⟨[.arr (.prim .long)], by decide +kernel⟩)
      (by intro t ht; cases ht; exact ⟨by decide +kernel, trivial⟩)
    have ew : wanted (givens initializeOps) (some (.cls "java/lang/String".toList)) =
        some (.cpp 2, "java/lang/String".toList) := by decide +kernel
    rw [ew] at hm
    exact ⟨m', r, e, hm⟩
  · obtain ⟨m', r, e, _, hm⟩ := default_partial h h1 (sig := "La/B;".toList)
      (ret := some (.cls "a/B".toList)) (.inl (by decide +kernel))
      (by intro t ht; cases ht; exact ⟨by decide +kernel, trivial⟩)
    have ew : wanted (givens initializeOps) (some (.cls "a/B".toList)) = some (.dummy, "a/B".toList) := by
      decide +kernel
    rw [ew] at hm
    exact ⟨m', r, e, hm⟩

/-- Violation: if the last type of a class can be made and was given another name since, the result is not
an object of the declared class. -/
theorem default_renamed (h : runMakers .initial ops = .ok m) (f : Finder) {sig n k : Str} {g : Given}
    (hs : Returns sig (some (.cls n))) (hn : ')' ∉ n) (hg : lastGiven (givens ops) n = some g)
    (hm : g.makes = true) (hk : nameOf (givens ops) g.type = some k) (hne : k ≠ n) :
    ∃ m' r, m.default f sig = .ok (m', r) ∧ MadeAs m'.world r (some (.cpp g.type, k)) ∧
      ¬ MadeAs m'.world r (some (.cpp g.type, n)) := by
  obtain ⟨m', r, c, e, hf, hc, hmake, _⟩ := default_class h f hs hn
  obtain ⟨k', d, hk', hd, rfl⟩ := hmake g hg hm
  rw [hk] at hk'
  cases hk'
  refine ⟨m', _, e, ⟨_, d, rfl, rfl, rfl, hd⟩, ?_⟩
  rintro ⟨x, d', hx, _, hxd, hd'⟩
  cases hx
  cases hxd
  exact hne (isClass_one (default_found (makers_inv h).reach e).1 hd hd')

/-- One type with the names "A" and "B": what a method returns that is declared to return an "A" is a "B". -/
example : ∃ m, runMakers .initial (giveOps [⟨0, "A".toList, true⟩, ⟨0, "B".toList, true⟩]) = .ok m ∧
    ∃ m' r, m.default .create "()LA;".toList = .ok (m', r) ∧ MadeAs m'.world r (some (.cpp 0, "B".toList)) ∧
      ¬ MadeAs m'.world r (some (.cpp 0, "A".toList)) := by
  obtain ⟨m, h⟩ := giveOps_run [⟨0, "A".toList, true⟩, ⟨0, "B".toList, true⟩]
  exact ⟨m, h, default_renamed h .create (n := "A".toList) (k := "B".toList) (g := ⟨0, "A".toList, true⟩)
    (.inr ⟨[], by decide +kernel⟩) (by decide +kernel) (by decide +kernel) rfl (by decide +kernel) (by decide +kernel)⟩

/-- In a Baron VM, `FindClass` of a denied class succeeds after one default result of this class: the
denied class was made up. -/
theorem default_denied_class (h : runMakers .initial ops = .ok m) {d : Deny} {sig n : Str}
    (hs : Returns sig (some (.cls n))) (hn : ')' ∉ n) (hd : n ∈ d.classes)
    (hu : ∀ c, ¬ m.world.IsClass n c) :
    (d.findClass m.world.reg n).2 = none ∧
      ∃ m' r c, m.default (.baron d) sig = .ok (m', r) ∧ d.findClass m'.world.reg n = (m'.world.reg, some c) := by
  have hr := (makers_inv h).reach
  constructor
  · have : ¬ Allows (.baron d) m.world n := by
      rintro (⟨c, hc⟩ | hx)
      · exact hu c hc
      · exact hx hd
    exact congrArg Prod.snd (find_refused hr this)
  · obtain ⟨m', r, c, e, _, hc, _⟩ := default_class h (.baron d) hs hn
    refine ⟨m', r, c, e, ?_⟩
    simp only [Deny.findClass, find_known (default_found hr e).1 hc]

example : ((Deny.empty.denyClass "Test".toList).findClass Makers.initial.world.reg "Test".toList).2 = none ∧
    ∃ m' r c, Makers.initial.default (.baron (Deny.empty.denyClass "Test".toList)) "()LTest;".toList = .ok (m', r) ∧
      (Deny.empty.denyClass "Test".toList).findClass m'.world.reg "Test".toList = (m'.world.reg, some c) :=
  default_denied_class none_run (.inr ⟨[], by decide +kernel⟩) (by decide +kernel) (by decide +kernel)
    fun c hc => no_test_class ⟨c, hc⟩

/-- The same call again gives an object of the same kind and class, or null again. -/
theorem default_again (h : runMakers .initial ops = .ok m) {f : Finder} {sig : Str} {m1 m2 : Makers}
    {r1 r2 : Option Made} (e1 : m.default f sig = .ok (m1, r1)) (e2 : m1.default f sig = .ok (m2, r2)) :
    r1 = r2 := by
  have hr := (makers_inv h).reach
  obtain ⟨hr1, hf1⟩ := default_found hr e1
  obtain ⟨hr2, hf2⟩ := default_found hr1 e2
  have refs : ∀ n, ((m.newRefs f n).bind fun (m, x) => .ok (m, some x)) = .ok (m1, r1) →
      ((m1.newRefs f n).bind fun (m, x) => .ok (m, some x)) = .ok (m2, r2) → r1 = r2 := by
    intro n h1 h2
    by_cases ha : Allows f m.world n
    · obtain ⟨a1, ⟨k1, o1⟩, c1, q1, hk1, hc1, hcl1, _⟩ := newRefs_ok hr ha
      rw [q1] at h1
      cases h1
      by_cases hb : Allows f m1.world n
      · obtain ⟨a2, ⟨k2, o2⟩, c2, q2, hk2, hc2, hcl2, _⟩ := newRefs_ok hr1 hb
        rw [q2] at h2
        cases h2
        have := isClass_fun hcl2 (hf2.keep _ _ hcl1)
        subst this
        cases hk1; cases hk2; cases hc1; cases hc2
        rfl
      · rw [newRefs_refused hr1 hb] at h2; exact nomatch h2
    · rw [newRefs_refused hr ha] at h1; exact nomatch h1
  rcases default_plan sig with ⟨n, hd⟩ | ⟨l, hd⟩ | ⟨n, hd⟩ | hd
  · rw [hd] at e1 e2
    exact refs n e1 e2
  · rw [hd] at e1 e2
    obtain ⟨a1, ⟨k1, o1⟩, c1, q1, hk1, hc1, hcl1, _⟩ := newPrims_ok hr l
    obtain ⟨a2, ⟨k2, o2⟩, c2, q2, hk2, hc2, hcl2, _⟩ := newPrims_ok hr1 l
    rw [q1] at e1
    rw [q2] at e2
    cases e1; cases e2
    have := isClass_fun hcl2 (hf2.keep _ _ hcl1)
    subst this
    cases hk1; cases hk2; cases hc1; cases hc2
    rfl
  · rw [hd] at e1 e2
    obtain ⟨a1, c1, q1, hcl1, _⟩ := newObject_ok hr n
    obtain ⟨a2, c2, q2, hcl2, _⟩ := newObject_ok hr1 n
    rw [q1] at e1
    rw [q2] at e2
    cases e1; cases e2
    have := isClass_fun hcl2 (hf2.keep _ _ hcl1)
    subst this
    unfold Makers.objectOf
    rw [hf1.inst, hf1.bound, hf1.types]
  · rw [hd] at e1 e2
    cases e1; cases e2
    rfl

example (m1 m2 : Makers) (r1 r2 : Option Made) (h1 : Makers.initial.default .create "()[La/B;".toList = .ok (m1, r1))
    (h2 : m1.default .create "()[La/B;".toList = .ok (m2, r2)) : r1 = r2 :=
  default_again none_run h1 h2

end Jnivm
