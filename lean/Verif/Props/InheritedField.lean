import Verif.Props.FieldProgram
import Verif.Props.InheritedProgram
/-! C88: whole programs, from the installation of the accessors of a field by C++ code to the access on an object of a
subclass. -/
namespace Jnivm
open Spec

/-- What a client finds that asks for the class of an object and for a field of a class above it. -/
theorem inherited_field_found {vm vm1 vm2 : Vm} (hr : JniReachable vm) {t : Nat} {n name type : Str} {isGetter : Bool}
    {f : Nat} {a : JniAnswer} (hh : (JniOp.cpp (.hookField n isGetter false name type f)).run vm t = .ok (vm1, a))
    {ops : List (Nat × JniOp)} {as : List JniAnswer} (hops : runJni vm1 ops = .ok (vm2, as))
    (hno : ∀ u g, (u, .cpp (.hookField n isGetter false name type g)) ∉ ops) {u : Nat} {env : Env}
    (he : vm2.heap.envs u = some env) {obj : Option Nat} {c b : Nat} (hc : vm2.world.IsClass n c)
    (hobj : ClassIs vm2 obj b) {pre post : List Nat} (ho : SearchOrder vm2.world.bases [some b] (pre ++ c :: post))
    (hpre : ∀ x ∈ pre, ∀ r, ¬ vm2.world.DeclaresField x false name type r) {d : Nat}
    (hd : (pre ++ c :: post).length ≤ d) :
    ∃ vm3 r e3, JniReachable vm3 ∧ vm3.world = vm2.world ∧ ClassIs vm3 obj b ∧ vm3.heap.envs u = some e3 ∧
      NamesField vm3.world r.id r ∧ r.static = false ∧ (if isGetter then r.getter = some f else r.setter = some f) ∧
      ∀ (d2f : BitVec 64 → BitVec 32) (code : Code) (k : Option Nat → Script),
        (withObjectClass obj fun cl => withFieldID d false cl name type k).run d2f code u vm2 =
          (k (some r.id)).run d2f code u vm3 := by
  have hr1 : JniReachable vm1 := (ByCallsOf.refl t (fun _ => True) vm |>.call trivial hh).reachable hr
  have hr2 := runJni_reachable hr1 hops
  obtain ⟨c', r, hc', hdecl, hf, hown⟩ := field_hook_program hr hh hops hno
  have : some c = some c' := hc.symm.trans hc'
  cases this
  have winv := hr2.jniInv.vm.1.inv
  have hmine : vm2.world.ownField ⟨false, name, type⟩ c = some r.id := by
    have h := hown 0 false
    rw [getFieldID_isClass winv hc] at h
    cases hx : vm2.world.ownField ⟨false, name, type⟩ c with
    | none => exact absurd hdecl (ownField_none.1 hx r)
    | some id =>
      simp only [dfs_own hx, Res.bind_ok] at h
      injection h with h
      injection h
  obtain ⟨b', hb'⟩ : ∃ nb, vm2.world.IsClass nb b := by
    obtain ⟨-, -, -, -, -, -, -, -, nb, -, -, -, hb⟩ := hobj
    exact ⟨nb, hb⟩
  have hlook : vm2.world.getFieldID d false false (some b) name type = .ok (vm2.world, some r.id) := by
    rw [getFieldID_isClass winv hb']
    have hfind : (pre ++ c :: post).findSome? (vm2.world.ownField ⟨false, name, type⟩) = some r.id := by
      rw [List.findSome?_append, List.findSome?_eq_none_iff.2 fun x hx => ownField_none.2 (hpre x hx)]
      simp [hmine]
    rw [dfs_searchOrder ho hd, hfind]
    rfl
  obtain ⟨va, cl, ea, hx, hra, hea, hafter, hcl, hobja⟩ := objectClass_step hr2 he hobj
  rw [← hafter.1] at hlook hc hdecl
  have hfld := fieldID_step hra hea hcl hlook
  refine ⟨va, r, ea, hra, hafter.1, hobja, hea, ⟨n, c, hc, hdecl.1, rfl⟩, hdecl.2.1, hf, fun d2f code k => ?_⟩
  simp only [withObjectClass, Script.run, hx, Outcome.lift, withFieldID, hfld]

/-- C88: getter, find, read on an object of a subclass.  C++ code installs the getter of a field of the objects of class
`n`; any calls follow, on any threads, that do not install it again.  Then a client that has an object of a class below it
asks for the class of the object, for the id by name and type, and reads the field.  If no class before `n` in the order of
the search has a field of that name and type, this runs that getter on the object and gives its result; an exception of
the getter ends it. -/
theorem inherited_get_program (d2f : BitVec 64 → BitVec 32) (fs : Natives) {vm vm1 vm2 : Vm} (hr : JniReachable vm)
    {t : Nat} {n name type : Str} {g : Nat} {a : JniAnswer}
    (hh : (JniOp.cpp (.hookField n true false name type g)).run vm t = .ok (vm1, a))
    {ops : List (Nat × JniOp)} {as : List JniAnswer} (hops : runJni vm1 ops = .ok (vm2, as))
    (hno : ∀ u g, (u, .cpp (.hookField n true false name type g)) ∉ ops) (hk : fs.kind g ≠ .static) {u : Nat} {env : Env}
    (he : vm2.heap.envs u = some env) {obj : Option Nat} {c b : Nat} (hc : vm2.world.IsClass n c)
    (hobj : ClassIs vm2 obj b) {pre post : List Nat} (ho : SearchOrder vm2.world.bases [some b] (pre ++ c :: post))
    (hpre : ∀ x ∈ pre, ∀ r, ¬ vm2.world.DeclaresField x false name type r) (k : BitVec 64 → Script) (depth : Nat) {d : Nat}
    (hd : (pre ++ c :: post).length ≤ d) :
    ∃ vm3, JniReachable vm3 ∧ vm3.world = vm2.world ∧ ClassIs vm3 obj b ∧
      let prog := withObjectClass obj fun cl => withFieldID d false cl name type fun id =>
        .getField (fs.type g) (.obj obj) id k
      let run (s : Script) (v : Vm) := s.run d2f (fs.code d2f u (depth + 1)) u v
      let body := (fs.hooked g (.obj obj) []).run d2f (fs.code d2f u depth) u vm3
      (∀ vm' v, body = .returns vm' v → run prog vm2 = run (k v) vm') ∧
      ∀ vm' e, body = .raises vm' e → run prog vm2 = .raises vm' e := by
  obtain ⟨vm3, r, e3, hr3, hw, hcls, he3, hn, hst, hg, hstart⟩ :=
    inherited_field_found hr hh hops hno he hc hobj ho hpre hd
  obtain ⟨p1, p2⟩ := nested_get d2f fs hr3 he3 (.obj obj) hn hg hst (by simp [hst, hk]) k depth
  exact ⟨vm3, hr3, hw, hcls,
    fun vm' v hb => (hstart d2f _ fun id => .getField (fs.type g) (.obj obj) id k).trans (p1 vm' v hb),
    fun vm' e hb => (hstart d2f _ fun id => .getField (fs.type g) (.obj obj) id k).trans (p2 vm' e hb)⟩

/-- C88: setter, find, write on an object of a subclass.  Likewise for the setter, which gets the value. -/
theorem inherited_set_program (d2f : BitVec 64 → BitVec 32) (fs : Natives) {vm vm1 vm2 : Vm} (hr : JniReachable vm)
    {t : Nat} {n name type : Str} {g : Nat} {a : JniAnswer}
    (hh : (JniOp.cpp (.hookField n false false name type g)).run vm t = .ok (vm1, a))
    {ops : List (Nat × JniOp)} {as : List JniAnswer} (hops : runJni vm1 ops = .ok (vm2, as))
    (hno : ∀ u g, (u, .cpp (.hookField n false false name type g)) ∉ ops) (hk : fs.kind g ≠ .static) {u : Nat} {env : Env}
    (he : vm2.heap.envs u = some env) {obj : Option Nat} {c b : Nat} (hc : vm2.world.IsClass n c)
    (hobj : ClassIs vm2 obj b) {pre post : List Nat} (ho : SearchOrder vm2.world.bases [some b] (pre ++ c :: post))
    (hpre : ∀ x ∈ pre, ∀ r, ¬ vm2.world.DeclaresField x false name type r) (value : BitVec 64) (k : Script)
    (depth : Nat) {d : Nat} (hd : (pre ++ c :: post).length ≤ d) :
    ∃ vm3, JniReachable vm3 ∧ vm3.world = vm2.world ∧ ClassIs vm3 obj b ∧
      let prog := withObjectClass obj fun cl => withFieldID d false cl name type fun id =>
        .setField (fs.type g) (.obj obj) id value k
      let run (s : Script) (v : Vm) := s.run d2f (fs.code d2f u (depth + 1)) u v
      let body := (fs.hooked g (.obj obj) [value]).run d2f (fs.code d2f u depth) u vm3
      (∀ vm' v, body = .returns vm' v → run prog vm2 = run k vm') ∧
      ∀ vm' e, body = .raises vm' e → run prog vm2 = .raises vm' e := by
  obtain ⟨vm3, r, e3, hr3, hw, hcls, he3, hn, hst, hg, hstart⟩ :=
    inherited_field_found hr hh hops hno he hc hobj ho hpre hd
  have hnn : (Owner.obj obj).isNull = false := by
    obtain ⟨i, -, -, hden, -⟩ := hobj
    cases obj with
    | none => cases hden
    | some o => rfl
  obtain ⟨p1, p2⟩ := nested_set d2f fs hr3 he3 (.obj obj) hnn hn hg hst (by simp [hst, hk]) value k depth
  exact ⟨vm3, hr3, hw, hcls,
    fun vm' v hb => (hstart d2f _ fun id => .setField (fs.type g) (.obj obj) id value k).trans (p1 vm' v hb),
    fun vm' e hb => (hstart d2f _ fun id => .setField (fs.type g) (.obj obj) id value k).trans (p2 vm' e hb)⟩

/-- A class "A" whose objects have the field "f", a class "B" below it (10), an object of "B" (11) and a second thread. -/
def sampleInheritedField (isGetter : Bool) : List (Nat × JniOp) :=
  [(0, .cpp (.bindType 0 "A".toList [])), (0, .cpp (.bindType 1 "B".toList [some 0])),
    (0, .cpp (.hookField "A".toList isGetter false "f".toList "I".toList 3)),
    (0, .heap (.newObject (some "B".toList))), (1, .heap .attach)]

/-- Sample for `inherited_get_program` and `inherited_set_program`: the getter or setter of "f" of class "A" is installed,
then an object of "B" is made. -/
example (isGetter : Bool) : ∃ vm vm1 vm2 ops a as c b, JniReachable vm ∧
    (JniOp.cpp (.hookField "A".toList isGetter false "f".toList "I".toList 3)).run vm 0 = .ok (vm1, a) ∧
    ops.length = 2 ∧ runJni vm1 ops = .ok (vm2, as) ∧
    (∀ u g, (u, .cpp (.hookField "A".toList isGetter false "f".toList "I".toList g)) ∉ ops) ∧
    sampleVirtualNatives.kind 3 ≠ .static ∧ (∃ env, vm2.heap.envs 1 = some env) ∧ vm2.world.IsClass "A".toList c ∧
    ClassIs vm2 (some 11) b ∧ SearchOrder vm2.world.bases [some b] ([b] ++ c :: []) ∧ c ≠ b ∧
    ∀ x ∈ [b], ∀ r, ¬ vm2.world.DeclaresField x false "f".toList "I".toList r := by
  obtain ⟨vm2, as, hx, -, hp⟩ := jniReachable_of (ops := sampleInheritedField isGetter) (p := fun vm _ =>
    (vm.heap.envs 1).isSome && (vm.heap.objs 10).any (fun (o : Obj) => decide (o.kind = .cls "B".toList)) &&
    (vm.heap.objs 11).any (fun (o : Obj) => decide (o.kind = .plain ∧ o.cls = some 10)) &&
    (findClass true vm.world.reg "A".toList).2.any (fun (c : Nat) =>
      (findClass true vm.world.reg "B".toList).2.any (fun (b : Nat) => decide (c ≠ b ∧ vm.world.bases b = some [some c] ∧
        (vm.world.bases c).getD [] = [] ∧ (vm.world.mem b).fields = []))))
    (by cases isGetter <;> decide +kernel)
  simp only [Bool.and_eq_true, Option.any_eq_true, decide_eq_true_eq] at hp
  obtain ⟨⟨⟨he, o9, ho9, hk9⟩, o, ho, hk, hcl⟩, c, hc, b, hb, hne, hbb, hbc, hmb⟩ := hp
  obtain ⟨vm, vm1, bs, a, cs, h1, h2, h3⟩ := runJni_split (pre := (sampleInheritedField isGetter).take 2)
    (post := (sampleInheritedField isGetter).drop 3) hx
  refine ⟨vm, vm1, vm2, _, a, cs, c, b, ⟨_, _, h1⟩, h2, rfl, h3, fun u g h => ?_, by decide,
    Option.isSome_iff_exists.1 he, hc, ⟨11, o, 10, .direct ho (by rw [hk]; exact fun _ => ⟨nofun, nofun⟩), ho, hcl, 10, o9,
    _, .direct ho9 (by rw [hk9]; exact fun _ => ⟨nofun, nofun⟩), ho9, hk9, hb⟩, ?_, hne, fun x hx r hr => ?_⟩
  · revert h
    simp [sampleInheritedField]
  · refine .visit (up := [c]) (l := []) ?_ .nil
    rw [hbb]
    refine .visit (up := []) (l := []) ?_ .nil
    rw [hbc]
    exact .nil
  · have := hr.1
    rw [List.mem_singleton.1 hx, hmb] at this
    cases this

end Jnivm
