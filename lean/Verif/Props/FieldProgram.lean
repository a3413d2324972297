import Verif.Lemmas.FieldProgram
import Verif.Props.HookProgram
/-! C88: whole programs, from the installation of the accessors of a field by C++ code to the access through the JNI. -/
namespace Jnivm
open Spec

theorem runJni_reachable {vm vm' : Vm} (hr : JniReachable vm) {ops : List (Nat × JniOp)} {as : List JniAnswer}
    (h : runJni vm ops = .ok (vm', as)) : JniReachable vm' := by
  obtain ⟨p, bs, hp⟩ := hr
  exact ⟨p ++ ops, bs ++ as, by rw [runJni_append, hp]; simp only [Res.bind_ok, h]⟩

theorem fieldRec_look {w : World} (hr : MemReachable w) {n : Str} {c : Nat} (hc : w.IsClass n c) {st : Bool}
    {name type : Str} {r : FieldRec} (h : w.fieldRec c st name type = some r) :
    w.DeclaresField c st name type r ∧
      ∀ depth rn, w.getFieldID (depth + 1) st rn (some c) name type = .ok (w, some r.id) := by
  have h' : (w.mem c).fields.find? (FieldKey.hits ⟨st, name, type⟩) = some r := h
  obtain ⟨a, b, d⟩ := fhits_iff.1 (List.find?_some h')
  refine ⟨⟨List.mem_of_find?_eq_some h', a, b, d⟩, fun depth rn => ?_⟩
  rw [getFieldID_isClass hr.inv hc]
  have : w.ownField ⟨st, name, type⟩ c = some r.id := by unfold World.ownField; rw [h']; rfl
  rw [dfs_own this]
  rfl

/-- C88: an accessor lasts over JNI histories.  After C++ code installed a getter or setter of a field of class `n`, and
any calls on any threads that do not install that accessor of that field again, the lookup finds a field that has it. -/
theorem field_hook_program {vm vm1 vm2 : Vm} (hr : JniReachable vm) {t : Nat} {n name type : Str} {isGetter st : Bool}
    {f : Nat} {a : JniAnswer} (hh : (JniOp.cpp (.hookField n isGetter st name type f)).run vm t = .ok (vm1, a))
    {ops : List (Nat × JniOp)} {as : List JniAnswer} (hops : runJni vm1 ops = .ok (vm2, as))
    (hno : ∀ u g, (u, .cpp (.hookField n isGetter st name type g)) ∉ ops) :
    ∃ c r, vm2.world.IsClass n c ∧ vm2.world.DeclaresField c st name type r ∧
      (if isGetter then r.getter = some f else r.setter = some f) ∧
      ∀ depth rn, vm2.world.getFieldID (depth + 1) st rn (some c) name type = .ok (vm2.world, some r.id) := by
  have inv := hr.jniInv
  have inv1 := (jni_grows inv hh).inv
  obtain ⟨hb, -⟩ := run_body hh
  obtain ⟨⟨w, x⟩, h1, h2⟩ := Res.bind_eq_ok.1 hb
  obtain ⟨c, hc, h3⟩ := onClass_inv h1
  cases h3
  cases h2
  obtain ⟨r, c', e, hr1, hc', -⟩ := find_create inv.world n
  have e1 : Build.debug.resolve vm.world (some n) = ({ vm.world with reg := r }, some c') := by
    simp only [Build.resolve, Build.debug, e]
  rw [e1] at hc hops inv1
  cases hc
  have hrun : (MemOp.hookField c isGetter st name type f).run { vm.world with reg := r } = .ok _ := rfl
  have hc1 := isClass_step hr1.inv hrun hc'
  obtain ⟨mops, hm, hP⟩ := runJni_byMem inv1 hops
  have hc2 := (runJni_grows inv1 hops).names _ _ hc1
  have hr2 := (runJni_grows inv1 hops).inv.world
  have hnot : ∀ op ∈ mops, ¬ HooksField c isGetter st name type op := by
    rintro op hop ⟨g, rfl⟩
    obtain ⟨u, cl, hu, hcl⟩ := hP _ hop
    cases isClass_name_unique hr2 hc2 hcl
    exact hno u g hu
  obtain ⟨f', k1, -, k3, k4⟩ := run_fieldKept hm c st name type _
    ((hookField_fieldRec { vm.world with reg := r } c isGetter st name type f st name type).trans
      (if_pos ⟨rfl, rfl, rfl⟩))
  obtain ⟨l1, l2⟩ := fieldRec_look hr2 hc2 k1
  refine ⟨c, f', hc2, l1, ?_, l2⟩
  cases isGetter with
  | true => exact k3 hnot
  | false => exact k4 hnot

/-- The rest of a program that asked for a class and a field which is there. -/
theorem fieldID_step {vm : Vm} (hr : JniReachable vm) {u : Nat} {e : Env} (he : vm.heap.envs u = some e) {st : Bool}
    {cl : Option Nat} {c id d : Nat} (hcl : IsClassRef vm cl c) {name type : Str}
    (hlook : vm.world.getFieldID d st false (some c) name type = .ok (vm.world, some id)) :
    (JniOp.getFieldID d st false cl name type).run vm u = .ok (vm, .client (.member (some id))) := by
  rw [run_attached he]
  simp only [JniOp.body, castClass_ref hr.jniInv.vm hcl, Res.bind_ok, hlook]

/-- What a client finds that asks for the class and the field. -/
theorem field_found {vm vm1 vm2 : Vm} (hr : JniReachable vm) {t : Nat} {n name type : Str} {isGetter st : Bool}
    {f : Nat} {a : JniAnswer} (hh : (JniOp.cpp (.hookField n isGetter st name type f)).run vm t = .ok (vm1, a))
    {ops : List (Nat × JniOp)} {as : List JniAnswer} (hops : runJni vm1 ops = .ok (vm2, as))
    (hno : ∀ u g, (u, .cpp (.hookField n isGetter st name type g)) ∉ ops) {u : Nat} {env : Env}
    (he : vm2.heap.envs u = some env) (d : Nat) :
    ∃ vm3 cl c r e3, JniReachable vm3 ∧ vm3.heap.envs u = some e3 ∧ vm3.world.IsClass n c ∧ IsClassRef vm3 (some cl) c ∧
      NamesField vm3.world r.id r ∧ r.static = st ∧ (if isGetter then r.getter = some f else r.setter = some f) ∧
      ∀ (d2f : BitVec 64 → BitVec 32) (code : Code) (k : Option Nat → Option Nat → Script),
        (withClass n fun cl => withFieldID (d + 1) st cl name type fun id => k cl id).run d2f code u vm2 =
          (k (some cl) (some r.id)).run d2f code u vm3 := by
  have hr1 : JniReachable vm1 := (ByCallsOf.refl t (fun _ => True) vm |>.call trivial hh).reachable hr
  have hr2 := runJni_reachable hr1 hops
  obtain ⟨vm3, cl, c, e3, hx, hr3, he3, -, hc, hcl⟩ := class_step hr2 he n
  have hops3 : runJni vm1 (ops ++ [(u, .heap (.findClass n))]) = .ok (vm3, as ++ [.out (.ref (some cl))]) := by
    rw [runJni_append, hops]
    simp only [Res.bind_ok, runJni, hx]
  obtain ⟨c', r, hc', hd, hf, hlook⟩ := field_hook_program hr hh hops3
    fun v g hv => by
      rcases List.mem_append.1 hv with hv | hv
      · exact hno v g hv
      · cases List.mem_singleton.1 hv
  have : some c = some c' := hc.symm.trans hc'
  cases this
  have hfld := fieldID_step hr3 he3 hcl (hlook d false)
  refine ⟨vm3, cl, c, r, e3, hr3, he3, hc, hcl, ⟨n, c, hc, hd.1, rfl⟩, hd.2.1, hf, fun d2f code k => ?_⟩
  simp only [withClass, Script.run, hx, Outcome.lift, withFieldID, hfld]

/-- Whose field it is: the class's, or an object's. -/
def ownerOf (st : Bool) (cl obj : Option Nat) : Owner := if st then .cls cl else .obj obj

/-- Likewise, as the accessor gets it. -/
def selfOf (st : Bool) (c : Nat) (obj : Option Nat) : Self := if st then .cls (some c) else .obj obj

theorem receiver_ownerOf {vm : Vm} {cl : Option Nat} {c : Nat} (h : IsClassRef vm cl c) (st : Bool) (obj : Option Nat) :
    Receiver vm (ownerOf st cl obj) (selfOf st c obj) := by
  cases st with
  | true => exact .cls h
  | false => exact .obj obj

/-- C88: getter, find, read.  C++ code installs the getter of a field of class `n`; any calls follow, on any threads, that
do not install it again.  Then a client that asks for the class by its name, for the id by name and type, and reads
the field of the class or of any object, runs that getter and gets its result; an exception of the getter ends it. -/
theorem get_program (d2f : BitVec 64 → BitVec 32) (fs : Natives) {vm vm1 vm2 : Vm} (hr : JniReachable vm) {t : Nat}
    {n name type : Str} {st : Bool} {g : Nat} {a : JniAnswer}
    (hh : (JniOp.cpp (.hookField n true st name type g)).run vm t = .ok (vm1, a))
    {ops : List (Nat × JniOp)} {as : List JniAnswer} (hops : runJni vm1 ops = .ok (vm2, as))
    (hno : ∀ u g, (u, .cpp (.hookField n true st name type g)) ∉ ops) (hk : fs.kind g = .static ↔ st = true)
    {u : Nat} {env : Env} (he : vm2.heap.envs u = some env) (obj : Option Nat) (k : BitVec 64 → Script) (depth d : Nat) :
    ∃ vm3 c, JniReachable vm3 ∧ vm3.world.IsClass n c ∧
      let prog := withClass n fun cl => withFieldID (d + 1) st cl name type fun id =>
        .getField (fs.type g) (ownerOf st cl obj) id k
      let run (s : Script) (v : Vm) := s.run d2f (fs.code d2f u (depth + 1)) u v
      let body := (fs.hooked g (selfOf st c obj) []).run d2f (fs.code d2f u depth) u vm3
      (∀ vm' v, body = .returns vm' v → run prog vm2 = run (k v) vm') ∧
      ∀ vm' e, body = .raises vm' e → run prog vm2 = .raises vm' e := by
  obtain ⟨vm3, cl, c, r, e3, hr3, he3, hc, hcl, hn, hst, hg, hstart⟩ := field_found hr hh hops hno he d
  obtain ⟨p1, p2⟩ := nested_get d2f fs hr3 he3 (receiver_ownerOf hcl st obj) hn hg (by cases st <;> exact hst)
    (by rw [hst]; exact hk) k depth
  exact ⟨vm3, c, hr3, hc,
    fun vm' v hb => (hstart d2f _ fun cl id => .getField (fs.type g) (ownerOf st cl obj) id k).trans (p1 vm' v hb),
    fun vm' e hb => (hstart d2f _ fun cl id => .getField (fs.type g) (ownerOf st cl obj) id k).trans (p2 vm' e hb)⟩

/-- C88: setter, find, write.  Likewise for the setter, which gets the value; an object must be given for a field of
objects. -/
theorem set_program (d2f : BitVec 64 → BitVec 32) (fs : Natives) {vm vm1 vm2 : Vm} (hr : JniReachable vm) {t : Nat}
    {n name type : Str} {st : Bool} {g : Nat} {a : JniAnswer}
    (hh : (JniOp.cpp (.hookField n false st name type g)).run vm t = .ok (vm1, a))
    {ops : List (Nat × JniOp)} {as : List JniAnswer} (hops : runJni vm1 ops = .ok (vm2, as))
    (hno : ∀ u g, (u, .cpp (.hookField n false st name type g)) ∉ ops) (hk : fs.kind g = .static ↔ st = true)
    {u : Nat} {env : Env} (he : vm2.heap.envs u = some env) (obj : Option Nat) (hobj : st = true ∨ obj ≠ none)
    (value : BitVec 64) (k : Script) (depth d : Nat) :
    ∃ vm3 c, JniReachable vm3 ∧ vm3.world.IsClass n c ∧
      let prog := withClass n fun cl => withFieldID (d + 1) st cl name type fun id =>
        .setField (fs.type g) (ownerOf st cl obj) id value k
      let run (s : Script) (v : Vm) := s.run d2f (fs.code d2f u (depth + 1)) u v
      let body := (fs.hooked g (selfOf st c obj) [value]).run d2f (fs.code d2f u depth) u vm3
      (∀ vm' v, body = .returns vm' v → run prog vm2 = run k vm') ∧
      ∀ vm' e, body = .raises vm' e → run prog vm2 = .raises vm' e := by
  obtain ⟨vm3, cl, c, r, e3, hr3, he3, hc, hcl, hn, hst, hg, hstart⟩ := field_found hr hh hops hno he d
  have hnn : (ownerOf st (some cl) obj).isNull = false := by
    cases st with
    | true => rfl
    | false =>
      cases obj with
      | none => exact (hobj.elim nofun fun h => absurd rfl h)
      | some o => rfl
  obtain ⟨p1, p2⟩ := nested_set d2f fs hr3 he3 (receiver_ownerOf hcl st obj) hnn hn hg (by cases st <;> exact hst)
    (by rw [hst]; exact hk) value k depth
  exact ⟨vm3, c, hr3, hc,
    fun vm' v hb =>
      (hstart d2f _ fun cl id => .setField (fs.type g) (ownerOf st cl obj) id value k).trans (p1 vm' v hb),
    fun vm' e hb =>
      (hstart d2f _ fun cl id => .setField (fs.type g) (ownerOf st cl obj) id value k).trans (p2 vm' e hb)⟩

/-- Sample for `field_hook_program`, `get_program` and `set_program`: the field "f" of class "A" gets a getter, then a
setter, and then a native method is registered. -/
example : ∃ vm0 vm1 vm2 vm3 b a ops qs as bs, JniReachable vm0 ∧ JniReachable vm1 ∧
    (JniOp.cpp (.hookField "A".toList true true "f".toList "I".toList 5)).run vm0 0 = .ok (vm1, a) ∧
    (JniOp.cpp (.hookField "A".toList false true "f".toList "I".toList 6)).run vm1 0 = .ok (vm2, b) ∧
    runJni vm1 ops = .ok (vm3, as) ∧ runJni vm2 qs = .ok (vm3, bs) ∧ ops.length = 2 ∧ qs.length = 1 ∧
    (∀ u g, (u, .cpp (.hookField "A".toList true true "f".toList "I".toList g)) ∉ ops) ∧
    (∀ u g, (u, .cpp (.hookField "A".toList false true "f".toList "I".toList g)) ∉ qs) ∧
    sampleNatives.kind 5 = .static ∧ sampleNatives.kind 6 = .static ∧ ∃ env, vm3.heap.envs 1 = some env := by
  obtain ⟨vm3, as, hx, S⟩ := sample_nested
  obtain ⟨vm0, vm1, bs, a, cs, h1, h2, h3⟩ := runJni_split (pre := sampleNestedOps.take 4)
    (post := sampleNestedOps.drop 5) hx
  obtain ⟨v, vm2, ds, b, es, h4, h5, h6⟩ := runJni_split (pre := []) (post := sampleNestedOps.drop 6) h3
  cases h4
  have hr0 : JniReachable vm0 := ⟨_, _, h1⟩
  refine ⟨vm0, vm1, vm2, vm3, b, a, _, _, cs, es, hr0,
    (ByCallsOf.refl 0 (fun _ => True) vm0 |>.call trivial h2).reachable hr0, h2, h5, h3, h6, rfl, rfl, fun u g h => ?_,
    fun u g h => ?_, rfl, rfl, S.envs 1 (by decide)⟩
  · revert h
    simp [sampleNestedOps]
  · revert h
    simp [sampleNestedOps]

end Jnivm
