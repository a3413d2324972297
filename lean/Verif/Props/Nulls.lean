import Verif.Props.Calls
import Verif.Props.Hooks
import Verif.Model.ThreadsRun

/-! The null receiver: `Set…Field` does nothing on it, `IsInstanceOf` says no. -/

namespace Jnivm

open Spec

/-- C52: `Set<ty>Field` on a null object and `SetStatic<ty>Field` on a null class do nothing; the id is not even
looked at, so it may be stale, and the field may be of the other staticness or of another type. -/
theorem setField_null (code : Nat → Hook) (vm : Vm) (ty : JType) (id : Option Nat) (value : BitVec 64) :
    vm.setField code ty (.obj none) id value = .returns vm 0 ∧
    vm.setField code ty (.cls none) id value = .returns vm 0 := ⟨rfl, rfl⟩

/-- C81: the same when the access is one step of a thread: no setter is entered. -/
theorem enterSet_null (fs : Natives) (vm : Vm) (ty : JType) (id : Option Nat) (value : BitVec 64) :
    vm.enterSet fs ty (.obj none) id value = .returns vm (.value 0) ∧
    vm.enterSet fs ty (.cls none) id value = .returns vm (.value 0) := ⟨rfl, rfl⟩

/-- C52: on any other receiver an id that names no field is a dangling pointer. -/
theorem setField_stale (code : Nat → Hook) (vm : Vm) (ty : JType) (r : Nat) {id : Nat}
    (hid : vm.world.field? id = none) (value : BitVec 64) :
    vm.setField code ty (.obj (some r)) (some id) value = .ub .dangling ∧
    vm.setField code ty (.cls (some r)) (some id) value = .ub .dangling := by
  constructor <;> simp only [Vm.setField, Owner.isNull, Option.isNone_some, Bool.false_eq_true, if_false, hid]

theorem ids_bounded (l : List FieldRec) : ∃ n, ∀ f ∈ l, f.id < n := by
  induction l with
  | nil => exact ⟨0, nofun⟩
  | cons g l ih =>
    obtain ⟨n, hn⟩ := ih
    refine ⟨n + g.id + 1, fun f hf => ?_⟩
    rcases List.mem_cons.1 hf with rfl | hf
    · omega
    · have := hn f hf; omega

/-- A VM that has fields, one with a setter, and a number that is the id of none of them. -/
example : ∃ vm id f stale, VmReachable vm ∧ NamesField vm.world id f ∧ f.setter = some 5 ∧
    vm.world.field? stale = none := by
  obtain ⟨vm, a, b, c, q, m, m', s, q', f, g, S⟩ := sample_vm
  obtain ⟨n, hn⟩ := ids_bounded ((List.range vm.world.reg.cls.length).flatMap fun c => (vm.world.mem c).fields)
  refine ⟨vm, f, ⟨f, "f".toList, "I".toList, false, some 4, some 5⟩, n, S.reach,
    ⟨_, a, S.isA, by simp [S.fieldsA], rfl⟩, rfl, ?_⟩
  refine List.find?_eq_none.2 fun r hr he => ?_
  have := hn r hr
  have : r.id = n := by simpa using he
  omega

/-- C26: null is an instance of no class, without any search. -/
theorem instanceOf_null (w : World) (depth : Nat) (cl : Option Nat) : w.isInstanceOf depth none cl = .ok false := rfl

end Jnivm
