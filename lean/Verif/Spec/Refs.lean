import Verif.Model.Heap
/-!
What references mean, said on the state only: ownership, denotation and histories.
Nothing here uses a function of the model except `HeapOp.run`, which is what a history consists of.
-/
namespace Spec
open Jnivm

/-- `i` is an allocated object. -/
def Live (h : Heap) (i : Nat) : Prop := ∃ o, h.objs i = some o

/-- The live object `j` contains a strong reference to `i`. -/
def Owns (h : Heap) (j i : Nat) : Prop :=
  ∃ o, h.objs j = some o ∧ (o.kind = .global i ∨ (∃ slots, o.kind = .array slots ∧ some i ∈ slots) ∨
    ∃ vars, o.kind = .record vars ∧ some i ∈ vars)

/-- A thread has a local reference to `i`. -/
def HasLocal (h : Heap) (t i : Nat) : Prop := ∃ e, h.envs t = some e ∧ ∃ f ∈ e.frames, i ∈ f

/-- Something outside of the objects refers to `i`: a global reference, the tables of the VM, a local
reference or the pending exception of some thread. -/
def Root (h : Heap) (i : Nat) : Prop :=
  i ∈ h.globals ∨ i ∈ h.pinned ∨ (∃ t, HasLocal h t i) ∨ ∃ t e, h.envs t = some e ∧ e.pending = some i

/-- `i` can be reached from a root. -/
inductive Reachable (h : Heap) : Nat → Prop where
  | root {i} : Root h i → Reachable h i
  | owned {j i} : Reachable h j → Owns h j i → Reachable h i

/-- A path of at least one strong reference. -/
inductive OwnsPath (h : Heap) : Nat → Nat → Prop where
  | one {j i} : Owns h j i → OwnsPath h j i
  | cons {j k i} : Owns h j k → OwnsPath h k i → OwnsPath h j i

/-- What a reference denotes: null denotes null, a global reference what it wraps, a weak reference
what it wraps as long as this is alive, and any other object itself. -/
inductive Denotes (h : Heap) : Option Nat → Option Nat → Prop where
  | null : Denotes h none none
  | direct {i o} : h.objs i = some o → (∀ t, o.kind ≠ .weak t ∧ o.kind ≠ .global t) →
      Denotes h (some i) (some i)
  | global {g o t x} : h.objs g = some o → o.kind = .global t → Denotes h (some t) x →
      Denotes h (some g) x
  | weak {w o t x} : h.objs w = some o → o.kind = .weak t → Denotes h (some t) x →
      Denotes h (some w) x
  | cleared {w o t} : h.objs w = some o → o.kind = .weak t → ¬ Live h t → Denotes h (some w) none

/-- A reference that may be passed to the interface: null or not released. -/
def Valid (h : Heap) : Option Nat → Prop
  | none => True
  | some i => Live h i

/-- Every call of a history satisfies a condition on the state in which it is made. -/
def Along (P : Heap → Nat → HeapOp → Prop) : Heap → List (Nat × HeapOp) → Prop
  | _, [] => True
  | h, (t, op) :: ops => P h t op ∧ ∀ h' out, op.run h t = .ok (h', out) → Along P h' ops

/-- The call of a thread whose frames are `inner ++ outer` does not reach the outer frames: it pops
only an inner frame that is not the last one, it does not delete a reference that is found only in
the outer frames, and it does not detach. -/
def Inside (t : Nat) (outer : List (List Nat)) (h : Heap) (op : HeapOp) : Prop :=
  ∀ e inner, h.envs t = some e → e.frames = inner ++ outer → match op with
    | .popLocalFrame _ => 2 ≤ inner.length
    | .deleteLocalRef r => ∀ i, Denotes h r (some i) → (∃ f ∈ inner, i ∈ f) ∨ ∀ f ∈ outer, i ∉ f
    | .detach => False
    | _ => True

/-- The call of a thread with frames `inner ++ outer` keeps the local references to `i` in the outer
frames. -/
def Spares (t i : Nat) (depth : Nat) (h : Heap) (op : HeapOp) : Prop :=
  ∀ e, h.envs t = some e → match op with
    | .popLocalFrame _ => depth < e.frames.length
    | .deleteLocalRef r => ¬ Denotes h r (some i)
    | .detach => False
    | _ => True

/-- Slot `n` of the object array `x` holds `v`. -/
def SlotIs (h : Heap) (x n : Nat) (v : Option Nat) : Prop :=
  ∃ o slots, h.objs x = some o ∧ o.kind = .array slots ∧ slots[n]? = some v

/-- The call does not store into slot `n` of the array `x`. -/
def KeepsSlot (x n : Nat) (h : Heap) (op : HeapOp) : Prop :=
  ∀ a i v, op = .setObjectArrayElement a i v → Denotes h a (some x) → i ≠ n

/-- Variable `n` of the object `x` holds `v`. -/
def VarIs (h : Heap) (x n : Nat) (v : Option Nat) : Prop :=
  ∃ o vars, h.objs x = some o ∧ o.kind = .record vars ∧ vars[n]? = some v

/-- The call does not set variable `n` of the object `x`. -/
def KeepsVar (x n : Nat) (h : Heap) (op : HeapOp) : Prop :=
  ∀ a i v, op = .setVar a i v → Denotes h a (some x) → i ≠ n

/-- The functions that return a local reference. -/
def CreatesLocal : HeapOp → Prop
  | .newObject _ | .returnObject _ _ | .findClass _ | .popLocalFrame _ | .newLocalRef _
  | .getObjectClass _ | .newObjectArray _ _ _ | .getObjectArrayElement _ _ | .exceptionOccurred
  | .newRecord _ _ | .getVar _ _ _ | .newCopy _ _
  | .toReflected _ _ _ _ => True
  | _ => False

/-- An array is filled with a local reference or null, not with a global or weak one. -/
def PlainInit (h : Heap) : HeapOp → Prop
  | .newObjectArray _ _ init => Denotes h init init
  | _ => True

/-- The reference is no cleared weak reference. -/
def NotCleared (h : Heap) (r : Option Nat) : Prop := Denotes h r none → r = none

/-- `a` denotes an array that has the index, or an object that is no array. -/
def IndexOk (h : Heap) (a : Option Nat) (i : Int) : Prop :=
  ∃ x, Denotes h a (some x) ∧ ∀ o slots, h.objs x = some o → o.kind = .array slots →
    0 ≤ i ∧ i < slots.length

/-- `a` denotes an object. -/
def NonNull (h : Heap) (a : Option Nat) : Prop := ∃ x, Denotes h a (some x)

/-- What the interface asks of the caller: the thread is attached, references are null or not
released, array indices are in range, the classes of copies exist, and no cleared weak reference is asked
for its class. -/
def Legal (h : Heap) (t : Nat) (op : HeapOp) : Prop :=
  match op with
  | .attach | .detach => True
  | _ => (∃ e, h.envs t = some e) ∧ match op with
    | .returnObject r _ | .popLocalFrame r | .newGlobalRef r | .newWeakGlobalRef r
    | .deleteGlobalRef r | .deleteWeakGlobalRef r | .deleteLocalRef r | .newLocalRef r
    | .getObjectRefType r | .newObjectArray _ _ r | .throw r | .toReflected _ _ r _ => Valid h r
    | .isSameObject a b => Valid h a ∧ Valid h b
    | .getObjectClass r | .fromReflected _ r => Valid h r ∧ NotCleared h r
    | .getObjectArrayElement a i => IndexOk h a i
    | .setObjectArrayElement a i v => IndexOk h a i ∧ Valid h v
    | .getVar a _ _ => NonNull h a
    | .setVar a _ v => Valid h a ∧ NotCleared h a ∧ Valid h v
    | .newCopy k _ => ∀ c, k = some c → ∃ n, (n, c) ∈ h.classes
    | _ => True

end Spec
