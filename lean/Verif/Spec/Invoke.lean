import Verif.Model.Invoke
import Verif.Spec.ObjArgs
import Verif.Spec.Proxy
/-! What a hooked C++ function gets for the C++ values that `Method::invoke` is called with. -/
namespace Spec
open Jnivm

/-- `i` is an object that is no reference object. -/
def Ordinary (h : Heap) (i : Nat) : Prop :=
  ∃ o, h.objs i = some o ∧ ∀ t, o.kind ≠ .weak t ∧ o.kind ≠ .global t

/-- What C++ code may pass: objects that exist, with a class of the VM or none. -/
def ArgOk (h : Heap) : InvokeArg → Prop
  | .prim _ _ => True
  | .jobject r => Valid h r
  | .shared _ o => ∀ i, o = some i → Ordinary h i
  | .pointer _ o => ∀ i, o = some i → Ordinary h i
  | .unowned _ cls => ∀ k, cls = some k → ∃ n, (n, k) ∈ h.classes
  | .value _ cls => ∀ k, cls = some k → ∃ n, (n, k) ∈ h.classes

/-- `k` is a new object of class `cls`, or of the class of its C++ type if `cls` is none. -/
def IsCopy (w : CppTypes) (h h' : Heap) (c : CppClass) (cls : Option Nat) (k : Nat) : Prop :=
  h.next ≤ k ∧ h'.objs k = some ⟨.plain, cls.or ((w.name c).bind h.typeClass)⟩

/-- `Handed w share h h' a j`: the argument `a` of a call made in `h` is handed over as `j`.  Numbers keep
their bits, a `std::shared_ptr` becomes a reference to its object, and so does a pointer to an owned
object if it can be shared; everything else is copied. -/
inductive Handed (w : CppTypes) (share : Bool) (h h' : Heap) : InvokeArg → JArg → Prop where
  | number {ty v} : Handed w share h h' (.prim ty v) (.bits (BitVec.ofNat 64 (v.toNat % 2 ^ bits ty)))
  | jobject {r} : Handed w share h h' (.jobject r) (.ref r)
  | shared {c o} : Handed w share h h' (.shared c o) (.ref o)
  | null {c} : Handed w share h h' (.pointer c none) (.ref none)
  | pointer {c i} : share = true → Handed w share h h' (.pointer c (some i)) (.ref (some i))
  | pointerCopy {c i o cls k} : share = false → h.objs i = some o → (∀ x, o.cls = some x → cls = some x) →
      IsCopy w h h' c cls k → Handed w share h h' (.pointer c (some i)) (.ref (some k))
  | unowned {c cls k} : IsCopy w h h' c cls k → Handed w share h h' (.unowned c cls) (.ref (some k))
  | value {c cls k} : IsCopy w h h' c cls k → Handed w share h h' (.value c cls) (.ref (some k))

/-- One `jvalue` for each argument. -/
inductive HandedAll (w : CppTypes) (share : Bool) (h h' : Heap) : List InvokeArg → List JArg → Prop where
  | nil : HandedAll w share h h' [] []
  | cons {a j as js} : Handed w share h h' a j → HandedAll w share h h' as js →
      HandedAll w share h h' (a :: as) (j :: js)

/-- Is the object of this argument copied? -/
def copies (share : Bool) : InvokeArg → Bool
  | .pointer _ (some _) => !share
  | .unowned _ _ => true
  | .value _ _ => true
  | _ => false

/-- The new objects. -/
def newObjects (share : Bool) (as : List InvokeArg) (js : List JArg) : List Nat :=
  (List.zipWith (fun a j => match copies share a, j with
    | true, .ref r => r.toList
    | _, _ => []) as js).flatten

/-- The local reference that an argument leaves in the caller's frame. -/
def handedLocal : InvokeArg → JArg → List Nat
  | .prim _ _, _ => []
  | .jobject _, _ => []
  | _, .ref r => r.toList
  | _, .bits _ => []

def handedLocals (as : List InvokeArg) (js : List JArg) : List Nat := (List.zipWith handedLocal as js).flatten

/-- The class that passing this argument gives to object `i` if it has none. -/
def givesClass (w : CppTypes) (share : Bool) (h : Heap) (i : Nat) : InvokeArg → Option Nat
  | .shared c (some j) => if j = i then (w.name c).bind h.typeClass else none
  | .pointer c (some j) => if share = true ∧ j = i then (w.name c).bind h.typeClass else none
  | _ => none

/-- A parameter of that type for an object, if null is not forbidden. -/
def formed : ObjParam → Option Nat → Option ObjArg
  | .jobject, o => some (.handle o)
  | .jhandle _, o => some (.handle o)
  | .shared _, o => some (.shared o)
  | .pointer _, o => some (.pointer o)
  | .ref _, some i => some (.ref i)
  | .value _, some i => some (.copy i)
  | .ref _, none => none
  | .value _, none => none

/-- The C++ class of a parameter. -/
def paramClass : ObjParam → Option CppClass
  | .jobject => none
  | .jhandle c => some c
  | .shared c => some c
  | .pointer c => some c
  | .ref c => some c
  | .value c => some c

/-- The parameter `p` of the hooked function gets `x` for the argument `a`, which was handed over as `j`:
the same number, or the same object (for a copied argument: the copy). -/
inductive Arrived (w : CppTypes) (h : Heap) : InvokeArg → JArg → Param → Arg → Prop where
  | number {ty v j} : ty ≠ .void → ty ≠ .object →
      Arrived w h (.prim ty v) j (.prim ty) (.bits (BitVec.ofNat 64 (v.toNat % 2 ^ bits ty)))
  | jobject {r j p x} : Passed w h p r x → Arrived w h (.jobject r) j (.obj p) (.obj x)
  | object {a o p x} : (∀ ty v, a ≠ .prim ty v) → (∀ r, a ≠ .jobject r) →
      (∀ c i, paramClass p = some c → o = some i → w.isa i c = true) → formed p o = some x →
      Arrived w h a (.ref o) (.obj p) (.obj x)

inductive ArrivedAll (w : CppTypes) (h : Heap) : List InvokeArg → List JArg → List Param → List Arg → Prop where
  | nil {as js} : ArrivedAll w h as js [] []
  | cons {a j p x as js ps xs} : Arrived w h a j p x → ArrivedAll w h as js ps xs →
      ArrivedAll w h (a :: as) (j :: js) (p :: ps) (x :: xs)

/-- The types of an argument and of a parameter lead to the same signature (up to the classes of objects,
which `Arrived` is about). -/
inductive Matches : InvokeArg → Param → Prop where
  | number {ty v} : ty ≠ .void → ty ≠ .object → Matches (.prim ty v) (.prim ty)
  | object {a p} : (∀ ty v, a ≠ .prim ty v) → Matches a (.obj p)

inductive MatchesAll : List InvokeArg → List Param → Prop where
  | nil : MatchesAll [] []
  | cons {a p as ps} : Matches a p → MatchesAll as ps → MatchesAll (a :: as) (p :: ps)

/-- The local references that the parameters of the hooked function leave in the caller's frame. -/
def receivedLocal : Param → Arg → List Nat
  | .obj p, .obj x => newLocals p x
  | _, _ => []

def receivedLocals (ps : List Param) (xs : List Arg) : List Nat := (List.zipWith receivedLocal ps xs).flatten

/-- The local reference to the class of the receiver that the call leaves: none for a static call.  A
receiver without class has got that of `Object` when it was converted; if there is none, the arguments
decide. -/
def ClassLocal (w : CppTypes) (share : Bool) (h : Heap) (target : Recipient) (args : List InvokeArg)
    (k : Option Nat) : Prop :=
  match target with
  | .cls _ => k = none
  | .obj i => ∃ o, h.objs i = some o ∧ k = (o.cls.or (h.typeClass "java/lang/Object".toList)).or
      (args.findSome? (givesClass w share h i))

/-- The states that calls of the interface, of hooked functions and of `invoke` lead to. -/
inductive CppReachable (w : CppTypes) : Heap → Prop where
  | initial : CppReachable w Heap.initial
  | op {h h' t op out} : CppReachable w h → HeapOp.run h t op = .ok (h', out) → CppReachable w h'
  | hook {h h' t c r} : CppReachable w h → h.hookCall w t c = .ok (h', r) → CppReachable w h'
  | invoke {h h' share t target args f r xs} : CppReachable w h → Ordinary h target.ref →
      (∀ a ∈ args, ArgOk h a) → h.invoke w share t target args f = .ok (h', r, xs) → CppReachable w h'

end Spec
