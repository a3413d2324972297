import Verif.Model.Basic
/-!
Arrays of objects with a C++ element type, include/jnivm/array.h:167-259: `Array<T>` for a class `T`
derives from `Array<B>` for each base class `B` of `T`, so that an array of `T` can be used as an array
of `B`, in particular as the `Array<Object>` that JNI works on.

Which function a virtual call runs depends on the classes the compiler generates; it is computed here
from the inheritance of the element types.  Element types are numbers, 0 is `Object`.
-/
namespace Jnivm

/-- Classes and their direct bases, as listed in `Extends<…>` (include/jnivm/extends.h:11-13; `Object`
itself has none).  A base class is complete before the class that derives from it. -/
structure CppHier where
  bases : Nat → List Nat
  ordered : ∀ c, ∀ b ∈ bases c, b < c

namespace CppHier

/-- `c` is `b` or derives from it; the first argument bounds the length of the path. -/
def isAN (h : CppHier) : Nat → Nat → Nat → Bool
  | 0, _, _ => false
  | n + 1, c, b => c == b || (h.bases c).any fun x => h.isAN n x b

/-- `c` is `b` or derives from it. -/
def isA (h : CppHier) (c b : Nat) : Bool := h.isAN (c + 1) c b

/-- The classes of which a class of the arrays' hierarchy below `Array<T>` defines
`Get(jint, array_type_t<B>)` and `Set(jint, const shared_ptr<B>&)`: `Array<B>` itself
(include/jnivm/array.h:170-175, 196-201) and `ArrayBaseImpl<Z, …>` for each `Z` that lists `B` as a base
(lines 244-254).  Each is named by the type its cells are cast to. -/
def definers (h : CppHier) (t b : Nat) : List Nat :=
  (List.range (t + 1)).filter fun z => h.isA t z && (z == b || (h.bases z).contains b)

/-- The final overrider in `Array<T>`: the one definition that is in a class derived (virtually) from
the classes of all other definitions.  Without one the program is ill-formed. -/
def overrider (h : CppHier) (t b : Nat) : Option Nat :=
  (h.definers t b).find? fun z => (h.definers t b).all fun y => h.isA z y

end CppHier

/-- An `Array<T>` with its element type `T`; `new std::shared_ptr<T>[length]` holds pointers to objects,
include/jnivm/array.h:205. -/
structure TypedArray where
  elem : Nat
  cells : List (Option Nat)
deriving DecidableEq, Repr

namespace TypedArray

/-- `Array(jsize length)`, include/jnivm/array.h:178, 205. -/
def make (elem length : Nat) : TypedArray := ⟨elem, List.replicate length none⟩

/-- The index as a position; outside of the array undefined, lines 171, 174, 197, 200. -/
def position (a : TypedArray) (i : Int) : Res Nat :=
  if 0 ≤ i ∧ i < a.cells.length then .ok i.toNat else .ub .outOfBounds

/-- `((std::shared_ptr<Z>*) getArray())[i]` of an array whose cells are `std::shared_ptr<T>`: with
`Z ≠ T` an object is accessed through a pointer to another type.  (`Extends` derives virtually, so the
address of an object as a `Z` is not its address as a `T` either.) -/
def cell (a : TypedArray) (z : Nat) (i : Int) : Res Nat :=
  if z = a.elem then a.position i else .ub .typePun

/-- `Get(i, array_type_t<B>)` of an array seen as `Array<B>`.  `none`: no final overrider, the program
does not compile. -/
def get (h : CppHier) (a : TypedArray) (view : Nat) (i : Int) : Option (Res (Option Nat)) :=
  (h.overrider a.elem view).map fun z => (a.cell z i).bind fun k => .ok (a.cells[k]?.getD none)

/-- `Set(i, val)` of an array seen as `Array<B>`, include/jnivm/array.h:173-175, 199-201 (the definition in
`Array<B>` assigns) and 248-254 (the others cast the object to their own type first). -/
def set (h : CppHier) (dyn : Nat → Nat) (a : TypedArray) (view : Nat) (i : Int) (val : Option Nat) :
    Option (Res TypedArray) :=
  (h.overrider a.elem view).map fun z =>
    if z ≠ view ∧ val.any (fun o => !h.isA (dyn o) z) then .throws .classType
    else (a.cell z i).bind fun k => .ok { a with cells := a.cells.set k val }

/-- The loop of `NewObjectArray` with an initial value, src/jnivm/internal/array.cpp:16-20: JNI sees the
array as `Array<Object>`. -/
def fill (h : CppHier) (dyn : Nat → Nat) (val : Option Nat) : Nat → TypedArray → Option (Res TypedArray)
  | 0, a => some (.ok a)
  | n + 1, a =>
    match fill h dyn val n a with
    | some (.ok a') => a'.set h dyn 0 n val
    | r => r

end TypedArray

/-- Accesses to one array: assignments through a view. -/
structure CellWrite where
  view : Nat
  index : Int
  val : Option Nat
deriving DecidableEq, Repr

/-- A history of assignments; one that throws leaves the array as it was. -/
def TypedArray.run (h : CppHier) (dyn : Nat → Nat) : List CellWrite → TypedArray → Option (Res TypedArray)
  | [], a => some (.ok a)
  | w :: ws, a =>
    match a.set h dyn w.view w.index w.val with
    | some (.ok a') => run h dyn ws a'
    | some (.throws _) => run h dyn ws a
    | r => r

end Jnivm
