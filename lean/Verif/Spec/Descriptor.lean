/-!
JNI type descriptors and method signatures, and what a variadic C call passes for them.
Independent of the model.
-/
namespace Spec

/-- Primitive types. -/
inductive Prim where
  | boolean | byte | char | short | int | long | float | double
deriving DecidableEq, Repr

/-- Field types. -/
inductive Ty where
  | prim (p : Prim)
  | cls (name : List Char)
  | arr (elem : Ty)
deriving DecidableEq, Repr

/-- Descriptor letter of a primitive type. -/
def Prim.letter : Prim → Char
  | .boolean => 'Z' | .byte => 'B' | .char => 'C' | .short => 'S'
  | .int => 'I' | .long => 'J' | .float => 'F' | .double => 'D'

/-- Text of a type descriptor. -/
def Ty.render : Ty → List Char
  | .prim p => [p.letter]
  | .cls name => 'L' :: (name ++ [';'])
  | .arr t => '[' :: t.render

/-- Class names inside a descriptor contain no `;`. -/
def Ty.Valid : Ty → Prop
  | .prim _ => True
  | .cls name => ';' ∉ name
  | .arr t => t.Valid

instance : (t : Ty) → Decidable t.Valid
  | .prim _ => .isTrue trivial
  | .cls name => inferInstanceAs (Decidable (';' ∉ name))
  | .arr t => instDecidableValid t

/-- Return descriptor: `none` is `void`. -/
def renderRet : Option Ty → List Char
  | none => ['V']
  | some t => t.render

/-- A method signature `(params)ret`. -/
def renderSig (params : List Ty) (ret : Option Ty) : List Char :=
  '(' :: (params.flatMap Ty.render ++ ')' :: renderRet ret)

/-- The text of an array element type is cut off: only `[` and `(` follow, or an `L` without
its `;`. -/
def CutType : List Char → Prop
  | [] => True
  | '[' :: t => CutType t
  | '(' :: t => CutType t
  | 'L' :: t => ';' ∉ t
  | _ => False

noncomputable instance : DecidablePred CutType := by
  intro s
  induction s with
  | nil => exact .isTrue trivial
  | cons c t ih =>
    unfold CutType
    split <;> first | infer_instance | exact ih | (rename_i h; cases h; exact ih) | (rename_i h; cases h; infer_instance)

/-- One argument as it lies in a C variable argument list, after default promotions.
Doubles and pointers are kept as their 64 bit patterns. -/
inductive CArg where
  | int (v : BitVec 32)
  | long (v : BitVec 64)
  | dbl (v : BitVec 64)
  | obj (p : BitVec 64)
deriving DecidableEq, Repr

/-- The `jvalue` (as 64 bits, unused high bits zero) a callee must see for a parameter of
type `t` when the caller passes `a`; `none` if `a` is not of the promoted type of `t`.
`d2f` is the C conversion from `double` to `float` on bit patterns. -/
def delivered (d2f : BitVec 64 → BitVec 32) : Ty → CArg → Option (BitVec 64)
  | .prim .boolean, .int v => some ((v.truncate 8).zeroExtend 64)
  | .prim .byte, .int v => some ((v.truncate 8).zeroExtend 64)
  | .prim .short, .int v => some ((v.truncate 16).zeroExtend 64)
  | .prim .char, .int v => some ((v.truncate 16).zeroExtend 64)
  | .prim .int, .int v => some (v.zeroExtend 64)
  | .prim .long, .long v => some v
  | .prim .float, .dbl v => some ((d2f v).zeroExtend 64)
  | .prim .double, .dbl v => some v
  | .cls _, .obj p => some p
  | .arr _, .obj p => some p
  | _, _ => none

/-- `Passes d2f params args vals`: the arguments match the parameters one to one and the
callee must see `vals`. -/
inductive Passes (d2f : BitVec 64 → BitVec 32) : List Ty → List CArg → List (BitVec 64) → Prop
  | nil : Passes d2f [] [] []
  | cons {t : Ty} {a : CArg} {v : BitVec 64} {ts : List Ty} {as : List CArg} {vs : List (BitVec 64)} :
      delivered d2f t a = some v → Passes d2f ts as vs → Passes d2f (t :: ts) (a :: as) (v :: vs)

end Spec
