import Verif.Model.TypedArrays
import Verif.Model.Calls
/-!
Elements of object arrays in C++ code, `Arrayguard`, include/jnivm/array.h:91-165: `array[i]` is a guard
that converts to pointers and takes pointers, smart pointers and references.

The state are the objects C++ code works on, its `std::shared_ptr` variables and its arrays.  Objects made
by `std::make_shared` are managed: they are released with their last owner.  Others are automatic variables
and end with their scope.  An object is a number that is never reused, `objs i = none` means that it does
not exist (any more).  The objects here own no others.
-/
namespace Jnivm

/-- An object of C++ code with its dynamic type (a number as in `TypedArrays`) and its contents. -/
structure CppObj where
  dyn : Nat
  value : Nat
  managed : Bool
deriving DecidableEq, Repr

structure Elems where
  objs : Nat → Option CppObj
  next : Nat
  vars : List (Option Nat)
  arrays : List TypedArray

namespace Elems

/-- Some `std::shared_ptr` points to the object. -/
def held (s : Elems) (i : Nat) : Bool :=
  s.vars.contains (some i) || s.arrays.any fun a => a.cells.contains (some i)

/-- At the end of a statement managed objects without owner are gone. -/
def release (s : Elems) : Elems :=
  { s with objs := fun i => (s.objs i).bind fun o => if o.managed && !s.held i then none else some o }

def make (s : Elems) (o : CppObj) : Elems × Nat :=
  ({ s with objs := fun i => if i = s.next then some o else s.objs i, next := s.next + 1 }, s.next)

/-- Assign to a variable; a variable that does not exist is not modelled as one. -/
def setVar (s : Elems) (v : Nat) (x : Option Nat) : Option Elems :=
  if v < s.vars.length then some { s with vars := s.vars.set v x } else none

/-- `ref.Set(i, val)` through a guard of `Array<B>`, include/jnivm/array.h:114, 124-129, 138-140.  The result
is none if the program does not exist: it does not compile or there is no such array. -/
def put (h : CppHier) (s : Elems) (a view : Nat) (i : Int) (val : Option Nat) : Option (Outcome Elems Unit) :=
  match s.arrays[a]? with
  | none => none
  | some arr =>
    match val.map s.objs with
    | some none => some (.ub .dangling)
    | x =>
      let dyn := match x with | some (some o) => o.dyn | _ => 0
      match arr.set h (fun _ => dyn) view i val with
      | none => none
      | some (.ok arr') => some (.returns { s with arrays := s.arrays.set a arr' } ())
      | some (.throws e) => some (.raises s e)
      | some (.ub u) => some (.ub u)
      | some .diverges => some .diverges

/-- `ref.Get(i, array_type_t<B>{})`, include/jnivm/array.h:97. -/
def take (h : CppHier) (s : Elems) (a view : Nat) (i : Int) : Option (Res (Option Nat)) :=
  match s.arrays[a]? with
  | none => none
  | some arr => arr.get h view i

/-- What `operator=(Z& p)` puts into the array, include/jnivm/array.h:136-141 (and `operator=(Z* p)` for a
pointer that is not null, lines 121-127): the object itself if the library is compiled as C++17 and the
object is managed, else a copy.  The copy is made by the copy constructor of `Z`. -/
def wrap (std17 : Bool) (s : Elems) (z p : Nat) : Res (Elems × Nat) :=
  match s.objs p with
  | none => .ub .dangling
  | some o => if std17 && o.managed then .ok (s, p) else .ok (s.make ⟨z, o.value, true⟩)

end Elems

/-- Statements of C++ code; `a` is an array, seen as `Array<view>`. -/
inductive ElemStmt where
  /-- `v = std::make_shared<ty>(value)` -/
  | share (v ty value : Nat)
  /-- `ty x(value);` -/
  | automatic (ty value : Nat)
  /-- the scope of `x` ends -/
  | leave (p : Nat)
  /-- `v = nullptr` -/
  | reset (v : Nat)
  /-- `std::make_shared<Array<ty>>(length)` -/
  | array (ty length : Nat)
  /-- `a[i] = v`, lines 111-116 -/
  | assign (a view : Nat) (i : Int) (v : Nat)
  /-- `a[i] = p` for a `Z* p`, lines 118-132 -/
  | assignPtr (a view : Nat) (i : Int) (z : Nat) (p : Option Nat)
  /-- `a[i] = *p` for a `Z* p`, lines 133-143 -/
  | assignRef (a view : Nat) (i : Int) (z : Nat) (p : Nat)
  /-- `v = a[i]`, lines 95-98, 150-152 -/
  | read (v a view : Nat) (i : Int)
  /-- `(T*)a[i]` and the pointer behind `a[i]->`, lines 99-101, 108-110, 153-155, 162-164 -/
  | pointer (a view : Nat) (i : Int)
  /-- `(bool)a[i]`, lines 102-104, 156-158 -/
  | test (a view : Nat) (i : Int)
  /-- the contents of `*a[i]`, lines 105-107, 159-161 -/
  | deref (a view : Nat) (i : Int)
  /-- the contents of `*p` -/
  | load (p : Nat)
  /-- change the contents of `*p` -/
  | store (p value : Nat)
deriving DecidableEq, Repr

inductive ElemOut where
  | unit
  | ptr (p : Option Nat)
  | bool (b : Bool)
  | value (n : Nat)
deriving DecidableEq, Repr

namespace ElemStmt

/-- Continue after a piece of code that cannot compile or that fails. -/
def after {α : Type} (s : Elems) (r : Option (Res α)) (f : α → Option (Outcome Elems ElemOut)) :
    Option (Outcome Elems ElemOut) :=
  match r with
  | none => none
  | some (.ok x) => f x
  | some (.throws e) => some (.raises s e)
  | some (.ub u) => some (.ub u)
  | some .diverges => some .diverges

def unit (r : Option (Outcome Elems Unit)) : Option (Outcome Elems ElemOut) :=
  match r with
  | none => none
  | some (.returns s ()) => some (.returns s .unit)
  | some (.raises s e) => some (.raises s e)
  | some (.ub u) => some (.ub u)
  | some .aborts => some .aborts
  | some .diverges => some .diverges

/-- One statement before its temporaries are destroyed. -/
def exec (h : CppHier) (std17 : Bool) (s : Elems) : ElemStmt → Option (Outcome Elems ElemOut)
  | share v ty value =>
    let (s, i) := s.make ⟨ty, value, true⟩
    (s.setVar v (some i)).map fun s => .returns s .unit
  | automatic ty value =>
    let (s, i) := s.make ⟨ty, value, false⟩
    some (.returns s (.ptr (some i)))
  | leave p =>
    match s.objs p with
    | some ⟨_, _, false⟩ => some (.returns { s with objs := fun i => if i = p then none else s.objs i } .unit)
    | _ => none
  | reset v => (s.setVar v none).map fun s => .returns s .unit
  | array ty length => some (.returns { s with arrays := s.arrays ++ [.make ty length] } .unit)
  | assign a view i v =>
    match s.vars[v]? with
    | none => none
    | some x => unit (s.put h a view i x)
  | assignPtr a view i z p =>
    match p with
    | none => unit (s.put h a view i none)
    | some p => after s (some (s.wrap std17 z p)) fun (s, x) => unit (s.put h a view i (some x))
  | assignRef a view i z p =>
    after s (some (s.wrap std17 z p)) fun (s, x) => unit (s.put h a view i (some x))
  | read v a view i => after s (s.take h a view i) fun x => (s.setVar v x).map fun s => .returns s .unit
  | pointer a view i => after s (s.take h a view i) fun x => some (.returns s (.ptr x))
  | test a view i => after s (s.take h a view i) fun x => some (.returns s (.bool x.isSome))
  | deref a view i => after s (s.take h a view i) fun x =>
    match x with
    | none => some (.ub .nullDeref)
    | some p => match s.objs p with
      | none => some (.ub .dangling)
      | some o => some (.returns s (.value o.value))
  | load p => match s.objs p with
    | none => some (.ub .dangling)
    | some o => some (.returns s (.value o.value))
  | store p value => match s.objs p with
    | none => some (.ub .dangling)
    | some o =>
      some (.returns { s with objs := fun i => if i = p then some { o with value := value } else s.objs i } .unit)

/-- A statement; then its temporaries are destroyed. -/
def run (h : CppHier) (std17 : Bool) (s : Elems) (c : ElemStmt) : Option (Outcome Elems ElemOut) :=
  match c.exec h std17 s with
  | some (.returns s' out) => some (.returns s'.release out)
  | some (.raises s' e) => some (.raises s'.release e)
  | r => r

end ElemStmt

/-- The state after a statement that ended, normally or with an exception that C++ code caught. -/
def Outcome.final {σ α : Type} : Outcome σ α → Option σ
  | .returns s _ => some s
  | .raises s _ => some s
  | _ => none

/-- Statements one after the other. -/
def runElems (h : CppHier) (std17 : Bool) (s : Elems) : List ElemStmt → Option Elems
  | [] => some s
  | c :: cs => ((c.run h std17 s).bind Outcome.final).bind fun s => runElems h std17 s cs

/-- The start of a program with `n` smart pointers. -/
def Elems.start (n : Nat) : Elems := ⟨fun _ => none, 0, List.replicate n none, []⟩

end Jnivm
