import Verif.Model.Sig
/-!
Model of the class registry: src/jnivm/internal/findclass.cpp with `JNI_DEBUG` (the default),
`VM::np` (root namespace) and `VM::classes`.

Namespace and Class objects live in two heaps; a `shared_ptr` is an index.  Objects are
never removed from the registry.
-/
namespace Jnivm

abbrev Str := List Char

/-- `jnivm::Namespace`, include/jnivm/namespace.h: name and child lists. -/
structure NsNode where
  name : Str
  namespaces : List Nat
  classes : List Nat
deriving DecidableEq, Repr

/-- The naming part of `jnivm::Class`, include/jnivm/class.h: `name`, `nativeprefix` and the
nested `classes`. -/
structure ClassNode where
  name : Str
  nativeprefix : Str
  classes : List Nat
deriving DecidableEq, Repr

/-- `VM::np` is namespace 0; `byName` is `VM::classes` (the newest binding of a key is first). -/
structure Registry where
  ns : List NsNode
  cls : List ClassNode
  byName : List (Str × Nat)
deriving DecidableEq, Repr

/-- The registry of a VM before `VM::initialize`; the root namespace is called "jnivm",
src/jnivm/vm.cpp:516. -/
def Registry.empty : Registry := { ns := [⟨"jnivm".toList, [], []⟩], cls := [], byName := [] }

/-- `pos = std::find(name, end, ch)`: the text before `pos` and, if `pos != end`, the text from
`pos + 1` on. -/
def cutAt (ch : Char) : Str → Str × Option Str
  | [] => ([], none)
  | c :: t => if c = ch then ([], some t) else (c :: (cutAt ch t).1, (cutAt ch t).2)

theorem cutAt_length {ch : Char} {s t : Str} (h : (cutAt ch s).2 = some t) : t.length < s.length := by
  induction s with
  | nil => simp [cutAt] at h
  | cons c s ih =>
    unfold cutAt at h
    split at h
    · simp only [Option.some.injEq] at h; subst h; simp
    · simp only at h
      have := ih h
      simp only [List.length_cons]; omega

/-- `find_if` over `cur->namespaces` by name, src/jnivm/internal/findclass.cpp:28-31. -/
def Registry.nsChild (r : Registry) (cur : Nat) (sname : Str) : Option Nat :=
  match r.ns[cur]? with
  | none => none
  | some n => n.namespaces.find? (fun k => (r.ns[k]?).map (·.name) == some sname)

/-- `find_if` over `cur->classes` (of a namespace), src/jnivm/internal/findclass.cpp:64-67. -/
def Registry.nsClass (r : Registry) (cur : Nat) (sname : Str) : Option Nat :=
  match r.ns[cur]? with
  | none => none
  | some n => n.classes.find? (fun k => (r.cls[k]?).map (·.name) == some sname)

/-- `find_if` over `curc->classes` (of a class), src/jnivm/internal/findclass.cpp:49-52. -/
def Registry.clsClass (r : Registry) (curc : Nat) (sname : Str) : Option Nat :=
  match r.cls[curc]? with
  | none => none
  | some n => n.classes.find? (fun k => (r.cls[k]?).map (·.name) == some sname)

/-- New namespace below `cur`, src/jnivm/internal/findclass.cpp:37-39. -/
def Registry.addNs (r : Registry) (cur : Nat) (sname : Str) : Registry :=
  { r with ns := (r.ns.modify cur fun n => { n with namespaces := n.namespaces ++ [r.ns.length] })
                  ++ [⟨sname, [], []⟩] }

/-- New class below namespace `cur`, src/jnivm/internal/findclass.cpp:72-76. -/
def Registry.addNsClass (r : Registry) (cur : Nat) (sname nativeprefix : Str) : Registry :=
  { ns := r.ns.modify cur fun n => { n with classes := n.classes ++ [r.cls.length] },
    cls := r.cls ++ [⟨sname, nativeprefix, []⟩],
    byName := (nativeprefix, r.cls.length) :: r.byName }

/-- New class nested in class `curc`, src/jnivm/internal/findclass.cpp:57-61. -/
def Registry.addClsClass (r : Registry) (curc : Nat) (sname nativeprefix : Str) : Registry :=
  { r with
    cls := (r.cls.modify curc fun n => { n with classes := n.classes ++ [r.cls.length] })
            ++ [⟨sname, nativeprefix, []⟩],
    byName := (nativeprefix, r.cls.length) :: r.byName }

/-- The `while` loop over `/`, src/jnivm/internal/findclass.cpp:26-43.  `done` is the text
before `name` and `rest` the text from `name` on.  Returns the namespace, `done` and `rest`
after the loop, or `none` for the early `return nullptr`. -/
def nsLoop (returnZero : Bool) (r : Registry) (cur : Nat) (done rest : Str) :
    Registry × Option (Nat × Str × Str) :=
  match _h : (cutAt '/' rest).2 with
  | none => (r, some (cur, done, rest))
  | some rest' =>
    match r.nsChild cur (cutAt '/' rest).1 with
    | some k => nsLoop returnZero r k (done ++ (cutAt '/' rest).1 ++ ['/']) rest'
    | none =>
      if returnZero then (r, none)
      else nsLoop returnZero (r.addNs cur (cutAt '/' rest).1) r.ns.length
            (done ++ (cutAt '/' rest).1 ++ ['/']) rest'
termination_by rest.length
decreasing_by all_goals exact cutAt_length _h

/-- The `do … while` loop over `$` once `curc` is set, src/jnivm/internal/findclass.cpp:44-81
with lines 48-62. -/
def clsLoop (returnZero : Bool) (r : Registry) (curc : Nat) (done rest : Str) :
    Registry × Option Nat :=
  match r.clsClass curc (cutAt '$' rest).1 with
  | some k =>
    match _h : (cutAt '$' rest).2 with
    | none => (r, some k)
    | some rest' => clsLoop returnZero r k (done ++ (cutAt '$' rest).1 ++ ['$']) rest'
  | none =>
    if returnZero then (r, none)
    else
      match _h : (cutAt '$' rest).2 with
      | none => (r.addClsClass curc (cutAt '$' rest).1 (done ++ (cutAt '$' rest).1),
                  some r.cls.length)
      | some rest' =>
        clsLoop returnZero (r.addClsClass curc (cutAt '$' rest).1 (done ++ (cutAt '$' rest).1))
          r.cls.length (done ++ (cutAt '$' rest).1 ++ ['$']) rest'
termination_by rest.length
decreasing_by all_goals exact cutAt_length _h

/-- First iteration of the `do … while` loop (`curc` is null, lines 63-78) followed by the
remaining ones, src/jnivm/internal/findclass.cpp:44-81. -/
def firstClass (returnZero : Bool) (r : Registry) (cur : Nat) (done rest : Str) :
    Registry × Option Nat :=
  match r.nsClass cur (cutAt '$' rest).1 with
  | some k =>
    match (cutAt '$' rest).2 with
    | none => (r, some k)
    | some rest' => clsLoop returnZero r k (done ++ (cutAt '$' rest).1 ++ ['$']) rest'
  | none =>
    if returnZero then (r, none)
    else
      match (cutAt '$' rest).2 with
      | none => (r.addNsClass cur (cutAt '$' rest).1 (done ++ (cutAt '$' rest).1),
                  some r.cls.length)
      | some rest' =>
        clsLoop returnZero (r.addNsClass cur (cutAt '$' rest).1 (done ++ (cutAt '$' rest).1))
          r.cls.length (done ++ (cutAt '$' rest).1 ++ ['$']) rest'

/-- Text behind the last `/` (`strrchr`), src/jnivm/internal/findclass.cpp:90-91. -/
def afterLastSlash (name : Str) : Str := (name.reverse.takeWhile (· ≠ '/')).reverse

/-- `InternalFindClass(env, name, returnZero)`, src/jnivm/internal/findclass.cpp:7-100.
The result is the class object or null; local references are modelled in `Model/Heap`. -/
def findClass (returnZero : Bool) (r : Registry) (name : Str) : Registry × Option Nat :=
  if name.head? ≠ some '[' then
    match nsLoop returnZero r 0 [] name with
    | (r', none) => (r', none)
    | (r', some (cur, done, rest)) => firstClass returnZero r' cur done rest
  else
    match r.byName.lookup name with
    | some c => (r, some c)
    | none =>
      if returnZero then (r, none)
      else
        ({ r with cls := r.cls ++ [⟨afterLastSlash name, name, []⟩],
                  byName := (name, r.cls.length) :: r.byName }, some r.cls.length)

/-- The loop of `Declare`, src/jnivm/internal/findclass.cpp:107-115, from index `cur` on. -/
def declareLoop (r : Registry) (sig : Str) (cur : Nat) : Res Registry :=
  if cur = sig.length then .ok r
  else
    match _h : chAt sig cur with
    | .ok c =>
      if c = 'L' then
        declareLoop
          (findClass false r ((sig.drop (cur + 1)).take (findFrom sig cur ';' - (cur + 1)))).1
          sig (findFrom sig cur ';' + 1)
      else declareLoop r sig (cur + 1)
    | .throws e => .throws e
    | .ub u => .ub u
    | .diverges => .diverges
termination_by sig.length + 1 - cur
decreasing_by
  all_goals
    have := chAt_le _h
    have := findFrom_ge sig cur ';'
    omega

/-- `Declare(env, signature)`, src/jnivm/internal/findclass.cpp:106-116. -/
def declare (r : Registry) (sig : Str) : Res Registry := declareLoop r sig 0

/-- The classes created by `VM::initialize`, src/jnivm/vm.cpp:525-536 (their `JNITypes` names,
in order). -/
def builtinClasses : List String :=
  ["java/lang/Object", "java/lang/Class", "java/lang/String", "java/nio/ByteBuffer",
   "java/lang/Throwable", "java/lang/reflect/Method", "java/lang/reflect/Field",
   "java/lang/ref/WeakReference", "internal/lang/Global"]

/-- The registry of a VM after `VM::initialize`. -/
def Registry.initial : Registry :=
  builtinClasses.foldl (fun r n => (findClass false r n.toList).1) Registry.empty

end Jnivm
