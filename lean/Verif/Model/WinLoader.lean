import Verif.Model.Registry
/-!
The default `LibraryOptions` on Windows, src/fake-jni/fake-jni.cpp:126-173: `dlopen`, `dlsym` and `dlclose` made
of `LoadLibraryW`, `GetProcAddress` and `CloseHandle`.

What Windows does is part of the model: `LoadLibraryW` and `GetModuleHandleExA` (without the flag that leaves the
count unchanged) add a reference to the module, `FreeLibrary` takes one away, `CloseHandle` closes a kernel handle
and fails for every other value.  Modules and kernel handles are numbers of one kind, as in the C++ code.
`MultiByteToWideChar` is a parameter.  `new` does not fail.
-/
namespace Jnivm

/-- `LibraryOptions_Wrapper`, src/fake-jni/fake-jni.cpp:127-130. -/
structure WinWrapper where
  mod : Nat
  free : Bool
deriving DecidableEq, Repr

/-- The process: references to modules, open kernel handles, and the wrappers that are allocated. -/
structure WinState where
  refs : Nat → Nat
  kernel : List Nat
  wrappers : List (Nat × WinWrapper)
  next : Nat

/-- `INT_MAX`. -/
def winIntMax : Nat := 2147483647

/-- The conversion of the name, src/fake-jni/fake-jni.cpp:146-149, and the string that `LoadLibraryW` reads in
`wd`.  `conv` is the UTF-16 text of the name without the terminator, none if Windows cannot convert it. -/
def wideName (conv : List (BitVec 8) → Option (List (BitVec 16))) (name : List (BitVec 8)) :
    Res (List (BitVec 16)) :=
  let size := match conv name with | some u => u.length + 1 | none => 0
  if size + 1 > winIntMax then .ub .signedOverflow else
  let wd : List (BitVec 16) := List.replicate (size + 1) 0
  let wd := match conv name with
    | some u => u ++ [0] ++ wd.drop (u.length + 1)
    | none => wd
  if size < wd.length then
    let wd := wd.set size 0
    if 0 ∈ wd then .ok (wd.takeWhile (· != 0)) else .ub .outOfBounds
  else .ub .outOfBounds

/-- Calls, with the answers of Windows: the module of the program itself, and what `LoadLibraryW` gives for a
name.  The last three are other code of the process. -/
inductive WinOp where
  | dlopen (name : Option (List (BitVec 8))) (self : Option Nat) (load : List (BitVec 16) → Option Nat)
  | dlsym (handle : Option Nat) (sym : Option Str)
  | dlclose (handle : Option Nat)
  | loadLibrary (m : Nat)
  | freeLibrary (m : Nat)
  | createHandle (k : Nat)

inductive WinAnswer where
  | handle (h : Option Nat)
  | symbol (f : Option Nat)
  | status (n : Nat)
  | nothing
deriving DecidableEq, Repr

def WinState.wrapper? (s : WinState) (h : Nat) : Option WinWrapper := s.wrappers.lookup h

/-- One more reference to the module, and `new LibraryOptions_Wrapper { m, free }`. -/
def WinState.wrap (s : WinState) (m : Nat) (free : Bool) : WinState × WinAnswer :=
  ({ s with refs := fun k => if k = m then s.refs k + 1 else s.refs k,
            wrappers := (s.next, ⟨m, free⟩) :: s.wrappers, next := s.next + 1 }, .handle (some s.next))

/-- One call.  `exports` are the symbols of the modules.  `dlopen`: src/fake-jni/fake-jni.cpp:135-158; `dlsym`:
lines 159-160; `dlclose`: lines 161-168.  `GetProcAddress` needs a module that is loaded. -/
def WinState.step (conv : List (BitVec 8) → Option (List (BitVec 16))) (exports : Nat → Str → Option Nat)
    (s : WinState) : WinOp → Res (WinState × WinAnswer)
  | .dlopen name self load =>
    match name with
    | none | some [] => match self with
      | some m => .ok (s.wrap m false)
      | none => .ok (s, .handle none)
    | some n => (wideName conv n).bind fun wd => match load wd with
      | none => .ok (s, .handle none)
      | some m => .ok (s.wrap m true)
  | .dlsym (some h) (some sym) => match s.wrapper? h with
    | none => .ub .dangling
    | some w => if s.refs w.mod = 0 then .ub .dangling else .ok (s, .symbol (exports w.mod sym))
  | .dlsym _ _ => .ok (s, .symbol none)
  | .dlclose none => .ok (s, .status 0)
  | .dlclose (some h) => match s.wrapper? h with
    | none => .ub .dangling
    | some w =>
      let s1 := { s with wrappers := s.wrappers.filter (fun x => x.1 != h) }
      if w.free then
        if w.mod ∈ s.kernel then .ok ({ s1 with kernel := s.kernel.filter (· != w.mod) }, .status 1)
        else .ok (s1, .status 0)
      else .ok (s1, .status 0)
  | .loadLibrary m => .ok ({ s with refs := fun k => if k = m then s.refs k + 1 else s.refs k }, .nothing)
  | .freeLibrary m =>
    if s.refs m = 0 then .ub .notOwner
    else .ok ({ s with refs := fun k => if k = m then s.refs k - 1 else s.refs k }, .nothing)
  | .createHandle k => .ok ({ s with kernel := k :: s.kernel }, .nothing)

/-- A history and the answers. -/
def WinState.run (conv : List (BitVec 8) → Option (List (BitVec 16))) (exports : Nat → Str → Option Nat)
    (s : WinState) : List WinOp → Res (WinState × List WinAnswer)
  | [] => .ok (s, [])
  | op :: ops => (s.step conv exports op).bind fun (s, a) =>
      (s.run conv exports ops).bind fun (s, l) => .ok (s, a :: l)

/-- The process before the first call. -/
def WinState.initial (refs : Nat → Nat) (kernel : List Nat) : WinState := ⟨refs, kernel, [], 0⟩

end Jnivm
