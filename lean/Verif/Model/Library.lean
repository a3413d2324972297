import Verif.Model.Registry
/-!
Native libraries of a fake-jni VM: `libinst`, `attachLibrary` and `removeLibrary`,
src/fake-jni/fake-jni.cpp:61-96.

What the loader answers is part of the operations.  `JNI_OnLoad` may attach and remove libraries itself.
`JNI_OnUnload` is taken to do nothing of the kind, and the value `JNI_OnLoad` returns is ignored by the code.
-/
namespace Jnivm

/-- A `libinst` object, include/fake-jni/fake-jni.h:59-67.  `id` tells objects apart; `hasUnload` is what
`dlsym` will answer in the destructor. -/
structure LibInst where
  id : Nat
  handle : Option Nat
  path : Str
  hasUnload : Bool
deriving DecidableEq, Repr

/-- What the loader and the library see, by the `libinst` object on whose behalf it happens. -/
inductive LibEvent where
  /-- `dlopen` returned a handle -/
  | opened (id handle : Nat)
  /-- the function with this name is called as `JNI_OnLoad` -/
  | onLoad (id : Nat) (symbol : Str)
  /-- that call ended with an exception -/
  | threw (id : Nat)
  | onUnload (id : Nat) (symbol : Str)
  /-- `dlclose` -/
  | closed (id handle : Nat)
deriving DecidableEq, Repr

/-- The map `libraries`, and what happened so far. -/
structure LibState where
  libs : List (Str × LibInst)
  trace : List LibEvent
  next : Nat
deriving DecidableEq, Repr

def LibState.initial : LibState := ⟨[], [], 0⟩

/-- Operations with the answers of the loader: what `dlopen(rpath)` returns, what `dlopen(nullptr)` returns
if it is asked, whether `dlsym` finds the function to call, what this function does and whether it throws,
and whether `dlsym` will find the function to call at the end. -/
inductive LibOp where
  | attach (rpath : Str) (first second : Option Nat) (hasLoad : Bool) (inner : List LibOp)
      (loadThrows hasUnload : Bool)
  | remove (rpath : Str)

/-- The handle and the member `path`, src/fake-jni/fake-jni.cpp:62-71. -/
def libOpen (rpath : Str) (first second : Option Nat) : Option (Nat × Str) :=
  match first with
  | some h => some (h, [])
  | none =>
    if rpath ≠ [] ∧ '/' ∉ rpath ∧ '.' ∉ rpath then second.map fun h => (h, rpath) else none

/-- The name given to `dlsym` in the constructor, src/fake-jni/fake-jni.cpp:64, 72. -/
def loadSymbol (path : Str) : Str :=
  if path = [] then "JNI_OnLoad".toList else "JNI_OnLoad_".toList ++ path

/-- The name given to `dlsym` in the destructor, src/fake-jni/fake-jni.cpp:82. -/
def unloadSymbol (path : Str) : Str :=
  if path = [] then "JNI_OnUnload".toList else "JNI_OnUnload_".toList ++ path

/-- The destructor, src/fake-jni/fake-jni.cpp:80-88. -/
def LibState.unload (s : LibState) (i : LibInst) : LibState :=
  match i.handle with
  | none => s
  | some h =>
    { s with trace := s.trace ++ ((if i.hasUnload then [.onUnload i.id (unloadSymbol i.path)] else []) ++
        [.closed i.id h]) }

/-- `libraries.insert({ rpath, … })`, src/fake-jni/fake-jni.cpp:91: if the key is there the new object is
destroyed. -/
def LibState.insert (s : LibState) (rpath : Str) (i : LibInst) : LibState :=
  if s.libs.any (·.1 == rpath) then s.unload i else { s with libs := (rpath, i) :: s.libs }

/-- `removeLibrary`, src/fake-jni/fake-jni.cpp:94-96. -/
def LibState.remove (s : LibState) (rpath : Str) : LibState :=
  match s.libs.find? (·.1 == rpath) with
  | none => s
  | some x => ({ s with libs := s.libs.filter (fun y => y.1 != rpath) }).unload x.2

mutual
/-- One operation; `attachLibrary`: src/fake-jni/fake-jni.cpp:90-92 and 61-78.  If the constructor throws
no destructor runs. -/
def LibState.step (s : LibState) : LibOp → LibState
  | .attach rpath first second hasLoad inner loadThrows hasUnload =>
    match libOpen rpath first second with
    | none => ({ s with next := s.next + 1 }).insert rpath ⟨s.next, none, [], hasUnload⟩
    | some (h, path) =>
      let s1 := { s with next := s.next + 1, trace := s.trace ++ [LibEvent.opened s.next h] }
      if hasLoad then
        let s2 := LibState.run { s1 with trace := s1.trace ++ [LibEvent.onLoad s.next (loadSymbol path)] } inner
        if loadThrows then { s2 with trace := s2.trace ++ [LibEvent.threw s.next] }
        else s2.insert rpath ⟨s.next, some h, path, hasUnload⟩
      else s1.insert rpath ⟨s.next, some h, path, hasUnload⟩
  | .remove rpath => s.remove rpath
def LibState.run (s : LibState) : List LibOp → LibState
  | [] => s
  | op :: ops => (s.step op).run ops
end

/-- The destructor of the map at the end of the VM; the order is that of the table. -/
def LibState.destroy (s : LibState) (order : List LibInst) : LibState :=
  order.foldl LibState.unload { s with libs := [] }

end Jnivm
