import Verif.Model.Library
import Verif.Model.Baron
/-!
Native libraries of a fake-jni or Baron VM whose `JNI_OnLoad` and `JNI_OnUnload` use the VM: they attach and
remove libraries, attach and detach the thread and look up classes and members.
src/fake-jni/fake-jni.cpp:61-96, src/fake-jni/jvm.cpp:5-37, src/baron/jvm.cpp:7-92.

The program runs in small steps with a stack of what is still to be done.  `JNI_OnLoad` may throw, whoever
called `attachLibrary` catches it; `JNI_OnUnload` does not throw (it is called in a destructor, the process
would end).  There is one thread and one VM.

`libraries.erase` takes the entry out of the table before it destroys it, as libstdc++ and libc++ do.  While
the table itself is destroyed (in the destructor of `FakeJni::Jvm`) every access to it is undefined.
-/
namespace Jnivm

/-- The three kinds of lookups that may make something up. -/
inductive Look where
  | findClass (name : Str)
  | methodID (isStatic : Bool) (cl : Option Nat) (name sig : Str)
  | fieldID (isStatic : Bool) (cl : Option Nat) (name type : Str)
deriving DecidableEq, Repr

/-- The function of the table `GetNativeInterfaceTemplate<returnNull>()`. -/
def Look.plain (depth : Nat) (returnNull : Bool) (w : World) : Look → Res (World × Option Nat)
  | .findClass name =>
    .ok ({ w with reg := (Jnivm.findClass returnNull w.reg name).1 }, (Jnivm.findClass returnNull w.reg name).2)
  | .methodID isStatic cl name sig => w.getMethodID depth isStatic returnNull false cl name sig
  | .fieldID isStatic cl name type => w.getFieldID depth isStatic returnNull cl name type

/-- What the functions of the Baron table ask the VM, src/baron/jvm.cpp:28, 39, 49, 59, 69. -/
def Look.denied (d : Deny) (w : World) : Look → Bool
  | .findClass name => d.isClassDenied name
  | .methodID _ cl name sig => d.isMethodDenied name (some sig) (some (w.className cl))
  | .fieldID _ cl name type => d.isFieldDenied name (some type) (some (w.className cl))

/-- The function table of an environment: that of a fake-jni VM (src/fake-jni/jvm.cpp:13), the one which
makes up everything, and that of a Baron VM (src/baron/jvm.cpp:20-73). -/
inductive EnvTable where
  | strict | making | baron
deriving DecidableEq, Repr

/-- A lookup.  `deny` are the tables of the Baron VM, `none` once its destructor has run:
`static_cast<Baron::Jvm*>(..)->isClassDenied` then reads destroyed members. -/
def Look.run (depth : Nat) (deny : Option Deny) (t : EnvTable) (w : World) (l : Look) :
    Res (World × Option Nat) :=
  match t with
  | .strict => l.plain depth true w
  | .making => l.plain depth false w
  | .baron => (l.plain depth true w).bind fun (w, r) =>
    match r with
    | some id => .ok (w, some id)
    | none => match deny with
      | none => .ub .dangling
      | some d => if l.denied d w then .ok (w, none) else l.plain depth false w

/-- What a library (or the program) does, with the answers of the loader as in `LibOp`; `load` and `unload`
are what its two functions do. -/
inductive LibCall where
  | attach (rpath : Str) (first second : Option Nat) (hasLoad : Bool) (load : List LibCall) (loadThrows : Bool)
      (hasUnload : Bool) (unload : List LibCall)
  | remove (rpath : Str)
  | look (l : Look)
  /-- `AttachCurrentThread` or `GetEnv`, which is the same, src/jnivm/vm.cpp:499-509 -/
  | attachThread
  /-- `DetachCurrentThread` -/
  | detachThread

/-- A `libinst` object, include/fake-jni/fake-jni.h:59-67, and what its `JNI_OnUnload` will do. -/
structure Lib where
  id : Nat
  handle : Option Nat
  path : Str
  hasUnload : Bool
  unload : List LibCall

/-- What is still to be done. -/
inductive LibFrame where
  | calls (l : List LibCall)
  /-- the constructor of the `libinst` returns or throws, then the insertion -/
  | loading (rpath : Str) (lib : Lib) (throws : Bool)
  /-- the rest of the destructor of a `libinst` -/
  | closing (id handle : Nat)
  /-- the destructor of the table `libraries`; the order is that of the table -/
  | ending (rest : List Lib)

/-- The VM.  `ending`: the destructor of `FakeJni::Jvm` runs. -/
structure LibVm where
  libs : List (Str × Lib)
  trace : List LibEvent
  next : Nat
  stack : List LibFrame
  ending : Bool
  baron : Bool
  deny : Option Deny
  env : Option EnvTable
  world : World
  found : List (Option Nat)

/-- The destructor of a `libinst`, src/fake-jni/fake-jni.cpp:80-88. -/
def LibVm.unload (m : LibVm) (lib : Lib) : LibVm :=
  match lib.handle with
  | none => m
  | some h =>
    if lib.hasUnload then
      { m with trace := m.trace ++ [.onUnload lib.id (unloadSymbol lib.path)],
               stack := .calls lib.unload :: .closing lib.id h :: m.stack }
    else { m with trace := m.trace ++ [.closed lib.id h] }

/-- `libraries.insert({ rpath, … })`, src/fake-jni/fake-jni.cpp:91. -/
def LibVm.insert (m : LibVm) (rpath : Str) (lib : Lib) : Res LibVm :=
  if m.ending then .ub .dangling
  else if m.libs.any (·.1 == rpath) then .ok (m.unload lib)
  else .ok { m with libs := (rpath, lib) :: m.libs }

/-- `libraries.erase(rpath)`, src/fake-jni/fake-jni.cpp:95. -/
def LibVm.remove (m : LibVm) (rpath : Str) : Res LibVm :=
  if m.ending then .ub .dangling
  else match m.libs.find? (·.1 == rpath) with
    | none => .ok m
    | some x => .ok (({ m with libs := m.libs.filter (fun y => y.1 != rpath) } : LibVm).unload x.2)

/-- The table of a new environment: `CreateEnv` is virtual, during the destructor of `FakeJni::Jvm` it is
`FakeJni::Jvm::CreateEnv` (src/fake-jni/jvm.cpp:26-37), whose template was chosen by the constructor:
src/fake-jni/jvm.cpp:13, src/baron/jvm.cpp:7, 11. -/
def LibVm.newTable (m : LibVm) : EnvTable :=
  if m.baron then if m.ending then .making else .baron else .strict

/-- One call.  A library that has not attached the thread has no environment to look something up with. -/
def LibCall.exec (depth : Nat) (m : LibVm) : LibCall → Res LibVm
  | .attach rpath first second hasLoad load loadThrows hasUnload unload =>
    match libOpen rpath first second with
    | none => ({ m with next := m.next + 1 } : LibVm).insert rpath ⟨m.next, none, [], hasUnload, unload⟩
    | some (h, path) =>
      if hasLoad then
        .ok { m with next := m.next + 1,
                     trace := m.trace ++ [.opened m.next h, .onLoad m.next (loadSymbol path)],
                     stack := .calls load ::
                       .loading rpath ⟨m.next, some h, path, hasUnload, unload⟩ loadThrows :: m.stack }
      else ({ m with next := m.next + 1, trace := m.trace ++ [.opened m.next h] } : LibVm).insert rpath
        ⟨m.next, some h, path, hasUnload, unload⟩
  | .remove rpath => m.remove rpath
  | .look l => match m.env with
    | none => .ok m
    | some t => (l.run depth m.deny t m.world).bind fun (w, r) =>
      .ok { m with world := w, found := m.found ++ [r] }
  | .attachThread => match m.env with
    | some _ => .ok m
    | none => .ok { m with env := some m.newTable }
  | .detachThread => .ok { m with env := none }

/-- One step: src/fake-jni/fake-jni.cpp:61-96. -/
def LibVm.step (depth : Nat) (m : LibVm) : Res LibVm :=
  match m.stack with
  | [] => .ok m
  | .calls [] :: s => .ok { m with stack := s }
  | .calls (c :: l) :: s => c.exec depth { m with stack := .calls l :: s }
  | .loading rpath lib throws :: s =>
    if throws then .ok { m with stack := s, trace := m.trace ++ [.threw lib.id] }
    else ({ m with stack := s } : LibVm).insert rpath lib
  | .closing id h :: s => .ok { m with stack := s, trace := m.trace ++ [.closed id h] }
  | .ending [] :: s => .ok { m with stack := s }
  | .ending (lib :: rest) :: s => .ok (({ m with stack := .ending rest :: s } : LibVm).unload lib)

/-- Some steps. -/
def LibVm.run (depth : Nat) (m : LibVm) : Nat → Res LibVm
  | 0 => .ok m
  | n + 1 => (m.step depth).bind fun m => m.run depth n

/-- A new VM, with its rules and classes, and the program. -/
def LibVm.start (deny : Option Deny) (world : World) (calls : List LibCall) : LibVm :=
  { libs := [], trace := [], next := 0, stack := [.calls calls], ending := false,
    baron := deny.isSome, deny := deny, env := some (if deny.isSome then .baron else .strict),
    world := world, found := [] }

/-- The destructor: the members of `Baron::Jvm` are gone, then the table `libraries` is destroyed. -/
def LibVm.finish (m : LibVm) (order : List Lib) : LibVm :=
  { m with ending := true, deny := none, libs := [], stack := [.ending order] }

end Jnivm
