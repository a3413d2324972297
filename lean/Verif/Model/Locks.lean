import Verif.Model.Basic
import Verif.Spec.Locks
/-!
Which mutexes the library locks around which shared tables, and threads that make such calls at
the same time.

Each call is the list of its lock operations and of its accesses to shared tables.  What a call
finds in the tables decides how it goes on; these answers are part of the description of a call
and arbitrary, so that the lists cover whatever the tables hold and however other threads change
them meanwhile.  Simplifications: several accesses to one table in a row are one access (a write
if one of them writes); accesses to the members of one record (a `Method`'s fields, a class's
`Instantiate`) and to data of one thread (`localframe`) are left out; a class is a number.
-/
namespace Jnivm
open Spec

/-- `VM::mtx`, include/jnivm/vm.h:63, and `Class::mtx`, include/jnivm/class.h:20. -/
inductive Mutex where
  | vm
  | cls (c : Nat)
deriving DecidableEq, Repr

/-- The shared tables: `VM::classes` with the tree below `VM::np`, `VM::typecheck`, `VM::globals`,
`VM::jnienvs`, and of each class `baseclasses`, `methods`, `fields`, `natives`. -/
inductive Loc where
  | classes
  | types
  | globals
  | envs
  | bases (c : Nat)
  | methods (c : Nat)
  | fields (c : Nat)
  | natives (c : Nat)
deriving DecidableEq, Repr

/-- Lock operations and accesses. -/
abbrev Act := Action Mutex Loc

/-- A `std::lock_guard` around a block. -/
def guarded (m : Mutex) (body : List Act) : List Act :=
  .lock m :: body ++ [.unlock m]

/-- An access that inserts if the key is absent. -/
def access (l : Loc) (inserts : Bool) : Act :=
  if inserts then .write l else .read l

/-- What one lookup of a class by name meets: whether it makes the class, and whether the class
object has no class itself (`clazz`), as is so for each class just made. -/
structure Named where
  creates : Bool
  classless : Bool
deriving DecidableEq, Repr

/-- `InternalFindClass(ENV*, …)`, src/jnivm/internal/findclass.cpp:7-98: no lock. -/
def internalFind (n : Named) : List Act :=
  [access .classes n.creates]

/-- `JNITypesObjectBase::GetClass`, include/jnivm/jnitypes.h:286-295.  Its `lock_guard` is commented
out; `locked` puts it back. -/
def typeClass (locked : Bool) : List Act :=
  if locked then guarded .vm [.read .types] else [.read .types]

/-- `ToJNIType`, include/jnivm/jnitypes.h:297-313: an object without class is given one. -/
def handOut (locked classless : Bool) : List Act :=
  if classless then typeClass locked else []

/-- `InternalFindClass(JNIEnv*, …)`, src/jnivm/internal/findclass.cpp:100-102. -/
def internalFindRef (locked : Bool) (n : Named) : List Act :=
  internalFind n ++ handOut locked n.classless

/-- `Declare`, src/jnivm/internal/findclass.cpp:104-115: once for each class named. -/
def declareActs (locked : Bool) (ns : List Named) : List Act :=
  ns.flatMap (internalFindRef locked)

/-- What a search for a member meets in one class: whether the class has it, the classes
`baseclasses` yields, whether `typecheck[…]` in `GetBaseClasses` inserts a type and whether
`GetBaseClasses` throws since a base type is not registered (include/jnivm/extends.h:17-24). -/
structure Visit where
  found : Bool
  bases : Option (List (Option Nat))
  inserts : Bool
  throws : Bool
deriving DecidableEq, Repr

/-- What a search meets in each class; a visit is named by the positions in the lists of base
classes that lead to it, innermost first. -/
abbrev Tour := List Nat → Nat → Visit

/-- `for(auto&& i : cur->baseclasses(env))`, src/jnivm/internal/method.cpp:45-52, field.cpp:33-40:
the actions up to the first base class that ends the search, and whether there is one. -/
def overBases (f : Nat → Nat → List Act × Bool) : Nat → List (Option Nat) → List Act × Bool
  | _, [] => ([], false)
  | i, none :: bs => overBases f (i + 1) bs
  | i, some b :: bs =>
    if (f i b).2 then ((f i b).1, true)
    else ((f i b).1 ++ (overBases f (i + 1) bs).1, (overBases f (i + 1) bs).2)

/-- Calling `baseclasses`: the function itself is read, then `GetBaseClasses` reads `typecheck`,
include/jnivm/extends.h:16-27. -/
def readBases (c : Nat) (v : Visit) : List Act :=
  .read (.bases c) :: (if v.bases.isSome then [access .types v.inserts] else [])

/-- `GetMethodID<_, true, _>` with the search in the base classes,
src/jnivm/internal/method.cpp:27-54: the class is locked during the search of its own table only.
The first argument bounds the nested calls that are listed; the second component tells that the
search ended with a method or an exception. -/
def methodSearch (tour : Tour) : Nat → List Nat → Nat → List Act × Bool
  | 0, _, _ => ([], false)
  | d + 1, path, c =>
    if (tour path c).found then (guarded (.cls c) [.read (.methods c)], true)
    else if (tour path c).throws then
      (guarded (.cls c) [.read (.methods c)] ++ readBases c (tour path c), true)
    else
      (guarded (.cls c) [.read (.methods c)] ++ readBases c (tour path c) ++
        (overBases (fun i b => methodSearch tour d (i :: path) b) 0
          ((tour path c).bases.getD [])).1,
       (overBases (fun i b => methodSearch tour d (i :: path) b) 0
          ((tour path c).bases.getD [])).2)

/-- `GetFieldID`, src/jnivm/internal/field.cpp:11-63: the class stays locked to the end, also while the
base classes are searched.  `create` are the actions after an unsuccessful search, lines 50-58;
there are none in the base classes. -/
def fieldSearch (tour : Tour) (create : List Act) : Nat → List Nat → Nat → List Act × Bool
  | 0, _, _ => ([], false)
  | d + 1, path, c =>
    if (tour path c).found then (guarded (.cls c) [.read (.fields c)], true)
    else if (tour path c).throws then
      (guarded (.cls c) (.read (.fields c) :: readBases c (tour path c)), true)
    else
      (guarded (.cls c) (.read (.fields c) :: (readBases c (tour path c) ++
        ((overBases (fun i b => fieldSearch tour [] d (i :: path) b) 0
          ((tour path c).bases.getD [])).1 ++
        (if (overBases (fun i b => fieldSearch tour [] d (i :: path) b) 0
            ((tour path c).bases.getD [])).2 then [] else create)))),
       (overBases (fun i b => fieldSearch tour [] d (i :: path) b) 0
          ((tour path c).bases.getD [])).2)

/-- A type in the signature of a hooked function as far as tables are used: a class type, or an
array of class type. -/
inductive SigPart where
  | cls
  | arr (n : Named)
deriving DecidableEq, Repr

/-- `GetJNISignature`, include/jnivm/jnitypes.h:276-284: `typecheck` under the lock; for arrays
(lines 229-241, 251-256) then the array class is looked up without. -/
def SigPart.acts : SigPart → List Act
  | .cls => guarded .vm [.read .types]
  | .arr n => guarded .vm [.read .types] ++ internalFind n

/-- Calls that use mutexes or shared tables. -/
inductive Call where
  /-- FindClass, src/jnivm/vm.cpp:28-33 -/
  | findClass (n : Named)
  /-- `ENV::GetClass<T>`, include/jnivm/env.h:87-93 -/
  | bindType (c : Nat) (n : Named)
  /-- `HookManager<…>::install` of a method, include/jnivm/hookManager.h:47-86 -/
  | hookMethod (c : Nat) (sig : List SigPart) (known : Bool)
  /-- `HookManager<…>::install` of an accessor, include/jnivm/hookManager.h:98-136 -/
  | hookField (c : Nat) (sig : List SigPart) (known : Bool)
  /-- GetMethodID and GetStaticMethodID; `init` if the name is "<init>",
  src/jnivm/internal/method.cpp:7-84 -/
  | getMethodID (c : Nat) (init create : Bool) (tour : Tour) (declares : List Named)
  /-- GetFieldID and GetStaticFieldID, src/jnivm/internal/field.cpp:11-63 -/
  | getFieldID (c : Nat) (create : Bool) (tour : Tour) (declares : List Named)
  /-- GetSuperclass, IsAssignableFrom, IsInstanceOf: the classes visited, src/jnivm/vm.cpp:55-77, 241-246 -/
  | subtype (visits : List (Nat × Visit))
  /-- RegisterNatives of `k` methods, src/jnivm/vm.cpp:256-278 -/
  | registerNatives (c : Nat) (k : Nat)
  /-- UnregisterNatives, src/jnivm/vm.cpp:279-294 -/
  | unregisterNatives (c : Nat)
  /-- NewGlobalRef and NewWeakGlobalRef of an object, src/jnivm/vm.cpp:153-172, 313-323 -/
  | newGlobalRef (n : Named)
  /-- DeleteGlobalRef and DeleteWeakGlobalRef, src/jnivm/vm.cpp:173-190, 324-326 -/
  | deleteGlobalRef (found : Bool)
  /-- making an array, src/jnivm/internal/array.cpp:12, 32 -/
  | newArray (n : Named)
  /-- handing an object to JNI, include/jnivm/jnitypes.h:297-313 -/
  | toJni (classless : Bool)
  /-- GetJavaVM, src/jnivm/vm.cpp:305-311 -/
  | getJavaVM
  /-- AttachCurrentThread and GetEnv, src/jnivm/vm.cpp:468-510; `user` is what the functions in
  `jnienvhooks` do that `CreateEnv` runs (lines 563-569) -/
  | attach (known : Bool) (user : List Act)
  /-- DetachCurrentThread, src/jnivm/vm.cpp:487-497; `user` is what the destructors of the objects do
  that only the local frames of the thread kept alive -/
  | detach (known : Bool) (user : List Act)
  /-- `VM::GetEnv` in C++, src/jnivm/vm.cpp:546-552 -/
  | cppGetEnv (known : Bool)
  /-- `VM::GenerateHeader` and its relatives, which walk the classes `cs`,
  src/jnivm/internal/codegen -/
  | dump (cs : List Nat)

/-- Line 50-58 of field.cpp, 62-80 of method.cpp: the new member is appended, then the classes in its
signature are declared. -/
def createActs (locked : Bool) (l : Loc) (create : Bool) (declares : List Named) : List Act :=
  if create then .write l :: declareActs locked declares else []

/-- The actions of a call.  `locked`: with the lock in `GetClass` that is commented out; `depth`
bounds the nested calls listed for member searches. -/
def Call.acts (locked : Bool) (depth : Nat) : Call → List Act
  | .findClass n => guarded .vm (internalFindRef locked n)
  | .bindType c n => guarded .vm (internalFind n ++ [.write .types, .write (.bases c)])
  | .hookMethod c sig known => sig.flatMap SigPart.acts ++ [access (.methods c) (!known)]
  | .hookField c sig known => sig.flatMap SigPart.acts ++ [access (.fields c) (!known)]
  | .getMethodID c init create tour declares =>
    (if init then guarded (.cls c) [] else []) ++ (methodSearch tour depth [] c).1 ++
      (if (methodSearch tour depth [] c).2 then []
       else createActs locked (.methods c) create declares)
  | .getFieldID c create tour declares =>
    (fieldSearch tour (createActs locked (.fields c) create declares) depth [] c).1
  | .subtype visits => visits.flatMap fun v => readBases v.1 v.2
  | .registerNatives c k =>
    guarded (.cls c) ((List.replicate k [Action.write (.natives c), .write (.methods c)]).flatten)
  | .unregisterNatives c => guarded (.cls c) [.write (.natives c), .write (.methods c)]
  | .newGlobalRef n => internalFind n ++ guarded .vm [.write .globals]
  | .deleteGlobalRef found => guarded .vm (.read .globals :: (if found then [.write .globals] else []))
  | .newArray n => internalFind n
  | .toJni classless => handOut locked classless
  | .getJavaVM => guarded .vm []
  | .attach known user => guarded .vm (access .envs (!known) :: (if known then [] else user))
  | .detach known user => guarded .vm (.read .envs :: (if known then .write .envs :: user else []))
  | .cppGetEnv known => [access .envs (!known)]
  | .dump cs => .read .classes :: cs.flatMap fun c => [.read (.fields c), .read (.methods c)]

/-- Threads that make calls: who owns each mutex, and what each thread still has to do. -/
structure LockState where
  owner : Mutex → Option Nat
  todo : Nat → List Act

/-- Threads that start with the given calls; no mutex is locked. -/
def LockState.start (locked : Bool) (depth : Nat) (calls : Nat → List Call) : LockState :=
  ⟨fun _ => none, fun t => (calls t).flatMap (Call.acts locked depth)⟩

/-- What happens if a thread is given the processor. -/
inductive Turn where
  /-- it has nothing left to do -/
  | finished
  /-- it waits for a mutex another thread owns -/
  | waits
  | moves (s : LockState)
  /-- it locks a `std::mutex` it owns, or unlocks one it does not own -/
  | undefined (u : UB)

/-- Thread `t` goes on with `rest`. -/
def LockState.advance (s : LockState) (t : Nat) (rest : List Act) : LockState :=
  { s with todo := fun u => if u = t then rest else s.todo u }

/-- Mutex `m` is now owned by `o`. -/
def LockState.setOwner (s : LockState) (m : Mutex) (o : Option Nat) : LockState :=
  { s with owner := fun k => if k = m then o else s.owner k }

/-- One action of thread `t`; `std::mutex::lock` and `unlock` as in the standard. -/
def LockState.turn (s : LockState) (t : Nat) : Turn :=
  match s.todo t with
  | [] => .finished
  | .read _ :: rest => .moves (s.advance t rest)
  | .write _ :: rest => .moves (s.advance t rest)
  | .lock m :: rest =>
    match s.owner m with
    | none => .moves ((s.advance t rest).setOwner m (some t))
    | some u => if u = t then .undefined .relock else .waits
  | .unlock m :: rest =>
    if s.owner m = some t then .moves ((s.advance t rest).setOwner m none)
    else .undefined .notOwner

/-- The states a schedule can lead to. -/
inductive LockState.Reach (s : LockState) : LockState → Prop where
  | refl : Reach s s
  | step {a b : LockState} (t : Nat) : Reach s a → a.turn t = .moves b → Reach s b

/-- The next action of a thread. -/
def LockState.next (s : LockState) (t : Nat) : Option Act := (s.todo t).head?

end Jnivm
