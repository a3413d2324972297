import Verif.Model.Members
/-!
Concurrent `GetFieldID` and `GetMethodID` on one class, in steps between which other threads run:
src/jnivm/internal/field.cpp:11-63, src/jnivm/internal/method.cpp:26-83.

The creating variants are modelled (`ReturnNull` false), with a class and after the rewriting of "<init>".
`GetFieldID` holds the mutex of the class from the beginning to the end; `GetMethodID` only during the
search.  The members of the base classes do not change meanwhile, so what a search in them finds is fixed.
Registering hooks, which takes no lock, is not part of this.
-/
namespace Jnivm

/-- What the entries of the function table that create methods are asked for: they search methods that are
not native (`AllowNative` false), src/jnivm/vm.cpp:402 and 408. -/
structure MethodQuery where
  static : Bool
  name : Str
  signature : Str
deriving DecidableEq, Repr

/-- The template arguments of these instances. -/
def MethodQuery.key (k : MethodQuery) : MethodKey := ⟨k.static, false, k.name, k.signature⟩

/-- A lookup that creates what is missing. -/
inductive Request where
  | field (k : FieldKey)
  | method (k : MethodQuery)
deriving DecidableEq, Repr

/-- Where a thread is. -/
inductive Pc where
  | idle
  /-- the mutex is locked, `find_if` comes next: field.cpp:14-27, method.cpp:27-36 -/
  | search (q : Request)
  /-- nothing found, the base classes come next: field.cpp:32-41, method.cpp:44-53; for a field the mutex is
  still locked -/
  | inherit (q : Request)
  /-- nothing inherited, the member is made and appended next: field.cpp:50-54, method.cpp:62-71 -/
  | create (q : Request)
deriving DecidableEq, Repr

/-- A call that returned. -/
structure Answer where
  thread : Nat
  request : Request
  id : Nat
deriving DecidableEq, Repr

/-- The class and its users. -/
structure Shared where
  lock : Option Nat
  fields : List FieldRec
  methods : List MethodRec
  next : Nat
  pc : Nat → Pc
  answers : List Answer

/-- What a search in the base classes returns. -/
structure Inherited where
  field : FieldKey → Option Nat
  method : MethodQuery → Option Nat

/-- Lines field.cpp:32-41, method.cpp:44-53. -/
def Inherited.find (inh : Inherited) : Request → Option Nat
  | .field k => inh.field k
  | .method k => inh.method k

/-- Whether the mutex is held until the end: field.cpp:14 against method.cpp:27-37. -/
def Request.isField : Request → Bool
  | .field _ => true
  | .method _ => false

/-- Thread `t` goes on at `p`. -/
def Shared.setPc (s : Shared) (t : Nat) (p : Pc) : Shared :=
  { s with pc := fun u => if u = t then p else s.pc u }

/-- The call returns; `lock_guard` unlocks if the mutex is still held. -/
def Shared.answer (s : Shared) (t : Nat) (q : Request) (id : Nat) (unlock : Bool) : Shared :=
  { (s.setPc t .idle) with lock := if unlock then none else s.lock, answers := ⟨t, q, id⟩ :: s.answers }

/-- The first member that fits: field.cpp:20-27, method.cpp:29-36. -/
def Shared.find (s : Shared) : Request → Option Nat
  | .field k => (s.fields.find? k.hits).map (·.id)
  | .method k => (s.methods.find? k.key.hits).map (·.id)

/-- `make_shared`, `push_back` and the assignments that follow, field.cpp:50-54 and
method.cpp:62-71; what two unsynchronised `push_back` do is undefined, here each of them succeeds. -/
def Shared.append (s : Shared) : Request → Shared
  | .field k => { s with fields := s.fields ++ [⟨s.next, k.name, k.type, k.static, none, none⟩],
                         next := s.next + 1 }
  | .method k => { s with methods := s.methods ++ [⟨s.next, k.name, k.signature, k.static, none, none⟩],
                          next := s.next + 1 }

/-- The next step of thread `t`; an idle thread may begin the call `q`.  `none`: it has to wait. -/
def Shared.step (inh : Inherited) (s : Shared) (t : Nat) (q : Request) : Option Shared :=
  match s.pc t with
  | .idle => if s.lock = none then some { (s.setPc t (.search q)) with lock := some t } else none
  | .search q =>
    match s.find q with
    | some id => some (s.answer t q id true)
    | none => some { (s.setPc t (.inherit q)) with lock := if q.isField then s.lock else none }
  | .inherit q =>
    match inh.find q with
    | some id => some (s.answer t q id q.isField)
    | none => some (s.setPc t (.create q))
  | .create q => some ((s.append q).answer t q s.next q.isField)

end Jnivm
