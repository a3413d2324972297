import Verif.Model.Locks
import Verif.Model.MemberOps
/-!
Lookups of classes and members in the VM as it is at one moment, both as functions on the tables
(Model/Members.lean) and as what they lock, read and write (Model/Locks.lean).
-/
namespace Jnivm

/-- FindClass, GetMethodID, GetStaticMethodID, GetFieldID and GetStaticFieldID of a class that is not null,
with the template arguments that choose whether missing things are made. -/
inductive MemQuery where
  | cls (returnZero : Bool) (name : Str)
  | method (isStatic returnNull allowNative : Bool) (c : Nat) (name sig : Str)
  | field (isStatic returnNull : Bool) (c : Nat) (name type : Str)

/-- The lookup: the tables afterwards and the class or member; `depth` as for `MemOp`. -/
def MemQuery.run (depth : Nat) (w : World) : MemQuery → Res (World × Option Nat)
  | .cls z n => .ok ({ w with reg := (Jnivm.findClass z w.reg n).1 }, (Jnivm.findClass z w.reg n).2)
  | .method s r a c n sig => w.getMethodID depth s (r || a) a (some c) n sig
  | .field s r c n t => w.getFieldID depth s r (some c) n t

/-- What a search meets in class `c`, src/jnivm/internal/method.cpp:28-54, field.cpp:20-41: `typecheck[…]` in
`GetBaseClasses` inserts if a base type has no class, include/jnivm/extends.h:17; with `NDEBUG` it does not throw. -/
def World.visit (w : World) (own : Nat → Option Nat) (c : Nat) : Visit where
  found := (own c).isSome
  bases := w.bases c
  inserts := ((w.mem c).bases.getD []).any fun
    | none => false
    | some t => (w.types t).isNone
  throws := false

/-- What GetMethodID compares, src/jnivm/internal/method.cpp:13-25; as in `World.getMethodID`. -/
def World.methodKey (w : World) (isStatic allowNative : Bool) (c : Nat) (name sig : Str) : MethodKey :=
  match w.reg.cls[c]? with
  | none => ⟨isStatic, allowNative, name, sig⟩
  | some cls =>
    if !isStatic && name == "<init>".toList then ⟨true, allowNative, name, initSignature cls.nativeprefix sig⟩
    else ⟨isStatic, allowNative, name, sig⟩

/-- What the lookup locks, reads and writes if nobody changes the tables meanwhile.  `classless` and `declares`
as for `Call`. -/
def MemQuery.call (w : World) (classless : Bool) (declares : List Named) : MemQuery → Call
  | .cls z n => .findClass ⟨!z && (Jnivm.findClass true w.reg n).2.isNone, classless⟩
  | .method s r a c n sig =>
    .getMethodID c (!s && n == "<init>".toList) (!(r || a))
      (fun _ => w.visit (w.ownMethod (w.methodKey s a c n sig))) declares
  | .field s r c n t => .getFieldID c (!r) (fun _ => w.visit (w.ownField ⟨s, n, t⟩)) declares

/-- Several lookups one after the other. -/
def runQueries (depth : Nat) : World → List MemQuery → Res (World × List (Option Nat))
  | w, [] => .ok (w, [])
  | w, q :: qs => (q.run depth w).bind fun (w, a) => (runQueries depth w qs).bind fun (w, as) => .ok (w, a :: as)

end Jnivm
