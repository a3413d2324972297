import Verif.Model.Warm
/-!
Lookups that find what they look for, and what may go on beside them.
-/
namespace Spec
open Jnivm

/-- The lookup changes nothing: what it looks for exists, or it makes nothing. -/
def Warm (depth : Nat) (w : World) (q : MemQuery) : Prop := ∃ a, q.run depth w = .ok (w, a)

/-- The lookup names a class of the VM. -/
def NamesClass (w : World) : MemQuery → Prop
  | .cls _ _ => True
  | .method _ _ _ c _ _ => ∃ n, w.IsClass n c
  | .field _ _ c _ _ => ∃ n, w.IsClass n c

/-- All base types of classes have classes. -/
def BasesKnown (w : World) : Prop :=
  ∀ c ts t, (w.mem c).bases = some ts → some t ∈ ts → w.types t ≠ none

/-- Base classes have smaller rank. -/
def Ranked (rank : Nat → Nat) (w : World) : Prop :=
  ∀ c bs b, w.bases c = some bs → some b ∈ bs → rank b < rank c

/-- Calls that may run beside lookups that change nothing: questions about subtypes, references, arrays whose class
exists, dumps; with `threads` threads that attach and detach themselves, without it `VM::GetEnv` on threads that are
attached. -/
def Beside (threads : Bool) : Call → Prop
  | .subtype visits => ∀ v ∈ visits, v.2.inserts = false
  | .newGlobalRef n => n.creates = false
  | .newArray n => n.creates = false
  | .deleteGlobalRef _ => True
  | .toJni _ => True
  | .getJavaVM => True
  | .dump _ => True
  | .attach known user => user = [] ∧ (threads = true ∨ known = true)
  | .detach known user => user = [] ∧ (threads = true ∨ known = false)
  | .cppGetEnv known => threads = false ∧ known = true
  | _ => False

/-- The operation takes nothing away from the lookup: it binds no type, and it unregisters no natives if the lookup
searches natives. -/
def LeavesFound (q : MemQuery) : MemOp → Prop
  | .bindType _ _ _ => False
  | .unregisterNatives _ => ∀ s r c n sig, q ≠ .method s r true c n sig
  | _ => True

end Spec
