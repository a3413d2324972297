import Verif.Model.Library
/-! The life of a loaded library. -/
namespace Spec
open Jnivm

/-- The object an event belongs to. -/
def eventId : LibEvent → Nat
  | .opened i _ | .onLoad i _ | .threw i | .onUnload i _ | .closed i _ => i

/-- What happened on behalf of one object. -/
def eventsOf (i : Nat) (l : List LibEvent) : List LibEvent := l.filter (fun e => eventId e == i)

/-- The names of the two functions: plain, or followed by the name of a library linked into the program. -/
def SymbolPair (load unload : Str) : Prop :=
  load = "JNI_OnLoad".toList ∧ unload = "JNI_OnUnload".toList ∨
  ∃ name, name ≠ [] ∧ load = "JNI_OnLoad_".toList ++ name ∧ unload = "JNI_OnUnload_".toList ++ name

/-- A complete life: nothing was opened, or the library was opened, its load function called once if there is
one, its unload function called once if there is one, and the same handle closed, in this order. -/
inductive Life (i : Nat) : List LibEvent → Prop where
  | nothing : Life i []
  | balanced (h : Nat) {load unload : Str} (l u : List LibEvent) (hs : SymbolPair load unload)
      (hl : l = [] ∨ l = [.onLoad i load]) (hu : u = [] ∨ u = [.onUnload i unload]) :
      Life i (.opened i h :: (l ++ u ++ [.closed i h]))

/-- A library whose load function threw: it stays open. -/
def Leak (i : Nat) (tr : List LibEvent) : Prop := ∃ h s, tr = [.opened i h, .onLoad i s, .threw i]

/-- A name under which a library linked into the program is looked for. -/
def StaticName (rpath : Str) : Prop := rpath ≠ [] ∧ ∀ c ∈ rpath, c ≠ '/' ∧ c ≠ '.'

end Spec
