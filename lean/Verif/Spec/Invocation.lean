import Verif.Model.Invocation
import Verif.Spec.Pending
/-! What the JNI specification says of the invocation interface. -/
namespace Spec
open Jnivm

/-- The versions that a VM of version 1.6 supports: `JNI_VERSION_1_1` to `JNI_VERSION_1_6`. -/
def SupportedVersion (version : Int) : Prop := version ∈ [0x00010001, 0x00010002, 0x00010004, (0x00010006 : Int)]

/-- The environment the thread has. -/
def envIdOf (h : Heap) (t : Nat) : Option Nat := (h.envs t).map (·.eid)

/-- `GetEnv` with a place for the result: `JNI_EVERSION` if the version is not supported, `JNI_EDETACHED` if
the thread is not attached, else `JNI_OK` and the environment.  In no case does the state change. -/
inductive GetEnvSpec (h : Heap) (t : Nat) (version : Int) : Res (Heap × InvAnswer) → Prop where
  | ok {e : Nat} : SupportedVersion version → envIdOf h t = some e → GetEnvSpec h t version (.ok (h, ⟨0, some e⟩))
  | detached : SupportedVersion version → envIdOf h t = none → GetEnvSpec h t version (.ok (h, ⟨-2, none⟩))
  | version : ¬ SupportedVersion version → GetEnvSpec h t version (.ok (h, ⟨-3, none⟩))

/-- `AttachCurrentThread` from `h` to `h'`: an attached thread stays as it is, another one gets an
environment of its own with one empty frame and no exception.  The answer is the environment, if asked for. -/
structure AttachSpec (h h' : Heap) (t : Nat) (penv : Bool) (a : InvAnswer) : Prop where
  code : a.code = 0
  attached : ∃ e, h'.envs t = some e ∧ a.env = (if penv then some e.eid else none) ∧
    (∀ u e', u ≠ t → h.envs u = some e' → e'.eid ≠ e.eid)
  same : h.envs t ≠ none → h' = h
  fresh : h.envs t = none → ∃ e, h'.envs t = some e ∧ e.frames = [[]] ∧ e.pending = none
  others : ∀ u, u ≠ t → h'.envs u = h.envs u
  objs : h'.objs = h.objs

/-- `DetachCurrentThread`: the thread has no environment, the other threads keep theirs, and nothing new is
there. -/
structure DetachSpec (h h' : Heap) (t : Nat) (a : InvAnswer) : Prop where
  code : a.code = 0
  gone : h'.envs t = none
  others : ∀ u, u ≠ t → h'.envs u = h.envs u
  classes : h'.classes = h.classes
  globals : h'.globals = h.globals
  objs : ∀ i o, h'.objs i = some o → h.objs i = some o
  keeps : ∀ i, i ∈ h.globals ∨ (∃ u e, u ≠ t ∧ h.envs u = some e ∧ ∃ f ∈ e.frames, i ∈ f) →
    ∃ o, h'.objs i = some o

end Spec
