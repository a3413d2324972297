import Verif.Model.Override
/-! Histories of an object with a function table. -/
namespace Spec
open Jnivm

variable {α : Type}

/-- The object at `addr` after creation and attempts to replace its table; a refused attempt leaves the
object as it was. -/
inductive TableHistory (addr : Nat) : TableObj α → Prop where
  | created (tmpl : Iface α) (hooks : List (Iface α → Iface α)) :
      TableHistory addr (TableObj.createEnv addr tmpl hooks)
  | replaced {o o'} (t : Iface α) : TableHistory addr o → o.override t = .ok o' → TableHistory addr o'

end Spec
