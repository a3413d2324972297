import Verif.Model.Registry
/-! `Jvm::getClasses`. -/
namespace Jnivm

/-- `FakeJni::Jvm::getClasses`, src/fake-jni/jvm.cpp:39-45: the values of `VM::classes`, one for every key.  The order
in which an `unordered_map` is walked is not specified; here it is that of the newest binding. -/
def Registry.getClasses (r : Registry) : List Nat :=
  (r.byName.map (·.1)).eraseDups.filterMap (r.byName.lookup ·)

end Jnivm
