import Verif.Model.Start
import Verif.Model.Defaults
/-!
`FakeJni::createMainMethod` with the search for its class, src/fake-jni/fake-jni.cpp:184-193.

`Jvm::findClass` is virtual: that of fake-jni does not make up classes (src/fake-jni/fake-jni.cpp:49-51,
`Finder.known`), that of Baron does (src/baron/jvm.cpp:150-158, `Finder.baron`).
-/
namespace Jnivm

/-- The class that gets the function, src/fake-jni/fake-jni.cpp:185, 190. -/
def mainClass : Str := "fakejni/impl/createMainMethod".toList

/-- `createMainMethod`.  In a thread that is not attached `VM::GetEnv()` is null and `InternalFindClass` uses it
(src/jnivm/internal/findclass.cpp:10); the class is used without a test for null. -/
def World.createMainMethod (f : Finder) (attached : Bool) (w : World) (fn : Nat) : Res World :=
  if attached then match f.find w.reg mainClass with
    | (_, none) => .ub .nullDeref
    | (r, some c) => .ok (({ w with reg := r } : World).createMain c fn)
  else .ub .nullDeref

end Jnivm
