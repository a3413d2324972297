import Verif.Model.Monitor
import Verif.Model.Library
import Verif.Model.Context
/-!
The project's own tests, replayed on the model: references, arrays of objects, exceptions, reflection, monitors,
threads and libraries.  The tests call a static method nobody implements to get an object (`factory`); with
`JNI_RETURN_NON_ZERO` this makes an object of the class and returns a local reference, which is `newObject` here.
The classes made by `VM::initialize` are 0 to 8, so the next object is 9.
-/
namespace Jnivm
open Spec

/-- The results of a history. -/
def heapOuts (h : Heap) : List (Nat × HeapOp) → Res (List Out)
  | [] => .ok []
  | (t, op) :: ops => (op.run h t).bind fun (h, o) => (heapOuts h ops).bind fun l => .ok (o :: l)

/-- TEST(JNIVM, ObjectArray), src/tests/Tests.cpp:124-138, with three elements instead of 100: the class of the
array (10) is the one found by its name, every element is the string (9), whose class is 2. -/
example : heapOuts .initial [(0, .findClass "java/lang/String".toList),
      (0, .newObject (some "java/lang/String".toList)),
      (0, .newObjectArray 3 "[Ljava/lang/String;".toList (some 9)),
      (0, .getObjectClass (some 11)), (0, .findClass "[Ljava/lang/String;".toList),
      (0, .getObjectArrayElement (some 11) 0), (0, .getObjectArrayElement (some 11) 2),
      (0, .getObjectClass (some 9))] =
    .ok [.ref (some 2), .ref (some 9), .ref (some 11), .ref (some 10), .ref (some 10), .ref (some 9),
      .ref (some 9), .ref (some 2)] := by
  decide +kernel

/-- TEST(JNIVM, returnedrefs), src/tests/Tests.cpp:220-242: more frames are popped than were pushed. -/
example : heapOuts .initial [(0, .pushLocalFrame), (0, .findClass "Class2".toList), (0, .pushLocalFrame),
      (0, .newObject (some "Class2".toList)), (0, .deleteLocalRef (some 10)), (0, .popLocalFrame none),
      (0, .popLocalFrame none), (0, .deleteLocalRef none), (0, .deleteGlobalRef none),
      (0, .deleteWeakGlobalRef none), (0, .popLocalFrame none), (0, .popLocalFrame none),
      (0, .popLocalFrame none)] =
    .ok [.unit, .ref (some 9), .unit, .ref (some 10), .unit, .ref none, .ref none, .unit, .unit, .unit,
      .ref none, .ref none, .ref none] := by
  decide +kernel

/-- TEST(JNIVM, returnedarrayrefs), src/tests/Tests.cpp:247-264: deleting the references one after the other. -/
example : heapOuts .initial [(0, .pushLocalFrame), (0, .findClass "Class2".toList), (0, .pushLocalFrame),
      (0, .newObjectArray 1 "[LClass2;".toList none), (0, .newObject (some "Class2".toList)),
      (0, .setObjectArrayElement (some 11) 0 (some 12)), (0, .deleteLocalRef (some 12)), (0, .pushLocalFrame),
      (0, .getObjectArrayElement (some 11) 0), (0, .deleteLocalRef (some 12)), (0, .popLocalFrame none),
      (0, .deleteLocalRef (some 11)), (0, .popLocalFrame none), (0, .popLocalFrame none)] =
    .ok [.unit, .ref (some 9), .unit, .ref (some 11), .ref (some 12), .unit, .unit, .unit, .ref (some 12), .unit,
      .ref none, .unit, .ref none, .ref none] := by
  decide +kernel

/-- TEST(JNIVM, classofclassobject), src/tests/Tests.cpp:266-293. -/
example : heapOuts .initial [(0, .findClass "Class2".toList), (0, .getObjectClass (some 9)),
      (0, .findClass "java/lang/Class".toList)] = .ok [.ref (some 9), .ref (some 1), .ref (some 1)] := by
  decide +kernel

/-- TEST(JNIVM, Excepts), src/tests/Tests.cpp:306-326: the function throws, the exception is seen and cleared. -/
example : heapOuts .initial [(0, .raise .runtimeError), (0, .exceptionOccurred), (0, .exceptionClear),
      (0, .exceptionOccurred)] = .ok [.unit, .ref (some 9), .unit, .ref none] := by
  decide +kernel

/-- TEST(JNIVM, DISABLED_ThrowingExceptions), src/tests/Tests.cpp:1080-1093: an exception that was cleared can be
thrown again. -/
example : heapOuts .initial [(0, .raise .runtimeError), (0, .exceptionCheck), (0, .exceptionOccurred),
      (0, .exceptionClear), (0, .exceptionCheck), (0, .exceptionOccurred), (0, .throw (some 9)),
      (0, .exceptionCheck), (0, .exceptionOccurred)] =
    .ok [.unit, .bool true, .ref (some 9), .unit, .bool false, .ref none, .unit, .bool true, .ref (some 9)] := by
  decide +kernel

/-- TEST(JNIVM, WeakAndIsSame), src/tests/Tests.cpp:653-667. -/
example : heapOuts .initial [(0, .findClass "TestClass".toList), (0, .pushLocalFrame),
      (0, .newObject (some "TestClass".toList)), (0, .newWeakGlobalRef (some 10)),
      (0, .isSameObject (some 10) (some 11)), (0, .popLocalFrame none), (0, .isSameObject none (some 11))] =
    .ok [.ref (some 9), .unit, .ref (some 10), .ref (some 11), .bool true, .ref none, .bool true] := by
  decide +kernel

/-- TEST(JNIVM, WeakToGlobalReference), src/tests/Tests.cpp:669-691. -/
example : heapOuts .initial [(0, .findClass "TestClass".toList), (0, .pushLocalFrame),
      (0, .newObject (some "TestClass".toList)), (0, .newWeakGlobalRef (some 10)),
      (0, .isSameObject (some 10) (some 11)), (0, .getObjectRefType (some 11)), (0, .newGlobalRef (some 11)),
      (0, .isSameObject (some 12) (some 11)), (0, .isSameObject (some 12) (some 10)),
      (0, .getObjectRefType (some 12)), (0, .popLocalFrame none), (0, .isSameObject none (some 11)),
      (0, .deleteGlobalRef (some 12)), (0, .isSameObject none (some 11)), (0, .newGlobalRef (some 11))] =
    .ok [.ref (some 9), .unit, .ref (some 10), .ref (some 11), .bool true, .type .weakGlob, .ref (some 12), .bool true,
      .bool true, .type .glob, .ref none, .bool false, .unit, .bool true, .ref none] := by
  decide +kernel

/-- TEST(JNIVM, WeakToLocalReference), src/tests/Tests.cpp:693-718. -/
example : heapOuts .initial [(0, .getObjectRefType none), (0, .findClass "TestClass".toList), (0, .pushLocalFrame),
      (0, .newObject (some "TestClass".toList)), (0, .newWeakGlobalRef (some 10)),
      (0, .isSameObject (some 10) (some 11)), (0, .getObjectRefType (some 11)), (0, .newLocalRef (some 11)),
      (0, .isSameObject (some 10) (some 11)), (0, .getObjectRefType (some 10)), (0, .deleteLocalRef (some 10)),
      (0, .isSameObject none (some 11)), (0, .popLocalFrame none), (0, .isSameObject none (some 11)),
      (0, .newLocalRef (some 11)), (0, .newWeakGlobalRef (some 11)), (0, .newGlobalRef (some 11))] =
    .ok [.type .invalid, .ref (some 9), .unit, .ref (some 10), .ref (some 11), .bool true, .type .weakGlob,
      .ref (some 10), .bool true, .type .loc, .unit, .bool false, .ref none, .bool true, .ref none, .ref none,
      .ref none] := by
  decide +kernel

/-- TEST(JNIVM, VM), src/tests/Tests.cpp:903-925: the thread (1) gets one environment; its objects end with it. -/
example : heapOuts .initial [(1, .attach), (1, .attach), (1, .attach), (1, .newObject none),
      (1, .newWeakGlobalRef (some 9)), (1, .newLocalRef (some 10)), (1, .detach), (0, .newLocalRef (some 10))] =
    .ok [.env 1, .env 1, .env 1, .ref (some 9), .ref (some 10), .ref (some 9), .unit, .ref none] := by
  decide +kernel

/-- TEST(JNIVM, Reflection), src/tests/Tests.cpp:1105-1121; 10 and 11 are the instance and the static method. -/
example : heapOuts .initial [(0, .findClass "Test2".toList), (0, .newMember true false), (0, .newMember true true),
      (0, .toReflected true (some 9) (some 10) true), (0, .toReflected true (some 9) (some 10) false)] =
    .ok [.ref (some 9), .ref (some 10), .ref (some 11), .ref none, .ref (some 10)] := by
  decide +kernel

/-- TEST(JNIVM, Monitor), src/tests/Tests.cpp:328-344. -/
example : (((MonState.mk .initial fun _ => none).call 0 (.findClass "Class2".toList)).bind fun s =>
    (s.enter 0 (some 9)).bind fun s => match s with
      | none => .diverges
      | some s => (s.enter 0 (some 9)).bind fun s => match s with
        | none => .diverges
        | some s => (s.exit 0 (some 9)).bind fun s => (s.exit 0 (some 9)).bind fun s => .ok (s.mons 9)) =
    .ok none := by
  decide +kernel

/-- TEST(FakeJni, VM), src/tests/Tests.cpp:928-937: VM 0 attaches the thread (0) that makes it; in another thread
(1) the default context has no environment until a frame attaches it. -/
example : ((Threads.initial.run [(0, .attach 0), (0, .enterDefault), (1, .enterDefault)]).1.thr 1).ctxs.map
      Ctx.getJniEnv = [.throws .runtimeError] ∧
    (((Threads.initial.run [(0, .attach 0), (0, .enterDefault), (1, .enterDefault)]).1.thr 0).ctxs.map
      fun c => (c.getJniEnv == .throws .runtimeError)) = [false] ∧
    (((Threads.initial.run [(0, .attach 0), (1, .enterDefault), (1, .leave), (1, .enter 0)]).1.thr 1).ctxs.map
      fun c => (c.getJniEnv == .throws .runtimeError)) = [false] := by
  decide +kernel

/-- TEST(FakeJni, attachLibrary), src/tests/Tests.cpp:940-979. -/
example : (LibState.initial.run [.attach "testpath".toList (some 34) none true [] false true]).trace =
      [.opened 0 34, .onLoad 0 "JNI_OnLoad".toList] ∧
    (let s := LibState.initial.run [.attach "testpath".toList (some 34) none true [] false true]
     (s.destroy (s.libs.map (·.2))).trace) =
      [.opened 0 34, .onLoad 0 "JNI_OnLoad".toList, .onUnload 0 "JNI_OnUnload".toList, .closed 0 34] := by
  decide +kernel

/-- TEST(FakeJni, attachLibrary2), src/tests/Tests.cpp:981-1026: two libraries with the same handle. -/
example : (let s := LibState.initial.run [.attach "testpath".toList (some 678) none true [] false true,
        .attach "testpath2".toList (some 678) none true [] false true]
     (s.destroy (s.libs.map (·.2))).trace) =
      [.opened 0 678, .onLoad 0 "JNI_OnLoad".toList, .opened 1 678, .onLoad 1 "JNI_OnLoad".toList,
        .onUnload 1 "JNI_OnUnload".toList, .closed 1 678, .onUnload 0 "JNI_OnUnload".toList, .closed 0 678] := by
  decide +kernel

/-- TEST(FakeJni, attachLibrary3), src/tests/Tests.cpp:1028-1077: the first library is removed. -/
example : (let s := LibState.initial.run [.attach "testpath".toList (some 678) none true [] false true,
        .remove "testpath".toList, .attach "testpath2".toList (some 678) none true [] false true]
     (s.destroy (s.libs.map (·.2))).trace) =
      [.opened 0 678, .onLoad 0 "JNI_OnLoad".toList, .onUnload 0 "JNI_OnUnload".toList, .closed 0 678,
        .opened 1 678, .onLoad 1 "JNI_OnLoad".toList, .onUnload 1 "JNI_OnUnload".toList, .closed 1 678] := by
  decide +kernel

/-- TEST(FakeJni, LoadStaticLibrary), src/tests/fake-jni.cpp:96-116: there is no such file, the program itself has
the functions with the name of the library. -/
example : (let s := LibState.initial.run [.attach "jnistatic".toList none (some 1) true [] false true]
     (s.destroy (s.libs.map (·.2))).trace) =
      [.opened 0 1, .onLoad 0 "JNI_OnLoad_jnistatic".toList, .onUnload 0 "JNI_OnUnload_jnistatic".toList,
        .closed 0 1] := by
  decide +kernel

end Jnivm
