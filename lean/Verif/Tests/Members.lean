import Verif.Model.Asserts
import Verif.Model.Baron
import Verif.Model.Calls
import Verif.Model.Proxy
/-!
The project's own tests, replayed on the model: classes, inheritance, hooks, natives and Baron's deny lists.
The C++ types of a test are numbered from 20; the classes of a new VM are 0 to 8, so those of the test are 9 and
above in the order in which they are found.
-/
namespace Jnivm

/-- What `f` sees of the VM after `VM::initialize` and a history, in a build with assertions. -/
def tested {α : Type} (ops : List MemOp) (f : World → Res α) : Res α := (runMemA .initial (startOps ++ ops)).bind f

/-- The class of this name, null if there is none. -/
def World.named (w : World) (n : String) : Option Nat := (findClass true w.reg n.toList).2

/-- The id that a lookup which makes up methods returns. -/
def World.methodNamed (w : World) (c : Nat) (n s : String) : Res (Option Nat) :=
  (w.getMethodIDA 20 false false false (some c) n.toList s.toList).bind fun r => .ok r.2

/-- TEST(JNIVM, Interfaces), src/tests/Tests.cpp:365-374: the interface is registered after the class. -/
def interfacesOps : List MemOp :=
  [.bindType 20 "TestClass".toList [some 0, some 21], .bindType 21 "TestInterface".toList [some 0]]

example : tested interfacesOps (fun w => (w.basesA 9).bind fun l => .ok (l, w.named "java/lang/Object",
      w.named "TestInterface")) = .ok (some [some 0, some 10], some 0, some 10) := by
  decide +kernel

/-- The classes of TEST(JNIVM, Inherience), src/tests/Tests.cpp:484-492: 9 is the first interface, 10 the second,
11 to 13 are the classes. -/
def inherienceOps : List MemOp :=
  [.bindType 21 "TestInterface".toList [some 0], .hookMethod 9 false "Test".toList "()V".toList 1,
   .bindType 22 "TestInterface2".toList [some 0], .hookMethod 10 false "Test2".toList "()V".toList 2,
   .bindType 20 "TestClass".toList [some 0, some 21], .bindType 23 "TestClass2".toList [some 20],
   .bindType 24 "TestClass3".toList [some 23, some 22]]

/-- TEST(JNIVM, Inherience), src/tests/Tests.cpp:493-511, 543-545. -/
example : tested inherienceOps (fun w => .ok [w.named "TestInterface", w.named "TestInterface2", w.named "TestClass",
      w.named "TestClass2", w.named "TestClass3"]) = .ok [some 9, some 10, some 11, some 12, some 13] ∧
    tested inherienceOps (fun w => w.isAssignableFromA 9 11 1) = .ok false ∧
    tested inherienceOps (fun w => w.isAssignableFromA 9 11 11) = .ok true ∧
    tested inherienceOps (fun w => w.isAssignableFromA 9 12 11) = .ok true ∧
    tested inherienceOps (fun w => w.isAssignableFromA 9 11 9) = .ok true ∧
    tested inherienceOps (fun w => w.isAssignableFromA 9 11 10) = .ok false ∧
    tested inherienceOps (fun w => w.isAssignableFromA 9 12 9) = .ok true ∧
    tested inherienceOps (fun w => w.isAssignableFromA 9 12 10) = .ok false ∧
    tested inherienceOps (fun w => w.isAssignableFromA 9 13 9) = .ok true ∧
    tested inherienceOps (fun w => w.isAssignableFromA 9 13 10) = .ok true ∧
    tested inherienceOps (fun w => w.isAssignableFromA 9 10 13) = .ok false ∧
    tested inherienceOps (fun w => w.methodNamed 9 "Test" "()V") = .ok (some 0) ∧
    tested inherienceOps (fun w => w.methodNamed 13 "Test2" "()V") = .ok (some 1) ∧
    tested inherienceOps (fun w => w.getSuperclassA 12) = .ok (some 11) ∧
    tested inherienceOps (fun w => w.getSuperclassA 13) = .ok (some 12) := by
  decide +kernel

/-- The classes of TEST(JNIVM, Inherience2), src/tests/Tests.cpp:558-567: 11 is the third interface, 15 the fourth
class. -/
def inherience2Ops : List MemOp :=
  [.bindType 21 "TestInterface".toList [some 0], .hookMethod 9 false "Test".toList "()V".toList 1,
   .bindType 22 "TestInterface2".toList [some 0], .hookMethod 10 false "Test2".toList "()V".toList 2,
   .bindType 25 "TestInterface3".toList [some 21, some 22],
   .bindType 20 "TestClass".toList [some 0, some 21], .bindType 23 "TestClass2".toList [some 20],
   .bindType 24 "TestClass3".toList [some 23, some 22], .bindType 26 "TestClass4".toList [some 24, some 25]]

/-- TEST(JNIVM, Inherience2), src/tests/Tests.cpp:568-584. -/
example : tested inherience2Ops (fun w => .ok [w.named "TestInterface3", w.named "TestClass", w.named "TestClass4"]) =
      .ok [some 11, some 12, some 15] ∧
    tested inherience2Ops (fun w => w.isAssignableFromA 9 12 1) = .ok false ∧
    tested inherience2Ops (fun w => w.isAssignableFromA 9 15 11) = .ok true ∧
    tested inherience2Ops (fun w => w.isAssignableFromA 9 15 10) = .ok true ∧
    tested inherience2Ops (fun w => w.isAssignableFromA 9 15 9) = .ok true ∧
    tested inherience2Ops (fun w => w.methodNamed 9 "Test" "()V") = .ok (some 0) ∧
    tested inherience2Ops (fun w => w.methodNamed 15 "Test2" "()V") = .ok (some 1) := by
  decide +kernel

/-- TEST(JNIVM, Hooking), src/tests/Tests.cpp:793-842: the natives that are registered and unregistered. -/
def hookingOps : List MemOp :=
  [.bindType 20 "TestClass".toList [some 0], .hookMethod 9 false "Test".toList "(Z)Z".toList 1,
   .hookMethod 9 false "Test2".toList "()Z".toList 2,
   .hookMethod 9 true "Test2".toList "(Ljava/lang/Class;LTestClass;)V".toList 3,
   .hookMethod 9 true "Test4".toList "([Ljava/lang/Class;[[LTestClass;)V".toList 4,
   .registerNatives (some 9) [⟨"NativeTest3".toList, "(LTestClass;)V".toList, some 5⟩,
     ⟨"NativeTest4".toList, "(Ljava/lang/Class;)V".toList, some 6⟩,
     ⟨"NativeTest5".toList, "(Ljava/lang/Class;)Ljava/lang/Class;".toList, some 7⟩]]

example : tested hookingOps (fun w => .ok (w.mem 9).natives.length) = .ok 3 ∧
    tested hookingOps (fun w => (w.getMethodIDA 20 true false false (some 9) "Test4".toList
      "([Ljava/lang/Class;[[LTestClass;)V".toList).bind fun r => .ok r.2) = .ok (some 3) ∧
    tested (hookingOps ++ [.unregisterNatives (some 9)]) (fun w => .ok (w.mem 9).natives.length) = .ok 0 := by
  decide +kernel

/-- TEST(JNIVM, VirtualFunction), src/tests/Tests.cpp:844-901: functions 1 and 3 are those of `TestClass` (9), 2
and 4 those of `TestClass2` (10). -/
def virtualOps : List MemOp :=
  [.bindType 20 "TestClass".toList [some 0], .bindType 21 "TestClass2".toList [some 20],
   .hookMethod 9 false "Test".toList "()I".toList 1, .hookMethod 10 false "Test".toList "()I".toList 2,
   .hookMethod 9 false "Test2".toList "()I".toList 3, .hookMethod 10 false "Test2".toList "()I".toList 4]

/-- The function that `CallIntMethod` runs on an object of class `c` with the id that `GetMethodID` returns for
class `owner`. -/
def World.virtualOf (w : World) (c owner : Nat) (n : String) : Res (Option Nat) :=
  (w.methodNamed owner n "()I").bind fun id =>
    match id.bind w.method? with
    | none => .ub .dangling
    | some m => .ok (findVirtualOverload w (some c) m).handle

/-- The function that `CallNonvirtualIntMethod` runs for class `c`. -/
def World.nonVirtualOf (w : World) (c owner : Nat) (n : String) : Res (Option Nat) :=
  (w.methodNamed owner n "()I").bind fun id =>
    match id.bind w.method? with
    | none => .ub .dangling
    | some m => .ok ((findNonVirtualOverload w (some c) m).bind (·.handle))

example : tested virtualOps (fun w => w.virtualOf 10 9 "Test") = .ok (some 2) ∧
    tested virtualOps (fun w => w.virtualOf 10 10 "Test") = .ok (some 2) ∧
    tested virtualOps (fun w => w.virtualOf 10 9 "Test2") = .ok (some 4) ∧
    tested virtualOps (fun w => w.virtualOf 10 10 "Test2") = .ok (some 4) ∧
    tested virtualOps (fun w => w.nonVirtualOf 10 9 "Test2") = .ok (some 4) ∧
    tested virtualOps (fun w => w.nonVirtualOf 10 10 "Test2") = .ok (some 4) ∧
    tested virtualOps (fun w => w.nonVirtualOf 9 9 "Test2") = .ok (some 3) ∧
    tested virtualOps (fun w => w.nonVirtualOf 9 10 "Test2") = .ok (some 3) := by
  decide +kernel

/-- The steps of TEST(Baron, DeniedFabrication): rules and lookups; a lookup of the answer `true` is not null. -/
inductive DenyStep where
  | denyClass (n : String)
  | denyMethod (n s c : String)
  | denyField (n s c : String)
  | find (n : String)
  | method (c n s : String)
  | field (c n t : String)

def DenyStep.run (d : Deny) (w : World) : DenyStep → Res (Deny × World × List Bool)
  | .denyClass n => .ok (d.denyClass n.toList, w, [])
  | .denyMethod n s c => .ok (d.denyMethod n.toList s.toList c.toList, w, [])
  | .denyField n s c => .ok (d.denyField n.toList s.toList c.toList, w, [])
  | .find n => match d.findClass w.reg n.toList with
    | (reg, r) => .ok (d, { w with reg := reg }, [r.isSome])
  | .method c n s => (d.getMethodID 20 false w (w.named c) n.toList s.toList).bind fun r => .ok (d, r.1, [r.2.isSome])
  | .field c n t => (d.getFieldID 20 false w (w.named c) n.toList t.toList).bind fun r => .ok (d, r.1, [r.2.isSome])

def runDeny : Deny → World → List DenyStep → Res (List Bool)
  | _, _, [] => .ok []
  | d, w, s :: ss => (s.run d w).bind fun (d, w, l) => (runDeny d w ss).bind fun m => .ok (l ++ m)

/-- TEST(Baron, DeniedFabrication), src/tests/Tests.cpp:1324-1362: the expected nulls. -/
example : tested [] (fun w => runDeny .empty w
      [.denyClass "Test", .find "Test", .find "Test2", .denyClass "Test2", .find "Test2",
       .denyMethod "<init>" "()V" "", .method "Test2" "<init>" "()V", .method "Test2" "test" "()V",
       .method "Test2" "<init>" "(Ljava/lang/String;)V", .denyMethod "" "()Ljava/lang/String;" "",
       .method "Test2" "test2" "()Ljava/lang/String;", .method "Test2" "test3" "()Ljava/lang/Object;",
       .method "Test2" "somethingelse" "()Ljava/lang/Object;",
       .method "Test2" "somethingelse" "()Ljava/lang/String;", .denyField "" "Ljava/lang/String;" "",
       .field "Test2" "test2" "Ljava/lang/String;", .field "Test2" "test3" "Ljava/lang/Object;",
       .field "Test2" "somethingelse" "Ljava/lang/Object;", .field "Test2" "somethingelse" "Ljava/lang/String;",
       .denyField "somethingelseAgain" "Ljava/lang/Object;" "",
       .field "Test2" "somethingelseAgain" "Ljava/lang/Object;",
       .denyField "somethingelseAgain2" "Ljava/lang/Object;" "java/lang/String",
       .field "Test2" "somethingelseAgain2" "Ljava/lang/Object;",
       .field "java/lang/String" "somethingelseAgain2" "Ljava/lang/Object;"]) =
    .ok [false, true, true, false, true, true, false, true, true, false, false, true, true, false, false, true,
      false] := by
  decide +kernel

/-- TEST(JNIVM, FilterFalsePositives), src/tests/Tests.cpp:1423-1441: a VM that makes up nothing. -/
def filterOps : List MemOp :=
  [.bindType 21 "TestInterface".toList [some 0], .bindType 20 "TestClass".toList [some 0, some 21],
   .hookMethod 10 false "Test".toList "(LTestInterface;)V".toList 1]

example : tested filterOps (fun w => (w.getMethodIDA 9 false true false (some 10) "Test".toList
      "()V".toList).bind fun r => .ok r.2) = .ok none ∧
    tested filterOps (fun w => (w.getMethodIDA 9 false true false (some 10) "Test".toList
      "(LTestInterface;)V".toList).bind fun r => .ok r.2) = .ok (some 0) := by
  decide +kernel

/-- The classes of src/tests/fake-jni.cpp:7-50: 9 has a static field and gets a native method, 10 extends it and
has a field of the same name.  fake-jni's constructors are static methods called "<init>". -/
def nativesOps : List MemOp :=
  [.bindType 20 "com/sample/ClassWithNatives".toList [some 0],
   .hookField 9 true true "intField".toList "I".toList 1, .hookField 9 false true "intField".toList "I".toList 2,
   .bindType 21 "com/sample/ClassWithSuperClassNatives".toList [some 20],
   .hookMethod 10 true "<init>".toList "()Lcom/sample/ClassWithSuperClassNatives;".toList 3,
   .hookField 10 true false "intField".toList "I".toList 4, .hookField 10 false false "intField".toList "I".toList 5,
   .registerNatives (some 9) [⟨"NativeMethod".toList, "()V".toList, some 6⟩]]

/-- TEST(FakeJni, GetAndCallNativeMethod) and TEST(FakeJni, GetAndCallSuperClassNativeMethod),
src/tests/fake-jni.cpp:25-67: `getMethod` finds the native method on both classes. -/
example : tested nativesOps (fun w => (w.getMethod 9 9 "()V".toList "NativeMethod".toList).bind fun r => .ok r.2) =
      .ok ⟨none, none, some 3⟩ ∧
    tested nativesOps (fun w => (w.getMethod 9 10 "()V".toList "NativeMethod".toList).bind fun r => .ok r.2) =
      .ok ⟨none, none, some 3⟩ := by
  decide +kernel

/-- TEST(FakeJni, InheritStaticField), src/tests/fake-jni.cpp:69-88: the lookups. -/
example : tested nativesOps (fun w => .ok (w.named "com/sample/ClassWithSuperClassNatives")) = .ok (some 10) ∧
    tested nativesOps (fun w => (w.getFieldIDA 9 false true (some 10) "intField".toList "I".toList).bind fun r =>
      .ok r.2) = .ok (some 2) ∧
    tested nativesOps (fun w => (w.getFieldIDA 9 true true (some 10) "intField".toList "I".toList).bind fun r =>
      .ok r.2) = .ok (some 0) ∧
    tested nativesOps (fun w => (w.getMethodIDA 9 false true false (some 10) "<init>".toList "()V".toList).bind fun r =>
      .ok r.2) = .ok (some 1) := by
  decide +kernel

/-- TEST(FakeJni, GetNameReturnsFakeJniOldPrototypeLikeValue), src/tests/fake-jni.cpp:90-96. -/
example : tested nativesOps (fun w => .ok (w.className (some 10))) =
    .ok "com/sample/ClassWithSuperClassNatives".toList := by
  decide +kernel

end Jnivm
