import Verif.Model.Basic
/-!
The two function tables: what include/jni.h declares and what src/jnivm/vm.cpp fills in.  The lists
`nativeHeader`, `invokeHeader` and `plainFns` are transcribed from the sources by a script.
-/
namespace Jnivm

/-- The types over which the tables are instantiated: the template arguments in src/jnivm/vm.cpp:457. -/
inductive JTy where
  | object | boolean | byte | char | short | int | long | float | double | void
deriving DecidableEq, Repr

/-- C types in the declarations.  `jsize` is `jint` and `jweak` is `jobject` (typedefs, include/jni.h:21-70). -/
inductive CTy where
  | val (t : JTy)
  | cls | str | throwable | array | objArray
  | primArray (t : JTy)
  | methodID | fieldID | refType | cchar | env | vm | vaList | dots | jvalue | nativeMethod | sharedPtr
  | ptr (t : CTy)
  | cptr (t : CTy)
deriving DecidableEq, Repr

/-- A function type: result and parameters. -/
structure CFn where
  ret : CTy
  params : List CTy
deriving DecidableEq, Repr

/-- `struct JNINativeInterface`, include/jni.h:130-428: names and types of the slots; `none` marks the reserved
pointers. -/
def nativeHeader : List (String × Option CFn) := [
  ("reserved0", none),
  ("reserved1", none),
  ("reserved2", none),
  ("reserved3", none),
  ("GetVersion", some ⟨.val .int, [.ptr (.env)]⟩),
  ("DefineClass", some ⟨.cls, [.ptr (.env), .cptr (.cchar), .val .object, .cptr (.val .byte), .val .int]⟩),
  ("FindClass", some ⟨.cls, [.ptr (.env), .cptr (.cchar)]⟩),
  ("FromReflectedMethod", some ⟨.methodID, [.ptr (.env), .val .object]⟩),
  ("FromReflectedField", some ⟨.fieldID, [.ptr (.env), .val .object]⟩),
  ("ToReflectedMethod", some ⟨.val .object, [.ptr (.env), .cls, .methodID, .val .boolean]⟩),
  ("GetSuperclass", some ⟨.cls, [.ptr (.env), .cls]⟩),
  ("IsAssignableFrom", some ⟨.val .boolean, [.ptr (.env), .cls, .cls]⟩),
  ("ToReflectedField", some ⟨.val .object, [.ptr (.env), .cls, .fieldID, .val .boolean]⟩),
  ("Throw", some ⟨.val .int, [.ptr (.env), .throwable]⟩),
  ("ThrowNew", some ⟨.val .int, [.ptr (.env), .cls, .cptr (.cchar)]⟩),
  ("ExceptionOccurred", some ⟨.throwable, [.ptr (.env)]⟩),
  ("ExceptionDescribe", some ⟨.val .void, [.ptr (.env)]⟩),
  ("ExceptionClear", some ⟨.val .void, [.ptr (.env)]⟩),
  ("FatalError", some ⟨.val .void, [.ptr (.env), .cptr (.cchar)]⟩),
  ("PushLocalFrame", some ⟨.val .int, [.ptr (.env), .val .int]⟩),
  ("PopLocalFrame", some ⟨.val .object, [.ptr (.env), .val .object]⟩),
  ("NewGlobalRef", some ⟨.val .object, [.ptr (.env), .val .object]⟩),
  ("DeleteGlobalRef", some ⟨.val .void, [.ptr (.env), .val .object]⟩),
  ("DeleteLocalRef", some ⟨.val .void, [.ptr (.env), .val .object]⟩),
  ("IsSameObject", some ⟨.val .boolean, [.ptr (.env), .val .object, .val .object]⟩),
  ("NewLocalRef", some ⟨.val .object, [.ptr (.env), .val .object]⟩),
  ("EnsureLocalCapacity", some ⟨.val .int, [.ptr (.env), .val .int]⟩),
  ("AllocObject", some ⟨.val .object, [.ptr (.env), .cls]⟩),
  ("NewObject", some ⟨.val .object, [.ptr (.env), .cls, .methodID, .dots]⟩),
  ("NewObjectV", some ⟨.val .object, [.ptr (.env), .cls, .methodID, .vaList]⟩),
  ("NewObjectA", some ⟨.val .object, [.ptr (.env), .cls, .methodID, .ptr (.jvalue)]⟩),
  ("GetObjectClass", some ⟨.cls, [.ptr (.env), .val .object]⟩),
  ("IsInstanceOf", some ⟨.val .boolean, [.ptr (.env), .val .object, .cls]⟩),
  ("GetMethodID", some ⟨.methodID, [.ptr (.env), .cls, .cptr (.cchar), .cptr (.cchar)]⟩),
  ("CallObjectMethod", some ⟨.val .object, [.ptr (.env), .val .object, .methodID, .dots]⟩),
  ("CallObjectMethodV", some ⟨.val .object, [.ptr (.env), .val .object, .methodID, .vaList]⟩),
  ("CallObjectMethodA", some ⟨.val .object, [.ptr (.env), .val .object, .methodID, .ptr (.jvalue)]⟩),
  ("CallBooleanMethod", some ⟨.val .boolean, [.ptr (.env), .val .object, .methodID, .dots]⟩),
  ("CallBooleanMethodV", some ⟨.val .boolean, [.ptr (.env), .val .object, .methodID, .vaList]⟩),
  ("CallBooleanMethodA", some ⟨.val .boolean, [.ptr (.env), .val .object, .methodID, .ptr (.jvalue)]⟩),
  ("CallByteMethod", some ⟨.val .byte, [.ptr (.env), .val .object, .methodID, .dots]⟩),
  ("CallByteMethodV", some ⟨.val .byte, [.ptr (.env), .val .object, .methodID, .vaList]⟩),
  ("CallByteMethodA", some ⟨.val .byte, [.ptr (.env), .val .object, .methodID, .ptr (.jvalue)]⟩),
  ("CallCharMethod", some ⟨.val .char, [.ptr (.env), .val .object, .methodID, .dots]⟩),
  ("CallCharMethodV", some ⟨.val .char, [.ptr (.env), .val .object, .methodID, .vaList]⟩),
  ("CallCharMethodA", some ⟨.val .char, [.ptr (.env), .val .object, .methodID, .ptr (.jvalue)]⟩),
  ("CallShortMethod", some ⟨.val .short, [.ptr (.env), .val .object, .methodID, .dots]⟩),
  ("CallShortMethodV", some ⟨.val .short, [.ptr (.env), .val .object, .methodID, .vaList]⟩),
  ("CallShortMethodA", some ⟨.val .short, [.ptr (.env), .val .object, .methodID, .ptr (.jvalue)]⟩),
  ("CallIntMethod", some ⟨.val .int, [.ptr (.env), .val .object, .methodID, .dots]⟩),
  ("CallIntMethodV", some ⟨.val .int, [.ptr (.env), .val .object, .methodID, .vaList]⟩),
  ("CallIntMethodA", some ⟨.val .int, [.ptr (.env), .val .object, .methodID, .ptr (.jvalue)]⟩),
  ("CallLongMethod", some ⟨.val .long, [.ptr (.env), .val .object, .methodID, .dots]⟩),
  ("CallLongMethodV", some ⟨.val .long, [.ptr (.env), .val .object, .methodID, .vaList]⟩),
  ("CallLongMethodA", some ⟨.val .long, [.ptr (.env), .val .object, .methodID, .ptr (.jvalue)]⟩),
  ("CallFloatMethod", some ⟨.val .float, [.ptr (.env), .val .object, .methodID, .dots]⟩),
  ("CallFloatMethodV", some ⟨.val .float, [.ptr (.env), .val .object, .methodID, .vaList]⟩),
  ("CallFloatMethodA", some ⟨.val .float, [.ptr (.env), .val .object, .methodID, .ptr (.jvalue)]⟩),
  ("CallDoubleMethod", some ⟨.val .double, [.ptr (.env), .val .object, .methodID, .dots]⟩),
  ("CallDoubleMethodV", some ⟨.val .double, [.ptr (.env), .val .object, .methodID, .vaList]⟩),
  ("CallDoubleMethodA", some ⟨.val .double, [.ptr (.env), .val .object, .methodID, .ptr (.jvalue)]⟩),
  ("CallVoidMethod", some ⟨.val .void, [.ptr (.env), .val .object, .methodID, .dots]⟩),
  ("CallVoidMethodV", some ⟨.val .void, [.ptr (.env), .val .object, .methodID, .vaList]⟩),
  ("CallVoidMethodA", some ⟨.val .void, [.ptr (.env), .val .object, .methodID, .ptr (.jvalue)]⟩),
  ("CallNonvirtualObjectMethod", some ⟨.val .object, [.ptr (.env), .val .object, .cls, .methodID, .dots]⟩),
  ("CallNonvirtualObjectMethodV", some ⟨.val .object, [.ptr (.env), .val .object, .cls, .methodID, .vaList]⟩),
  ("CallNonvirtualObjectMethodA", some ⟨.val .object, [.ptr (.env), .val .object, .cls, .methodID, .ptr (.jvalue)]⟩),
  ("CallNonvirtualBooleanMethod", some ⟨.val .boolean, [.ptr (.env), .val .object, .cls, .methodID, .dots]⟩),
  ("CallNonvirtualBooleanMethodV", some ⟨.val .boolean, [.ptr (.env), .val .object, .cls, .methodID, .vaList]⟩),
  ("CallNonvirtualBooleanMethodA", some ⟨.val .boolean, [.ptr (.env), .val .object, .cls, .methodID, .ptr (.jvalue)]⟩),
  ("CallNonvirtualByteMethod", some ⟨.val .byte, [.ptr (.env), .val .object, .cls, .methodID, .dots]⟩),
  ("CallNonvirtualByteMethodV", some ⟨.val .byte, [.ptr (.env), .val .object, .cls, .methodID, .vaList]⟩),
  ("CallNonvirtualByteMethodA", some ⟨.val .byte, [.ptr (.env), .val .object, .cls, .methodID, .ptr (.jvalue)]⟩),
  ("CallNonvirtualCharMethod", some ⟨.val .char, [.ptr (.env), .val .object, .cls, .methodID, .dots]⟩),
  ("CallNonvirtualCharMethodV", some ⟨.val .char, [.ptr (.env), .val .object, .cls, .methodID, .vaList]⟩),
  ("CallNonvirtualCharMethodA", some ⟨.val .char, [.ptr (.env), .val .object, .cls, .methodID, .ptr (.jvalue)]⟩),
  ("CallNonvirtualShortMethod", some ⟨.val .short, [.ptr (.env), .val .object, .cls, .methodID, .dots]⟩),
  ("CallNonvirtualShortMethodV", some ⟨.val .short, [.ptr (.env), .val .object, .cls, .methodID, .vaList]⟩),
  ("CallNonvirtualShortMethodA", some ⟨.val .short, [.ptr (.env), .val .object, .cls, .methodID, .ptr (.jvalue)]⟩),
  ("CallNonvirtualIntMethod", some ⟨.val .int, [.ptr (.env), .val .object, .cls, .methodID, .dots]⟩),
  ("CallNonvirtualIntMethodV", some ⟨.val .int, [.ptr (.env), .val .object, .cls, .methodID, .vaList]⟩),
  ("CallNonvirtualIntMethodA", some ⟨.val .int, [.ptr (.env), .val .object, .cls, .methodID, .ptr (.jvalue)]⟩),
  ("CallNonvirtualLongMethod", some ⟨.val .long, [.ptr (.env), .val .object, .cls, .methodID, .dots]⟩),
  ("CallNonvirtualLongMethodV", some ⟨.val .long, [.ptr (.env), .val .object, .cls, .methodID, .vaList]⟩),
  ("CallNonvirtualLongMethodA", some ⟨.val .long, [.ptr (.env), .val .object, .cls, .methodID, .ptr (.jvalue)]⟩),
  ("CallNonvirtualFloatMethod", some ⟨.val .float, [.ptr (.env), .val .object, .cls, .methodID, .dots]⟩),
  ("CallNonvirtualFloatMethodV", some ⟨.val .float, [.ptr (.env), .val .object, .cls, .methodID, .vaList]⟩),
  ("CallNonvirtualFloatMethodA", some ⟨.val .float, [.ptr (.env), .val .object, .cls, .methodID, .ptr (.jvalue)]⟩),
  ("CallNonvirtualDoubleMethod", some ⟨.val .double, [.ptr (.env), .val .object, .cls, .methodID, .dots]⟩),
  ("CallNonvirtualDoubleMethodV", some ⟨.val .double, [.ptr (.env), .val .object, .cls, .methodID, .vaList]⟩),
  ("CallNonvirtualDoubleMethodA", some ⟨.val .double, [.ptr (.env), .val .object, .cls, .methodID, .ptr (.jvalue)]⟩),
  ("CallNonvirtualVoidMethod", some ⟨.val .void, [.ptr (.env), .val .object, .cls, .methodID, .dots]⟩),
  ("CallNonvirtualVoidMethodV", some ⟨.val .void, [.ptr (.env), .val .object, .cls, .methodID, .vaList]⟩),
  ("CallNonvirtualVoidMethodA", some ⟨.val .void, [.ptr (.env), .val .object, .cls, .methodID, .ptr (.jvalue)]⟩),
  ("GetFieldID", some ⟨.fieldID, [.ptr (.env), .cls, .cptr (.cchar), .cptr (.cchar)]⟩),
  ("GetObjectField", some ⟨.val .object, [.ptr (.env), .val .object, .fieldID]⟩),
  ("GetBooleanField", some ⟨.val .boolean, [.ptr (.env), .val .object, .fieldID]⟩),
  ("GetByteField", some ⟨.val .byte, [.ptr (.env), .val .object, .fieldID]⟩),
  ("GetCharField", some ⟨.val .char, [.ptr (.env), .val .object, .fieldID]⟩),
  ("GetShortField", some ⟨.val .short, [.ptr (.env), .val .object, .fieldID]⟩),
  ("GetIntField", some ⟨.val .int, [.ptr (.env), .val .object, .fieldID]⟩),
  ("GetLongField", some ⟨.val .long, [.ptr (.env), .val .object, .fieldID]⟩),
  ("GetFloatField", some ⟨.val .float, [.ptr (.env), .val .object, .fieldID]⟩),
  ("GetDoubleField", some ⟨.val .double, [.ptr (.env), .val .object, .fieldID]⟩),
  ("SetObjectField", some ⟨.val .void, [.ptr (.env), .val .object, .fieldID, .val .object]⟩),
  ("SetBooleanField", some ⟨.val .void, [.ptr (.env), .val .object, .fieldID, .val .boolean]⟩),
  ("SetByteField", some ⟨.val .void, [.ptr (.env), .val .object, .fieldID, .val .byte]⟩),
  ("SetCharField", some ⟨.val .void, [.ptr (.env), .val .object, .fieldID, .val .char]⟩),
  ("SetShortField", some ⟨.val .void, [.ptr (.env), .val .object, .fieldID, .val .short]⟩),
  ("SetIntField", some ⟨.val .void, [.ptr (.env), .val .object, .fieldID, .val .int]⟩),
  ("SetLongField", some ⟨.val .void, [.ptr (.env), .val .object, .fieldID, .val .long]⟩),
  ("SetFloatField", some ⟨.val .void, [.ptr (.env), .val .object, .fieldID, .val .float]⟩),
  ("SetDoubleField", some ⟨.val .void, [.ptr (.env), .val .object, .fieldID, .val .double]⟩),
  ("GetStaticMethodID", some ⟨.methodID, [.ptr (.env), .cls, .cptr (.cchar), .cptr (.cchar)]⟩),
  ("CallStaticObjectMethod", some ⟨.val .object, [.ptr (.env), .cls, .methodID, .dots]⟩),
  ("CallStaticObjectMethodV", some ⟨.val .object, [.ptr (.env), .cls, .methodID, .vaList]⟩),
  ("CallStaticObjectMethodA", some ⟨.val .object, [.ptr (.env), .cls, .methodID, .ptr (.jvalue)]⟩),
  ("CallStaticBooleanMethod", some ⟨.val .boolean, [.ptr (.env), .cls, .methodID, .dots]⟩),
  ("CallStaticBooleanMethodV", some ⟨.val .boolean, [.ptr (.env), .cls, .methodID, .vaList]⟩),
  ("CallStaticBooleanMethodA", some ⟨.val .boolean, [.ptr (.env), .cls, .methodID, .ptr (.jvalue)]⟩),
  ("CallStaticByteMethod", some ⟨.val .byte, [.ptr (.env), .cls, .methodID, .dots]⟩),
  ("CallStaticByteMethodV", some ⟨.val .byte, [.ptr (.env), .cls, .methodID, .vaList]⟩),
  ("CallStaticByteMethodA", some ⟨.val .byte, [.ptr (.env), .cls, .methodID, .ptr (.jvalue)]⟩),
  ("CallStaticCharMethod", some ⟨.val .char, [.ptr (.env), .cls, .methodID, .dots]⟩),
  ("CallStaticCharMethodV", some ⟨.val .char, [.ptr (.env), .cls, .methodID, .vaList]⟩),
  ("CallStaticCharMethodA", some ⟨.val .char, [.ptr (.env), .cls, .methodID, .ptr (.jvalue)]⟩),
  ("CallStaticShortMethod", some ⟨.val .short, [.ptr (.env), .cls, .methodID, .dots]⟩),
  ("CallStaticShortMethodV", some ⟨.val .short, [.ptr (.env), .cls, .methodID, .vaList]⟩),
  ("CallStaticShortMethodA", some ⟨.val .short, [.ptr (.env), .cls, .methodID, .ptr (.jvalue)]⟩),
  ("CallStaticIntMethod", some ⟨.val .int, [.ptr (.env), .cls, .methodID, .dots]⟩),
  ("CallStaticIntMethodV", some ⟨.val .int, [.ptr (.env), .cls, .methodID, .vaList]⟩),
  ("CallStaticIntMethodA", some ⟨.val .int, [.ptr (.env), .cls, .methodID, .ptr (.jvalue)]⟩),
  ("CallStaticLongMethod", some ⟨.val .long, [.ptr (.env), .cls, .methodID, .dots]⟩),
  ("CallStaticLongMethodV", some ⟨.val .long, [.ptr (.env), .cls, .methodID, .vaList]⟩),
  ("CallStaticLongMethodA", some ⟨.val .long, [.ptr (.env), .cls, .methodID, .ptr (.jvalue)]⟩),
  ("CallStaticFloatMethod", some ⟨.val .float, [.ptr (.env), .cls, .methodID, .dots]⟩),
  ("CallStaticFloatMethodV", some ⟨.val .float, [.ptr (.env), .cls, .methodID, .vaList]⟩),
  ("CallStaticFloatMethodA", some ⟨.val .float, [.ptr (.env), .cls, .methodID, .ptr (.jvalue)]⟩),
  ("CallStaticDoubleMethod", some ⟨.val .double, [.ptr (.env), .cls, .methodID, .dots]⟩),
  ("CallStaticDoubleMethodV", some ⟨.val .double, [.ptr (.env), .cls, .methodID, .vaList]⟩),
  ("CallStaticDoubleMethodA", some ⟨.val .double, [.ptr (.env), .cls, .methodID, .ptr (.jvalue)]⟩),
  ("CallStaticVoidMethod", some ⟨.val .void, [.ptr (.env), .cls, .methodID, .dots]⟩),
  ("CallStaticVoidMethodV", some ⟨.val .void, [.ptr (.env), .cls, .methodID, .vaList]⟩),
  ("CallStaticVoidMethodA", some ⟨.val .void, [.ptr (.env), .cls, .methodID, .ptr (.jvalue)]⟩),
  ("GetStaticFieldID", some ⟨.fieldID, [.ptr (.env), .cls, .cptr (.cchar), .cptr (.cchar)]⟩),
  ("GetStaticObjectField", some ⟨.val .object, [.ptr (.env), .cls, .fieldID]⟩),
  ("GetStaticBooleanField", some ⟨.val .boolean, [.ptr (.env), .cls, .fieldID]⟩),
  ("GetStaticByteField", some ⟨.val .byte, [.ptr (.env), .cls, .fieldID]⟩),
  ("GetStaticCharField", some ⟨.val .char, [.ptr (.env), .cls, .fieldID]⟩),
  ("GetStaticShortField", some ⟨.val .short, [.ptr (.env), .cls, .fieldID]⟩),
  ("GetStaticIntField", some ⟨.val .int, [.ptr (.env), .cls, .fieldID]⟩),
  ("GetStaticLongField", some ⟨.val .long, [.ptr (.env), .cls, .fieldID]⟩),
  ("GetStaticFloatField", some ⟨.val .float, [.ptr (.env), .cls, .fieldID]⟩),
  ("GetStaticDoubleField", some ⟨.val .double, [.ptr (.env), .cls, .fieldID]⟩),
  ("SetStaticObjectField", some ⟨.val .void, [.ptr (.env), .cls, .fieldID, .val .object]⟩),
  ("SetStaticBooleanField", some ⟨.val .void, [.ptr (.env), .cls, .fieldID, .val .boolean]⟩),
  ("SetStaticByteField", some ⟨.val .void, [.ptr (.env), .cls, .fieldID, .val .byte]⟩),
  ("SetStaticCharField", some ⟨.val .void, [.ptr (.env), .cls, .fieldID, .val .char]⟩),
  ("SetStaticShortField", some ⟨.val .void, [.ptr (.env), .cls, .fieldID, .val .short]⟩),
  ("SetStaticIntField", some ⟨.val .void, [.ptr (.env), .cls, .fieldID, .val .int]⟩),
  ("SetStaticLongField", some ⟨.val .void, [.ptr (.env), .cls, .fieldID, .val .long]⟩),
  ("SetStaticFloatField", some ⟨.val .void, [.ptr (.env), .cls, .fieldID, .val .float]⟩),
  ("SetStaticDoubleField", some ⟨.val .void, [.ptr (.env), .cls, .fieldID, .val .double]⟩),
  ("NewString", some ⟨.str, [.ptr (.env), .cptr (.val .char), .val .int]⟩),
  ("GetStringLength", some ⟨.val .int, [.ptr (.env), .str]⟩),
  ("GetStringChars", some ⟨.cptr (.val .char), [.ptr (.env), .str, .ptr (.val .boolean)]⟩),
  ("ReleaseStringChars", some ⟨.val .void, [.ptr (.env), .str, .cptr (.val .char)]⟩),
  ("NewStringUTF", some ⟨.str, [.ptr (.env), .cptr (.cchar)]⟩),
  ("GetStringUTFLength", some ⟨.val .int, [.ptr (.env), .str]⟩),
  ("GetStringUTFChars", some ⟨.cptr (.cchar), [.ptr (.env), .str, .ptr (.val .boolean)]⟩),
  ("ReleaseStringUTFChars", some ⟨.val .void, [.ptr (.env), .str, .cptr (.cchar)]⟩),
  ("GetArrayLength", some ⟨.val .int, [.ptr (.env), .array]⟩),
  ("NewObjectArray", some ⟨.objArray, [.ptr (.env), .val .int, .cls, .val .object]⟩),
  ("GetObjectArrayElement", some ⟨.val .object, [.ptr (.env), .objArray, .val .int]⟩),
  ("SetObjectArrayElement", some ⟨.val .void, [.ptr (.env), .objArray, .val .int, .val .object]⟩),
  ("NewBooleanArray", some ⟨.primArray .boolean, [.ptr (.env), .val .int]⟩),
  ("NewByteArray", some ⟨.primArray .byte, [.ptr (.env), .val .int]⟩),
  ("NewCharArray", some ⟨.primArray .char, [.ptr (.env), .val .int]⟩),
  ("NewShortArray", some ⟨.primArray .short, [.ptr (.env), .val .int]⟩),
  ("NewIntArray", some ⟨.primArray .int, [.ptr (.env), .val .int]⟩),
  ("NewLongArray", some ⟨.primArray .long, [.ptr (.env), .val .int]⟩),
  ("NewFloatArray", some ⟨.primArray .float, [.ptr (.env), .val .int]⟩),
  ("NewDoubleArray", some ⟨.primArray .double, [.ptr (.env), .val .int]⟩),
  ("GetBooleanArrayElements", some ⟨.ptr (.val .boolean), [.ptr (.env), .primArray .boolean, .ptr (.val .boolean)]⟩),
  ("GetByteArrayElements", some ⟨.ptr (.val .byte), [.ptr (.env), .primArray .byte, .ptr (.val .boolean)]⟩),
  ("GetCharArrayElements", some ⟨.ptr (.val .char), [.ptr (.env), .primArray .char, .ptr (.val .boolean)]⟩),
  ("GetShortArrayElements", some ⟨.ptr (.val .short), [.ptr (.env), .primArray .short, .ptr (.val .boolean)]⟩),
  ("GetIntArrayElements", some ⟨.ptr (.val .int), [.ptr (.env), .primArray .int, .ptr (.val .boolean)]⟩),
  ("GetLongArrayElements", some ⟨.ptr (.val .long), [.ptr (.env), .primArray .long, .ptr (.val .boolean)]⟩),
  ("GetFloatArrayElements", some ⟨.ptr (.val .float), [.ptr (.env), .primArray .float, .ptr (.val .boolean)]⟩),
  ("GetDoubleArrayElements", some ⟨.ptr (.val .double), [.ptr (.env), .primArray .double, .ptr (.val .boolean)]⟩),
  ("ReleaseBooleanArrayElements", some ⟨.val .void, [.ptr (.env), .primArray .boolean, .ptr (.val .boolean), .val .int]⟩),
  ("ReleaseByteArrayElements", some ⟨.val .void, [.ptr (.env), .primArray .byte, .ptr (.val .byte), .val .int]⟩),
  ("ReleaseCharArrayElements", some ⟨.val .void, [.ptr (.env), .primArray .char, .ptr (.val .char), .val .int]⟩),
  ("ReleaseShortArrayElements", some ⟨.val .void, [.ptr (.env), .primArray .short, .ptr (.val .short), .val .int]⟩),
  ("ReleaseIntArrayElements", some ⟨.val .void, [.ptr (.env), .primArray .int, .ptr (.val .int), .val .int]⟩),
  ("ReleaseLongArrayElements", some ⟨.val .void, [.ptr (.env), .primArray .long, .ptr (.val .long), .val .int]⟩),
  ("ReleaseFloatArrayElements", some ⟨.val .void, [.ptr (.env), .primArray .float, .ptr (.val .float), .val .int]⟩),
  ("ReleaseDoubleArrayElements", some ⟨.val .void, [.ptr (.env), .primArray .double, .ptr (.val .double), .val .int]⟩),
  ("GetBooleanArrayRegion", some ⟨.val .void, [.ptr (.env), .primArray .boolean, .val .int, .val .int, .ptr (.val .boolean)]⟩),
  ("GetByteArrayRegion", some ⟨.val .void, [.ptr (.env), .primArray .byte, .val .int, .val .int, .ptr (.val .byte)]⟩),
  ("GetCharArrayRegion", some ⟨.val .void, [.ptr (.env), .primArray .char, .val .int, .val .int, .ptr (.val .char)]⟩),
  ("GetShortArrayRegion", some ⟨.val .void, [.ptr (.env), .primArray .short, .val .int, .val .int, .ptr (.val .short)]⟩),
  ("GetIntArrayRegion", some ⟨.val .void, [.ptr (.env), .primArray .int, .val .int, .val .int, .ptr (.val .int)]⟩),
  ("GetLongArrayRegion", some ⟨.val .void, [.ptr (.env), .primArray .long, .val .int, .val .int, .ptr (.val .long)]⟩),
  ("GetFloatArrayRegion", some ⟨.val .void, [.ptr (.env), .primArray .float, .val .int, .val .int, .ptr (.val .float)]⟩),
  ("GetDoubleArrayRegion", some ⟨.val .void, [.ptr (.env), .primArray .double, .val .int, .val .int, .ptr (.val .double)]⟩),
  ("SetBooleanArrayRegion", some ⟨.val .void, [.ptr (.env), .primArray .boolean, .val .int, .val .int, .cptr (.val .boolean)]⟩),
  ("SetByteArrayRegion", some ⟨.val .void, [.ptr (.env), .primArray .byte, .val .int, .val .int, .cptr (.val .byte)]⟩),
  ("SetCharArrayRegion", some ⟨.val .void, [.ptr (.env), .primArray .char, .val .int, .val .int, .cptr (.val .char)]⟩),
  ("SetShortArrayRegion", some ⟨.val .void, [.ptr (.env), .primArray .short, .val .int, .val .int, .cptr (.val .short)]⟩),
  ("SetIntArrayRegion", some ⟨.val .void, [.ptr (.env), .primArray .int, .val .int, .val .int, .cptr (.val .int)]⟩),
  ("SetLongArrayRegion", some ⟨.val .void, [.ptr (.env), .primArray .long, .val .int, .val .int, .cptr (.val .long)]⟩),
  ("SetFloatArrayRegion", some ⟨.val .void, [.ptr (.env), .primArray .float, .val .int, .val .int, .cptr (.val .float)]⟩),
  ("SetDoubleArrayRegion", some ⟨.val .void, [.ptr (.env), .primArray .double, .val .int, .val .int, .cptr (.val .double)]⟩),
  ("RegisterNatives", some ⟨.val .int, [.ptr (.env), .cls, .cptr (.nativeMethod), .val .int]⟩),
  ("UnregisterNatives", some ⟨.val .int, [.ptr (.env), .cls]⟩),
  ("MonitorEnter", some ⟨.val .int, [.ptr (.env), .val .object]⟩),
  ("MonitorExit", some ⟨.val .int, [.ptr (.env), .val .object]⟩),
  ("GetJavaVM", some ⟨.val .int, [.ptr (.env), .ptr (.ptr (.vm))]⟩),
  ("GetStringRegion", some ⟨.val .void, [.ptr (.env), .str, .val .int, .val .int, .ptr (.val .char)]⟩),
  ("GetStringUTFRegion", some ⟨.val .void, [.ptr (.env), .str, .val .int, .val .int, .ptr (.cchar)]⟩),
  ("GetPrimitiveArrayCritical", some ⟨.ptr (.val .void), [.ptr (.env), .array, .ptr (.val .boolean)]⟩),
  ("ReleasePrimitiveArrayCritical", some ⟨.val .void, [.ptr (.env), .array, .ptr (.val .void), .val .int]⟩),
  ("GetStringCritical", some ⟨.cptr (.val .char), [.ptr (.env), .str, .ptr (.val .boolean)]⟩),
  ("ReleaseStringCritical", some ⟨.val .void, [.ptr (.env), .str, .cptr (.val .char)]⟩),
  ("NewWeakGlobalRef", some ⟨.val .object, [.ptr (.env), .val .object]⟩),
  ("DeleteWeakGlobalRef", some ⟨.val .void, [.ptr (.env), .val .object]⟩),
  ("ExceptionCheck", some ⟨.val .boolean, [.ptr (.env)]⟩),
  ("NewDirectByteBuffer", some ⟨.val .object, [.ptr (.env), .ptr (.val .void), .val .long]⟩),
  ("GetDirectBufferAddress", some ⟨.ptr (.val .void), [.ptr (.env), .val .object]⟩),
  ("GetDirectBufferCapacity", some ⟨.val .long, [.ptr (.env), .val .object]⟩),
  ("GetObjectRefType", some ⟨.refType, [.ptr (.env), .val .object]⟩)]

/-- `struct JNIInvokeInterface`, include/jni.h:895-904: names and types of the slots; `none` marks the reserved
pointers. -/
def invokeHeader : List (String × Option CFn) := [
  ("reserved0", none),
  ("reserved1", none),
  ("reserved2", none),
  ("DestroyJavaVM", some ⟨.val .int, [.ptr (.vm)]⟩),
  ("AttachCurrentThread", some ⟨.val .int, [.ptr (.vm), .ptr (.ptr (.env)), .ptr (.val .void)]⟩),
  ("DetachCurrentThread", some ⟨.val .int, [.ptr (.vm)]⟩),
  ("GetEnv", some ⟨.val .int, [.ptr (.vm), .ptr (.ptr (.val .void)), .val .int]⟩),
  ("AttachCurrentThreadAsDaemon", some ⟨.val .int, [.ptr (.vm), .ptr (.ptr (.env)), .ptr (.val .void)]⟩)]

/-- The functions that are no templates, with their types: src/jnivm/vm.cpp, src/jnivm/internal/array.cpp,
src/jnivm/internal/string.cpp and src/jnivm/internal/bytebuffer.cpp.  Several entries with one name are
overloads. -/
def plainFns : List (String × CFn) := [
  ("GetVersion", ⟨.val .int, [.ptr (.env)]⟩),
  ("DefineClass", ⟨.cls, [.ptr (.env), .cptr (.cchar), .val .object, .cptr (.val .byte), .val .int]⟩),
  ("FromReflectedMethod", ⟨.methodID, [.ptr (.env), .val .object]⟩),
  ("FromReflectedField", ⟨.fieldID, [.ptr (.env), .val .object]⟩),
  ("ToReflectedMethod", ⟨.val .object, [.ptr (.env), .cls, .methodID, .val .boolean]⟩),
  ("GetSuperclass", ⟨.cls, [.ptr (.env), .cls]⟩),
  ("IsAssignableFrom", ⟨.val .boolean, [.ptr (.env), .cls, .cls]⟩),
  ("ToReflectedField", ⟨.val .object, [.ptr (.env), .cls, .fieldID, .val .boolean]⟩),
  ("Throw", ⟨.val .int, [.ptr (.env), .throwable]⟩),
  ("ThrowNew", ⟨.val .int, [.ptr (.env), .cls, .cptr (.cchar)]⟩),
  ("ExceptionOccurred", ⟨.throwable, [.ptr (.env)]⟩),
  ("ExceptionDescribe", ⟨.val .void, [.ptr (.env)]⟩),
  ("ExceptionClear", ⟨.val .void, [.ptr (.env)]⟩),
  ("FatalError", ⟨.val .void, [.ptr (.env), .cptr (.cchar)]⟩),
  ("PushLocalFrame", ⟨.val .int, [.ptr (.env), .val .int]⟩),
  ("PopLocalFrame", ⟨.val .object, [.ptr (.env), .val .object]⟩),
  ("NewGlobalRef", ⟨.val .object, [.ptr (.env), .sharedPtr]⟩),
  ("NewGlobalRef", ⟨.val .object, [.ptr (.env), .val .object]⟩),
  ("DeleteGlobalRef", ⟨.val .void, [.ptr (.env), .sharedPtr]⟩),
  ("DeleteGlobalRef", ⟨.val .void, [.ptr (.env), .val .object]⟩),
  ("DeleteLocalRef", ⟨.val .void, [.ptr (.env), .sharedPtr]⟩),
  ("DeleteLocalRef", ⟨.val .void, [.ptr (.env), .val .object]⟩),
  ("IsSameObject", ⟨.val .boolean, [.ptr (.env), .val .object, .val .object]⟩),
  ("NewLocalRef", ⟨.val .object, [.ptr (.env), .sharedPtr]⟩),
  ("NewLocalRef", ⟨.val .object, [.ptr (.env), .val .object]⟩),
  ("EnsureLocalCapacity", ⟨.val .int, [.ptr (.env), .val .int]⟩),
  ("AllocObject", ⟨.val .object, [.ptr (.env), .cls]⟩),
  ("GetObjectClass", ⟨.cls, [.ptr (.env), .val .object]⟩),
  ("IsInstanceOf", ⟨.val .boolean, [.ptr (.env), .val .object, .cls]⟩),
  ("RegisterNatives", ⟨.val .int, [.ptr (.env), .cls, .cptr (.nativeMethod), .val .int]⟩),
  ("UnregisterNatives", ⟨.val .int, [.ptr (.env), .cls]⟩),
  ("MonitorEnter", ⟨.val .int, [.ptr (.env), .val .object]⟩),
  ("MonitorExit", ⟨.val .int, [.ptr (.env), .val .object]⟩),
  ("GetJavaVM", ⟨.val .int, [.ptr (.env), .ptr (.ptr (.vm))]⟩),
  ("NewWeakGlobalRef", ⟨.val .object, [.ptr (.env), .val .object]⟩),
  ("DeleteWeakGlobalRef", ⟨.val .void, [.ptr (.env), .val .object]⟩),
  ("ExceptionCheck", ⟨.val .boolean, [.ptr (.env)]⟩),
  ("GetObjectRefType", ⟨.refType, [.ptr (.env), .val .object]⟩),
  ("GetArrayLength", ⟨.val .int, [.ptr (.env), .array]⟩),
  ("NewObjectArray", ⟨.objArray, [.ptr (.env), .val .int, .cls, .val .object]⟩),
  ("GetObjectArrayElement", ⟨.val .object, [.ptr (.env), .objArray, .val .int]⟩),
  ("SetObjectArrayElement", ⟨.val .void, [.ptr (.env), .objArray, .val .int, .val .object]⟩),
  ("NewString", ⟨.str, [.ptr (.env), .cptr (.val .char), .val .int]⟩),
  ("GetStringLength", ⟨.val .int, [.ptr (.env), .str]⟩),
  ("GetStringChars", ⟨.cptr (.val .char), [.ptr (.env), .str, .ptr (.val .boolean)]⟩),
  ("ReleaseStringChars", ⟨.val .void, [.ptr (.env), .str, .cptr (.val .char)]⟩),
  ("NewStringUTF", ⟨.str, [.ptr (.env), .cptr (.cchar)]⟩),
  ("GetStringUTFLength", ⟨.val .int, [.ptr (.env), .str]⟩),
  ("GetStringUTFChars", ⟨.cptr (.cchar), [.ptr (.env), .str, .ptr (.val .boolean)]⟩),
  ("ReleaseStringUTFChars", ⟨.val .void, [.ptr (.env), .str, .cptr (.cchar)]⟩),
  ("GetStringRegion", ⟨.val .void, [.ptr (.env), .str, .val .int, .val .int, .ptr (.val .char)]⟩),
  ("GetStringUTFRegion", ⟨.val .void, [.ptr (.env), .str, .val .int, .val .int, .ptr (.cchar)]⟩),
  ("NewDirectByteBuffer", ⟨.val .object, [.ptr (.env), .ptr (.val .void), .val .long]⟩),
  ("GetDirectBufferAddress", ⟨.ptr (.val .void), [.ptr (.env), .val .object]⟩),
  ("GetDirectBufferCapacity", ⟨.val .long, [.ptr (.env), .val .object]⟩)]

/-- What a method is called on, src/jnivm/internal/method.h:15-35: the parameters between environment and
method id. -/
inductive Target where
  | obj | objCls | cls
deriving DecidableEq, Repr

def Target.params : Target → List CTy
  | .obj => [.val .object]
  | .objCls => [.val .object, .cls]
  | .cls => [.cls]

/-- How the arguments of a call are passed. -/
inductive ArgForm where
  | variadic | vaList | array
deriving DecidableEq, Repr

/-- An expression in the initialisers of the tables: it names a function or a set of overloads. -/
inductive Entry where
  | null
  | fn (name : String)
  /-- `FindClass<ReturnNull>` -/
  | findClass
  /-- `MDispatch<t, …>::CallMethod` -/
  | call (t : JTy) (on : Target)
  /-- `GetMethodID<isStatic, ReturnNull>` -/
  | methodID (isStatic : Bool)
  | fieldID (isStatic : Bool)
  /-- `GetField<ReturnNull, t, jobject or jclass>` -/
  | getField (t : JTy) (on : Target)
  | setField (t : JTy) (on : Target)
  | newArray (t : JTy)
  | getElements (t : JTy)
  | releaseElements (t : JTy)
  | getRegion (t : JTy)
  | setRegion (t : JTy)
  /-- A lambda in the constructor of `VM`. -/
  | lambda (name : String)
deriving DecidableEq, Repr

/-- One function of the VM. -/
inductive Impl where
  | fn (name : String)
  | findClass
  | call (t : JTy) (on : Target) (form : ArgForm)
  | methodID (isStatic : Bool)
  | fieldID (isStatic : Bool)
  | getField (t : JTy) (on : Target)
  | setField (t : JTy) (on : Target)
  | newArray (t : JTy)
  | getElements (t : JTy)
  | releaseElements (t : JTy)
  | getRegion (t : JTy)
  | setRegion (t : JTy)
  | lambda (name : String)
deriving DecidableEq, Repr

/-- `JNITypes<t>::Array`, include/jnivm/jnitypes.h:130-223. -/
def arrayTy : JTy → CTy
  | .object => .objArray
  | .void => .array
  | t => .primArray t

/-- The lambdas of the invoke interface and their types, src/jnivm/vm.cpp:464-512. -/
def lambdas : List (String × CFn) := [
  ("destroy", ⟨.val .int, [.ptr .vm]⟩),
  ("attach", ⟨.val .int, [.ptr .vm, .ptr (.ptr .env), .ptr (.val .void)]⟩),
  ("detach", ⟨.val .int, [.ptr .vm]⟩),
  ("getEnv", ⟨.val .int, [.ptr .vm, .ptr (.ptr (.val .void)), .val .int]⟩),
  ("attachDaemon", ⟨.val .int, [.ptr .vm, .ptr (.ptr .env), .ptr (.val .void)]⟩)]

/-- The functions an expression may denote with their types: src/jnivm/internal/method.h:8-35,
src/jnivm/internal/field.hpp:6-10, src/jnivm/internal/array.hpp:11-19, src/jnivm/vm.cpp:28-29. -/
def Entry.overloads : Entry → List (Impl × CFn)
  | .null => []
  | .fn n => (plainFns.filter (·.1 == n)).map fun f => (.fn n, f.2)
  | .findClass => [(.findClass, ⟨.cls, [.ptr .env, .cptr .cchar]⟩)]
  | .call t on => [
      (.call t on .vaList, ⟨.val t, .ptr .env :: on.params ++ [.methodID, .vaList]⟩),
      (.call t on .variadic, ⟨.val t, .ptr .env :: on.params ++ [.methodID, .dots]⟩),
      (.call t .obj .array, ⟨.val t, .ptr .env :: Target.params .obj ++ [.methodID, .ptr .jvalue]⟩),
      (.call t .objCls .array, ⟨.val t, .ptr .env :: Target.params .objCls ++ [.methodID, .ptr .jvalue]⟩),
      (.call t .cls .array, ⟨.val t, .ptr .env :: Target.params .cls ++ [.methodID, .ptr .jvalue]⟩)]
  | .methodID st => [(.methodID st, ⟨.methodID, [.ptr .env, .cls, .cptr .cchar, .cptr .cchar]⟩)]
  | .fieldID st => [(.fieldID st, ⟨.fieldID, [.ptr .env, .cls, .cptr .cchar, .cptr .cchar]⟩)]
  | .getField t on => [(.getField t on, ⟨.val t, .ptr .env :: on.params ++ [.fieldID]⟩)]
  | .setField t on => [(.setField t on, ⟨.val .void, .ptr .env :: on.params ++ [.fieldID, .val t]⟩)]
  | .newArray t => [(.newArray t, ⟨arrayTy t, [.ptr .env, .val .int]⟩)]
  | .getElements t => [(.getElements t, ⟨.ptr (.val t), [.ptr .env, arrayTy t, .ptr (.val .boolean)]⟩)]
  | .releaseElements t => [(.releaseElements t, ⟨.val .void, [.ptr .env, arrayTy t, .ptr (.val t), .val .int]⟩)]
  | .getRegion t =>
    [(.getRegion t, ⟨.val .void, [.ptr .env, arrayTy t, .val .int, .val .int, .ptr (.val t)]⟩)]
  | .setRegion t =>
    [(.setRegion t, ⟨.val .void, [.ptr .env, arrayTy t, .val .int, .val .int, .cptr (.val t)]⟩)]
  | .lambda n => (lambdas.filter (·.1 == n)).map fun f => (.lambda n, f.2)

/-- The functions an expression may denote where a pointer to a function of type `ty` is needed: the
overload with that type ([over.over]); the program compiles only if there is exactly one. -/
def Entry.resolve (e : Entry) (ty : CFn) : List Impl :=
  (e.overloads.filter (·.2 = ty)).map (·.1)

/-- The template arguments `jnitypes`, src/jnivm/vm.cpp:457. -/
def jniTypes : List JTy :=
  [.object, .boolean, .byte, .char, .short, .int, .long, .float, .double, .void]

/-- `composeType`: every type three times, src/jnivm/vm.cpp:346-353. -/
def composeType : List JTy := jniTypes.flatMap fun t => [t, t, t]

/-- `IM1`: all but the last type. -/
def typesM1 : List JTy := jniTypes.dropLast

/-- `IM2 + 1`: all but the first and the last type. -/
def typesM2 : List JTy := jniTypes.dropLast.drop 1

/-- `InterfaceFactory::…::Get`, src/jnivm/vm.cpp:355-453. -/
def nativeTable : List Entry :=
  [.null, .null, .null, .null] ++
  [.fn "GetVersion", .fn "DefineClass", .findClass, .fn "FromReflectedMethod", .fn "FromReflectedField",
   .fn "ToReflectedMethod", .fn "GetSuperclass", .fn "IsAssignableFrom", .fn "ToReflectedField", .fn "Throw",
   .fn "ThrowNew", .fn "ExceptionOccurred", .fn "ExceptionDescribe", .fn "ExceptionClear", .fn "FatalError",
   .fn "PushLocalFrame", .fn "PopLocalFrame", .fn "NewGlobalRef", .fn "DeleteGlobalRef", .fn "DeleteLocalRef",
   .fn "IsSameObject", .fn "NewLocalRef", .fn "EnsureLocalCapacity", .fn "AllocObject",
   .call .object .cls, .call .object .cls, .call .object .cls, .fn "GetObjectClass", .fn "IsInstanceOf",
   .methodID false] ++
  composeType.map (.call · .obj) ++ composeType.map (.call · .objCls) ++
  [.fieldID false] ++ typesM1.map (.getField · .obj) ++ typesM1.map (.setField · .obj) ++
  [.methodID true] ++ composeType.map (.call · .cls) ++
  [.fieldID true] ++ typesM1.map (.getField · .cls) ++ typesM1.map (.setField · .cls) ++
  [.fn "NewString", .fn "GetStringLength", .fn "GetStringChars", .fn "ReleaseStringChars", .fn "NewStringUTF",
   .fn "GetStringUTFLength", .fn "GetStringUTFChars", .fn "ReleaseStringUTFChars", .fn "GetArrayLength",
   .fn "NewObjectArray", .fn "GetObjectArrayElement", .fn "SetObjectArrayElement"] ++
  typesM2.map .newArray ++ typesM2.map .getElements ++ typesM2.map .releaseElements ++
  typesM2.map .getRegion ++ typesM2.map .setRegion ++
  [.fn "RegisterNatives", .fn "UnregisterNatives", .fn "MonitorEnter", .fn "MonitorExit", .fn "GetJavaVM",
   .fn "GetStringRegion", .fn "GetStringUTFRegion", .getElements .void, .releaseElements .void,
   .fn "GetStringChars", .fn "ReleaseStringChars", .fn "NewWeakGlobalRef", .fn "DeleteWeakGlobalRef",
   .fn "ExceptionCheck", .fn "NewDirectByteBuffer", .fn "GetDirectBufferAddress",
   .fn "GetDirectBufferCapacity", .fn "GetObjectRefType"]

/-- The initialiser of `iinterface`, src/jnivm/vm.cpp:460-513; the first pointer is the VM itself. -/
def invokeTable : List Entry :=
  [.null, .null, .null, .lambda "destroy", .lambda "attach", .lambda "detach", .lambda "getEnv",
   .lambda "attachDaemon"]

end Jnivm
