import Verif.Model.Table
/-!
The member functions of `JNIEnv` and `JavaVM` in C++: include/jni.h:435-891, 908-922.  Each calls one entry of
the function table.  The lists `nativeWrappers` and `invokeWrappers` are transcribed from the sources by a
script that expands the macros of lines 506-528, 549-574 and 638-663.
-/
namespace Jnivm

/-- What a member function passes on. -/
inductive WArg where
  /-- `this` -/
  | this
  /-- one of its parameters -/
  | param (i : Nat)
  /-- the `va_list` started by `va_start(args, p)`, `p` being the parameter `i` -/
  | rest (i : Nat)
deriving DecidableEq, Repr

/-- A member function: its name and type, the entry it calls, the arguments of that call, and whether it returns
its result. -/
structure Wrapper where
  name : String
  fn : CFn
  slot : String
  args : List WArg
  returns : Bool
deriving DecidableEq, Repr

/-- `struct _JNIEnv`, include/jni.h:435-891. -/
def nativeWrappers : List Wrapper := [
  ⟨"GetVersion", ⟨.val .int, []⟩, "GetVersion", [.this], true⟩,
  ⟨"DefineClass", ⟨.cls, [.cptr (.cchar), .val .object, .cptr (.val .byte), .val .int]⟩, "DefineClass", [.this,
    .param 0, .param 1, .param 2, .param 3], true⟩,
  ⟨"FindClass", ⟨.cls, [.cptr (.cchar)]⟩, "FindClass", [.this, .param 0], true⟩,
  ⟨"FromReflectedMethod", ⟨.methodID, [.val .object]⟩, "FromReflectedMethod", [.this, .param 0], true⟩,
  ⟨"FromReflectedField", ⟨.fieldID, [.val .object]⟩, "FromReflectedField", [.this, .param 0], true⟩,
  ⟨"ToReflectedMethod", ⟨.val .object, [.cls, .methodID, .val .boolean]⟩, "ToReflectedMethod", [.this, .param 0,
    .param 1, .param 2], true⟩,
  ⟨"GetSuperclass", ⟨.cls, [.cls]⟩, "GetSuperclass", [.this, .param 0], true⟩,
  ⟨"IsAssignableFrom", ⟨.val .boolean, [.cls, .cls]⟩, "IsAssignableFrom", [.this, .param 0, .param 1], true⟩,
  ⟨"ToReflectedField", ⟨.val .object, [.cls, .fieldID, .val .boolean]⟩, "ToReflectedField", [.this, .param 0,
    .param 1, .param 2], true⟩,
  ⟨"Throw", ⟨.val .int, [.throwable]⟩, "Throw", [.this, .param 0], true⟩,
  ⟨"ThrowNew", ⟨.val .int, [.cls, .cptr (.cchar)]⟩, "ThrowNew", [.this, .param 0, .param 1], true⟩,
  ⟨"ExceptionOccurred", ⟨.throwable, []⟩, "ExceptionOccurred", [.this], true⟩,
  ⟨"ExceptionDescribe", ⟨.val .void, []⟩, "ExceptionDescribe", [.this], false⟩,
  ⟨"ExceptionClear", ⟨.val .void, []⟩, "ExceptionClear", [.this], false⟩,
  ⟨"FatalError", ⟨.val .void, [.cptr (.cchar)]⟩, "FatalError", [.this, .param 0], false⟩,
  ⟨"PushLocalFrame", ⟨.val .int, [.val .int]⟩, "PushLocalFrame", [.this, .param 0], true⟩,
  ⟨"PopLocalFrame", ⟨.val .object, [.val .object]⟩, "PopLocalFrame", [.this, .param 0], true⟩,
  ⟨"NewGlobalRef", ⟨.val .object, [.val .object]⟩, "NewGlobalRef", [.this, .param 0], true⟩,
  ⟨"DeleteGlobalRef", ⟨.val .void, [.val .object]⟩, "DeleteGlobalRef", [.this, .param 0], false⟩,
  ⟨"DeleteLocalRef", ⟨.val .void, [.val .object]⟩, "DeleteLocalRef", [.this, .param 0], false⟩,
  ⟨"IsSameObject", ⟨.val .boolean, [.val .object, .val .object]⟩, "IsSameObject", [.this, .param 0, .param 1], true⟩,
  ⟨"NewLocalRef", ⟨.val .object, [.val .object]⟩, "NewLocalRef", [.this, .param 0], true⟩,
  ⟨"EnsureLocalCapacity", ⟨.val .int, [.val .int]⟩, "EnsureLocalCapacity", [.this, .param 0], true⟩,
  ⟨"AllocObject", ⟨.val .object, [.cls]⟩, "AllocObject", [.this, .param 0], true⟩,
  ⟨"NewObject", ⟨.val .object, [.cls, .methodID, .dots]⟩, "NewObjectV", [.this, .param 0, .param 1, .rest 1], true⟩,
  ⟨"NewObjectV", ⟨.val .object, [.cls, .methodID, .vaList]⟩, "NewObjectV", [.this, .param 0, .param 1, .param 2],
    true⟩,
  ⟨"NewObjectA", ⟨.val .object, [.cls, .methodID, .ptr (.jvalue)]⟩, "NewObjectA", [.this, .param 0, .param 1,
    .param 2], true⟩,
  ⟨"GetObjectClass", ⟨.cls, [.val .object]⟩, "GetObjectClass", [.this, .param 0], true⟩,
  ⟨"IsInstanceOf", ⟨.val .boolean, [.val .object, .cls]⟩, "IsInstanceOf", [.this, .param 0, .param 1], true⟩,
  ⟨"GetMethodID", ⟨.methodID, [.cls, .cptr (.cchar), .cptr (.cchar)]⟩, "GetMethodID", [.this, .param 0, .param 1,
    .param 2], true⟩,
  ⟨"CallObjectMethod", ⟨.val .object, [.val .object, .methodID, .dots]⟩, "CallObjectMethodV", [.this, .param 0,
    .param 1, .rest 1], true⟩,
  ⟨"CallObjectMethodV", ⟨.val .object, [.val .object, .methodID, .vaList]⟩, "CallObjectMethodV", [.this, .param 0,
    .param 1, .param 2], true⟩,
  ⟨"CallObjectMethodA", ⟨.val .object, [.val .object, .methodID, .ptr (.jvalue)]⟩, "CallObjectMethodA", [.this,
    .param 0, .param 1, .param 2], true⟩,
  ⟨"CallBooleanMethod", ⟨.val .boolean, [.val .object, .methodID, .dots]⟩, "CallBooleanMethodV", [.this, .param 0,
    .param 1, .rest 1], true⟩,
  ⟨"CallBooleanMethodV", ⟨.val .boolean, [.val .object, .methodID, .vaList]⟩, "CallBooleanMethodV", [.this,
    .param 0, .param 1, .param 2], true⟩,
  ⟨"CallBooleanMethodA", ⟨.val .boolean, [.val .object, .methodID, .ptr (.jvalue)]⟩, "CallBooleanMethodA", [.this,
    .param 0, .param 1, .param 2], true⟩,
  ⟨"CallByteMethod", ⟨.val .byte, [.val .object, .methodID, .dots]⟩, "CallByteMethodV", [.this, .param 0, .param 1,
    .rest 1], true⟩,
  ⟨"CallByteMethodV", ⟨.val .byte, [.val .object, .methodID, .vaList]⟩, "CallByteMethodV", [.this, .param 0,
    .param 1, .param 2], true⟩,
  ⟨"CallByteMethodA", ⟨.val .byte, [.val .object, .methodID, .ptr (.jvalue)]⟩, "CallByteMethodA", [.this, .param 0,
    .param 1, .param 2], true⟩,
  ⟨"CallCharMethod", ⟨.val .char, [.val .object, .methodID, .dots]⟩, "CallCharMethodV", [.this, .param 0, .param 1,
    .rest 1], true⟩,
  ⟨"CallCharMethodV", ⟨.val .char, [.val .object, .methodID, .vaList]⟩, "CallCharMethodV", [.this, .param 0,
    .param 1, .param 2], true⟩,
  ⟨"CallCharMethodA", ⟨.val .char, [.val .object, .methodID, .ptr (.jvalue)]⟩, "CallCharMethodA", [.this, .param 0,
    .param 1, .param 2], true⟩,
  ⟨"CallShortMethod", ⟨.val .short, [.val .object, .methodID, .dots]⟩, "CallShortMethodV", [.this, .param 0,
    .param 1, .rest 1], true⟩,
  ⟨"CallShortMethodV", ⟨.val .short, [.val .object, .methodID, .vaList]⟩, "CallShortMethodV", [.this, .param 0,
    .param 1, .param 2], true⟩,
  ⟨"CallShortMethodA", ⟨.val .short, [.val .object, .methodID, .ptr (.jvalue)]⟩, "CallShortMethodA", [.this,
    .param 0, .param 1, .param 2], true⟩,
  ⟨"CallIntMethod", ⟨.val .int, [.val .object, .methodID, .dots]⟩, "CallIntMethodV", [.this, .param 0, .param 1,
    .rest 1], true⟩,
  ⟨"CallIntMethodV", ⟨.val .int, [.val .object, .methodID, .vaList]⟩, "CallIntMethodV", [.this, .param 0, .param 1,
    .param 2], true⟩,
  ⟨"CallIntMethodA", ⟨.val .int, [.val .object, .methodID, .ptr (.jvalue)]⟩, "CallIntMethodA", [.this, .param 0,
    .param 1, .param 2], true⟩,
  ⟨"CallLongMethod", ⟨.val .long, [.val .object, .methodID, .dots]⟩, "CallLongMethodV", [.this, .param 0, .param 1,
    .rest 1], true⟩,
  ⟨"CallLongMethodV", ⟨.val .long, [.val .object, .methodID, .vaList]⟩, "CallLongMethodV", [.this, .param 0,
    .param 1, .param 2], true⟩,
  ⟨"CallLongMethodA", ⟨.val .long, [.val .object, .methodID, .ptr (.jvalue)]⟩, "CallLongMethodA", [.this, .param 0,
    .param 1, .param 2], true⟩,
  ⟨"CallFloatMethod", ⟨.val .float, [.val .object, .methodID, .dots]⟩, "CallFloatMethodV", [.this, .param 0,
    .param 1, .rest 1], true⟩,
  ⟨"CallFloatMethodV", ⟨.val .float, [.val .object, .methodID, .vaList]⟩, "CallFloatMethodV", [.this, .param 0,
    .param 1, .param 2], true⟩,
  ⟨"CallFloatMethodA", ⟨.val .float, [.val .object, .methodID, .ptr (.jvalue)]⟩, "CallFloatMethodA", [.this,
    .param 0, .param 1, .param 2], true⟩,
  ⟨"CallDoubleMethod", ⟨.val .double, [.val .object, .methodID, .dots]⟩, "CallDoubleMethodV", [.this, .param 0,
    .param 1, .rest 1], true⟩,
  ⟨"CallDoubleMethodV", ⟨.val .double, [.val .object, .methodID, .vaList]⟩, "CallDoubleMethodV", [.this, .param 0,
    .param 1, .param 2], true⟩,
  ⟨"CallDoubleMethodA", ⟨.val .double, [.val .object, .methodID, .ptr (.jvalue)]⟩, "CallDoubleMethodA", [.this,
    .param 0, .param 1, .param 2], true⟩,
  ⟨"CallVoidMethod", ⟨.val .void, [.val .object, .methodID, .dots]⟩, "CallVoidMethodV", [.this, .param 0, .param 1,
    .rest 1], false⟩,
  ⟨"CallVoidMethodV", ⟨.val .void, [.val .object, .methodID, .vaList]⟩, "CallVoidMethodV", [.this, .param 0,
    .param 1, .param 2], false⟩,
  ⟨"CallVoidMethodA", ⟨.val .void, [.val .object, .methodID, .ptr (.jvalue)]⟩, "CallVoidMethodA", [.this, .param 0,
    .param 1, .param 2], false⟩,
  ⟨"CallNonvirtualObjectMethod", ⟨.val .object, [.val .object, .cls, .methodID, .dots]⟩,
    "CallNonvirtualObjectMethodV", [.this, .param 0, .param 1, .param 2, .rest 2], true⟩,
  ⟨"CallNonvirtualObjectMethodV", ⟨.val .object, [.val .object, .cls, .methodID, .vaList]⟩,
    "CallNonvirtualObjectMethodV", [.this, .param 0, .param 1, .param 2, .param 3], true⟩,
  ⟨"CallNonvirtualObjectMethodA", ⟨.val .object, [.val .object, .cls, .methodID, .ptr (.jvalue)]⟩,
    "CallNonvirtualObjectMethodA", [.this, .param 0, .param 1, .param 2, .param 3], true⟩,
  ⟨"CallNonvirtualBooleanMethod", ⟨.val .boolean, [.val .object, .cls, .methodID, .dots]⟩,
    "CallNonvirtualBooleanMethodV", [.this, .param 0, .param 1, .param 2, .rest 2], true⟩,
  ⟨"CallNonvirtualBooleanMethodV", ⟨.val .boolean, [.val .object, .cls, .methodID, .vaList]⟩,
    "CallNonvirtualBooleanMethodV", [.this, .param 0, .param 1, .param 2, .param 3], true⟩,
  ⟨"CallNonvirtualBooleanMethodA", ⟨.val .boolean, [.val .object, .cls, .methodID, .ptr (.jvalue)]⟩,
    "CallNonvirtualBooleanMethodA", [.this, .param 0, .param 1, .param 2, .param 3], true⟩,
  ⟨"CallNonvirtualByteMethod", ⟨.val .byte, [.val .object, .cls, .methodID, .dots]⟩, "CallNonvirtualByteMethodV",
    [.this, .param 0, .param 1, .param 2, .rest 2], true⟩,
  ⟨"CallNonvirtualByteMethodV", ⟨.val .byte, [.val .object, .cls, .methodID, .vaList]⟩,
    "CallNonvirtualByteMethodV", [.this, .param 0, .param 1, .param 2, .param 3], true⟩,
  ⟨"CallNonvirtualByteMethodA", ⟨.val .byte, [.val .object, .cls, .methodID, .ptr (.jvalue)]⟩,
    "CallNonvirtualByteMethodA", [.this, .param 0, .param 1, .param 2, .param 3], true⟩,
  ⟨"CallNonvirtualCharMethod", ⟨.val .char, [.val .object, .cls, .methodID, .dots]⟩, "CallNonvirtualCharMethodV",
    [.this, .param 0, .param 1, .param 2, .rest 2], true⟩,
  ⟨"CallNonvirtualCharMethodV", ⟨.val .char, [.val .object, .cls, .methodID, .vaList]⟩,
    "CallNonvirtualCharMethodV", [.this, .param 0, .param 1, .param 2, .param 3], true⟩,
  ⟨"CallNonvirtualCharMethodA", ⟨.val .char, [.val .object, .cls, .methodID, .ptr (.jvalue)]⟩,
    "CallNonvirtualCharMethodA", [.this, .param 0, .param 1, .param 2, .param 3], true⟩,
  ⟨"CallNonvirtualShortMethod", ⟨.val .short, [.val .object, .cls, .methodID, .dots]⟩,
    "CallNonvirtualShortMethodV", [.this, .param 0, .param 1, .param 2, .rest 2], true⟩,
  ⟨"CallNonvirtualShortMethodV", ⟨.val .short, [.val .object, .cls, .methodID, .vaList]⟩,
    "CallNonvirtualShortMethodV", [.this, .param 0, .param 1, .param 2, .param 3], true⟩,
  ⟨"CallNonvirtualShortMethodA", ⟨.val .short, [.val .object, .cls, .methodID, .ptr (.jvalue)]⟩,
    "CallNonvirtualShortMethodA", [.this, .param 0, .param 1, .param 2, .param 3], true⟩,
  ⟨"CallNonvirtualIntMethod", ⟨.val .int, [.val .object, .cls, .methodID, .dots]⟩, "CallNonvirtualIntMethodV",
    [.this, .param 0, .param 1, .param 2, .rest 2], true⟩,
  ⟨"CallNonvirtualIntMethodV", ⟨.val .int, [.val .object, .cls, .methodID, .vaList]⟩, "CallNonvirtualIntMethodV",
    [.this, .param 0, .param 1, .param 2, .param 3], true⟩,
  ⟨"CallNonvirtualIntMethodA", ⟨.val .int, [.val .object, .cls, .methodID, .ptr (.jvalue)]⟩,
    "CallNonvirtualIntMethodA", [.this, .param 0, .param 1, .param 2, .param 3], true⟩,
  ⟨"CallNonvirtualLongMethod", ⟨.val .long, [.val .object, .cls, .methodID, .dots]⟩, "CallNonvirtualLongMethodV",
    [.this, .param 0, .param 1, .param 2, .rest 2], true⟩,
  ⟨"CallNonvirtualLongMethodV", ⟨.val .long, [.val .object, .cls, .methodID, .vaList]⟩,
    "CallNonvirtualLongMethodV", [.this, .param 0, .param 1, .param 2, .param 3], true⟩,
  ⟨"CallNonvirtualLongMethodA", ⟨.val .long, [.val .object, .cls, .methodID, .ptr (.jvalue)]⟩,
    "CallNonvirtualLongMethodA", [.this, .param 0, .param 1, .param 2, .param 3], true⟩,
  ⟨"CallNonvirtualFloatMethod", ⟨.val .float, [.val .object, .cls, .methodID, .dots]⟩,
    "CallNonvirtualFloatMethodV", [.this, .param 0, .param 1, .param 2, .rest 2], true⟩,
  ⟨"CallNonvirtualFloatMethodV", ⟨.val .float, [.val .object, .cls, .methodID, .vaList]⟩,
    "CallNonvirtualFloatMethodV", [.this, .param 0, .param 1, .param 2, .param 3], true⟩,
  ⟨"CallNonvirtualFloatMethodA", ⟨.val .float, [.val .object, .cls, .methodID, .ptr (.jvalue)]⟩,
    "CallNonvirtualFloatMethodA", [.this, .param 0, .param 1, .param 2, .param 3], true⟩,
  ⟨"CallNonvirtualDoubleMethod", ⟨.val .double, [.val .object, .cls, .methodID, .dots]⟩,
    "CallNonvirtualDoubleMethodV", [.this, .param 0, .param 1, .param 2, .rest 2], true⟩,
  ⟨"CallNonvirtualDoubleMethodV", ⟨.val .double, [.val .object, .cls, .methodID, .vaList]⟩,
    "CallNonvirtualDoubleMethodV", [.this, .param 0, .param 1, .param 2, .param 3], true⟩,
  ⟨"CallNonvirtualDoubleMethodA", ⟨.val .double, [.val .object, .cls, .methodID, .ptr (.jvalue)]⟩,
    "CallNonvirtualDoubleMethodA", [.this, .param 0, .param 1, .param 2, .param 3], true⟩,
  ⟨"CallNonvirtualVoidMethod", ⟨.val .void, [.val .object, .cls, .methodID, .dots]⟩, "CallNonvirtualVoidMethodV",
    [.this, .param 0, .param 1, .param 2, .rest 2], false⟩,
  ⟨"CallNonvirtualVoidMethodV", ⟨.val .void, [.val .object, .cls, .methodID, .vaList]⟩,
    "CallNonvirtualVoidMethodV", [.this, .param 0, .param 1, .param 2, .param 3], false⟩,
  ⟨"CallNonvirtualVoidMethodA", ⟨.val .void, [.val .object, .cls, .methodID, .ptr (.jvalue)]⟩,
    "CallNonvirtualVoidMethodA", [.this, .param 0, .param 1, .param 2, .param 3], false⟩,
  ⟨"GetFieldID", ⟨.fieldID, [.cls, .cptr (.cchar), .cptr (.cchar)]⟩, "GetFieldID", [.this, .param 0, .param 1,
    .param 2], true⟩,
  ⟨"GetObjectField", ⟨.val .object, [.val .object, .fieldID]⟩, "GetObjectField", [.this, .param 0, .param 1], true⟩,
  ⟨"GetBooleanField", ⟨.val .boolean, [.val .object, .fieldID]⟩, "GetBooleanField", [.this, .param 0, .param 1],
    true⟩,
  ⟨"GetByteField", ⟨.val .byte, [.val .object, .fieldID]⟩, "GetByteField", [.this, .param 0, .param 1], true⟩,
  ⟨"GetCharField", ⟨.val .char, [.val .object, .fieldID]⟩, "GetCharField", [.this, .param 0, .param 1], true⟩,
  ⟨"GetShortField", ⟨.val .short, [.val .object, .fieldID]⟩, "GetShortField", [.this, .param 0, .param 1], true⟩,
  ⟨"GetIntField", ⟨.val .int, [.val .object, .fieldID]⟩, "GetIntField", [.this, .param 0, .param 1], true⟩,
  ⟨"GetLongField", ⟨.val .long, [.val .object, .fieldID]⟩, "GetLongField", [.this, .param 0, .param 1], true⟩,
  ⟨"GetFloatField", ⟨.val .float, [.val .object, .fieldID]⟩, "GetFloatField", [.this, .param 0, .param 1], true⟩,
  ⟨"GetDoubleField", ⟨.val .double, [.val .object, .fieldID]⟩, "GetDoubleField", [.this, .param 0, .param 1], true⟩,
  ⟨"SetObjectField", ⟨.val .void, [.val .object, .fieldID, .val .object]⟩, "SetObjectField", [.this, .param 0,
    .param 1, .param 2], false⟩,
  ⟨"SetBooleanField", ⟨.val .void, [.val .object, .fieldID, .val .boolean]⟩, "SetBooleanField", [.this, .param 0,
    .param 1, .param 2], false⟩,
  ⟨"SetByteField", ⟨.val .void, [.val .object, .fieldID, .val .byte]⟩, "SetByteField", [.this, .param 0, .param 1,
    .param 2], false⟩,
  ⟨"SetCharField", ⟨.val .void, [.val .object, .fieldID, .val .char]⟩, "SetCharField", [.this, .param 0, .param 1,
    .param 2], false⟩,
  ⟨"SetShortField", ⟨.val .void, [.val .object, .fieldID, .val .short]⟩, "SetShortField", [.this, .param 0,
    .param 1, .param 2], false⟩,
  ⟨"SetIntField", ⟨.val .void, [.val .object, .fieldID, .val .int]⟩, "SetIntField", [.this, .param 0, .param 1,
    .param 2], false⟩,
  ⟨"SetLongField", ⟨.val .void, [.val .object, .fieldID, .val .long]⟩, "SetLongField", [.this, .param 0, .param 1,
    .param 2], false⟩,
  ⟨"SetFloatField", ⟨.val .void, [.val .object, .fieldID, .val .float]⟩, "SetFloatField", [.this, .param 0,
    .param 1, .param 2], false⟩,
  ⟨"SetDoubleField", ⟨.val .void, [.val .object, .fieldID, .val .double]⟩, "SetDoubleField", [.this, .param 0,
    .param 1, .param 2], false⟩,
  ⟨"GetStaticMethodID", ⟨.methodID, [.cls, .cptr (.cchar), .cptr (.cchar)]⟩, "GetStaticMethodID", [.this, .param 0,
    .param 1, .param 2], true⟩,
  ⟨"CallStaticObjectMethod", ⟨.val .object, [.cls, .methodID, .dots]⟩, "CallStaticObjectMethodV", [.this, .param 0,
    .param 1, .rest 1], true⟩,
  ⟨"CallStaticObjectMethodV", ⟨.val .object, [.cls, .methodID, .vaList]⟩, "CallStaticObjectMethodV", [.this,
    .param 0, .param 1, .param 2], true⟩,
  ⟨"CallStaticObjectMethodA", ⟨.val .object, [.cls, .methodID, .ptr (.jvalue)]⟩, "CallStaticObjectMethodA", [.this,
    .param 0, .param 1, .param 2], true⟩,
  ⟨"CallStaticBooleanMethod", ⟨.val .boolean, [.cls, .methodID, .dots]⟩, "CallStaticBooleanMethodV", [.this,
    .param 0, .param 1, .rest 1], true⟩,
  ⟨"CallStaticBooleanMethodV", ⟨.val .boolean, [.cls, .methodID, .vaList]⟩, "CallStaticBooleanMethodV", [.this,
    .param 0, .param 1, .param 2], true⟩,
  ⟨"CallStaticBooleanMethodA", ⟨.val .boolean, [.cls, .methodID, .ptr (.jvalue)]⟩, "CallStaticBooleanMethodA",
    [.this, .param 0, .param 1, .param 2], true⟩,
  ⟨"CallStaticByteMethod", ⟨.val .byte, [.cls, .methodID, .dots]⟩, "CallStaticByteMethodV", [.this, .param 0,
    .param 1, .rest 1], true⟩,
  ⟨"CallStaticByteMethodV", ⟨.val .byte, [.cls, .methodID, .vaList]⟩, "CallStaticByteMethodV", [.this, .param 0,
    .param 1, .param 2], true⟩,
  ⟨"CallStaticByteMethodA", ⟨.val .byte, [.cls, .methodID, .ptr (.jvalue)]⟩, "CallStaticByteMethodA", [.this,
    .param 0, .param 1, .param 2], true⟩,
  ⟨"CallStaticCharMethod", ⟨.val .char, [.cls, .methodID, .dots]⟩, "CallStaticCharMethodV", [.this, .param 0,
    .param 1, .rest 1], true⟩,
  ⟨"CallStaticCharMethodV", ⟨.val .char, [.cls, .methodID, .vaList]⟩, "CallStaticCharMethodV", [.this, .param 0,
    .param 1, .param 2], true⟩,
  ⟨"CallStaticCharMethodA", ⟨.val .char, [.cls, .methodID, .ptr (.jvalue)]⟩, "CallStaticCharMethodA", [.this,
    .param 0, .param 1, .param 2], true⟩,
  ⟨"CallStaticShortMethod", ⟨.val .short, [.cls, .methodID, .dots]⟩, "CallStaticShortMethodV", [.this, .param 0,
    .param 1, .rest 1], true⟩,
  ⟨"CallStaticShortMethodV", ⟨.val .short, [.cls, .methodID, .vaList]⟩, "CallStaticShortMethodV", [.this, .param 0,
    .param 1, .param 2], true⟩,
  ⟨"CallStaticShortMethodA", ⟨.val .short, [.cls, .methodID, .ptr (.jvalue)]⟩, "CallStaticShortMethodA", [.this,
    .param 0, .param 1, .param 2], true⟩,
  ⟨"CallStaticIntMethod", ⟨.val .int, [.cls, .methodID, .dots]⟩, "CallStaticIntMethodV", [.this, .param 0,
    .param 1, .rest 1], true⟩,
  ⟨"CallStaticIntMethodV", ⟨.val .int, [.cls, .methodID, .vaList]⟩, "CallStaticIntMethodV", [.this, .param 0,
    .param 1, .param 2], true⟩,
  ⟨"CallStaticIntMethodA", ⟨.val .int, [.cls, .methodID, .ptr (.jvalue)]⟩, "CallStaticIntMethodA", [.this,
    .param 0, .param 1, .param 2], true⟩,
  ⟨"CallStaticLongMethod", ⟨.val .long, [.cls, .methodID, .dots]⟩, "CallStaticLongMethodV", [.this, .param 0,
    .param 1, .rest 1], true⟩,
  ⟨"CallStaticLongMethodV", ⟨.val .long, [.cls, .methodID, .vaList]⟩, "CallStaticLongMethodV", [.this, .param 0,
    .param 1, .param 2], true⟩,
  ⟨"CallStaticLongMethodA", ⟨.val .long, [.cls, .methodID, .ptr (.jvalue)]⟩, "CallStaticLongMethodA", [.this,
    .param 0, .param 1, .param 2], true⟩,
  ⟨"CallStaticFloatMethod", ⟨.val .float, [.cls, .methodID, .dots]⟩, "CallStaticFloatMethodV", [.this, .param 0,
    .param 1, .rest 1], true⟩,
  ⟨"CallStaticFloatMethodV", ⟨.val .float, [.cls, .methodID, .vaList]⟩, "CallStaticFloatMethodV", [.this, .param 0,
    .param 1, .param 2], true⟩,
  ⟨"CallStaticFloatMethodA", ⟨.val .float, [.cls, .methodID, .ptr (.jvalue)]⟩, "CallStaticFloatMethodA", [.this,
    .param 0, .param 1, .param 2], true⟩,
  ⟨"CallStaticDoubleMethod", ⟨.val .double, [.cls, .methodID, .dots]⟩, "CallStaticDoubleMethodV", [.this, .param 0,
    .param 1, .rest 1], true⟩,
  ⟨"CallStaticDoubleMethodV", ⟨.val .double, [.cls, .methodID, .vaList]⟩, "CallStaticDoubleMethodV", [.this,
    .param 0, .param 1, .param 2], true⟩,
  ⟨"CallStaticDoubleMethodA", ⟨.val .double, [.cls, .methodID, .ptr (.jvalue)]⟩, "CallStaticDoubleMethodA", [.this,
    .param 0, .param 1, .param 2], true⟩,
  ⟨"CallStaticVoidMethod", ⟨.val .void, [.cls, .methodID, .dots]⟩, "CallStaticVoidMethodV", [.this, .param 0,
    .param 1, .rest 1], false⟩,
  ⟨"CallStaticVoidMethodV", ⟨.val .void, [.cls, .methodID, .vaList]⟩, "CallStaticVoidMethodV", [.this, .param 0,
    .param 1, .param 2], false⟩,
  ⟨"CallStaticVoidMethodA", ⟨.val .void, [.cls, .methodID, .ptr (.jvalue)]⟩, "CallStaticVoidMethodA", [.this,
    .param 0, .param 1, .param 2], false⟩,
  ⟨"GetStaticFieldID", ⟨.fieldID, [.cls, .cptr (.cchar), .cptr (.cchar)]⟩, "GetStaticFieldID", [.this, .param 0,
    .param 1, .param 2], true⟩,
  ⟨"GetStaticObjectField", ⟨.val .object, [.cls, .fieldID]⟩, "GetStaticObjectField", [.this, .param 0, .param 1],
    true⟩,
  ⟨"GetStaticBooleanField", ⟨.val .boolean, [.cls, .fieldID]⟩, "GetStaticBooleanField", [.this, .param 0,
    .param 1], true⟩,
  ⟨"GetStaticByteField", ⟨.val .byte, [.cls, .fieldID]⟩, "GetStaticByteField", [.this, .param 0, .param 1], true⟩,
  ⟨"GetStaticCharField", ⟨.val .char, [.cls, .fieldID]⟩, "GetStaticCharField", [.this, .param 0, .param 1], true⟩,
  ⟨"GetStaticShortField", ⟨.val .short, [.cls, .fieldID]⟩, "GetStaticShortField", [.this, .param 0, .param 1], true⟩,
  ⟨"GetStaticIntField", ⟨.val .int, [.cls, .fieldID]⟩, "GetStaticIntField", [.this, .param 0, .param 1], true⟩,
  ⟨"GetStaticLongField", ⟨.val .long, [.cls, .fieldID]⟩, "GetStaticLongField", [.this, .param 0, .param 1], true⟩,
  ⟨"GetStaticFloatField", ⟨.val .float, [.cls, .fieldID]⟩, "GetStaticFloatField", [.this, .param 0, .param 1], true⟩,
  ⟨"GetStaticDoubleField", ⟨.val .double, [.cls, .fieldID]⟩, "GetStaticDoubleField", [.this, .param 0, .param 1],
    true⟩,
  ⟨"SetStaticObjectField", ⟨.val .void, [.cls, .fieldID, .val .object]⟩, "SetStaticObjectField", [.this, .param 0,
    .param 1, .param 2], false⟩,
  ⟨"SetStaticBooleanField", ⟨.val .void, [.cls, .fieldID, .val .boolean]⟩, "SetStaticBooleanField", [.this,
    .param 0, .param 1, .param 2], false⟩,
  ⟨"SetStaticByteField", ⟨.val .void, [.cls, .fieldID, .val .byte]⟩, "SetStaticByteField", [.this, .param 0,
    .param 1, .param 2], false⟩,
  ⟨"SetStaticCharField", ⟨.val .void, [.cls, .fieldID, .val .char]⟩, "SetStaticCharField", [.this, .param 0,
    .param 1, .param 2], false⟩,
  ⟨"SetStaticShortField", ⟨.val .void, [.cls, .fieldID, .val .short]⟩, "SetStaticShortField", [.this, .param 0,
    .param 1, .param 2], false⟩,
  ⟨"SetStaticIntField", ⟨.val .void, [.cls, .fieldID, .val .int]⟩, "SetStaticIntField", [.this, .param 0, .param 1,
    .param 2], false⟩,
  ⟨"SetStaticLongField", ⟨.val .void, [.cls, .fieldID, .val .long]⟩, "SetStaticLongField", [.this, .param 0,
    .param 1, .param 2], false⟩,
  ⟨"SetStaticFloatField", ⟨.val .void, [.cls, .fieldID, .val .float]⟩, "SetStaticFloatField", [.this, .param 0,
    .param 1, .param 2], false⟩,
  ⟨"SetStaticDoubleField", ⟨.val .void, [.cls, .fieldID, .val .double]⟩, "SetStaticDoubleField", [.this, .param 0,
    .param 1, .param 2], false⟩,
  ⟨"NewString", ⟨.str, [.cptr (.val .char), .val .int]⟩, "NewString", [.this, .param 0, .param 1], true⟩,
  ⟨"GetStringLength", ⟨.val .int, [.str]⟩, "GetStringLength", [.this, .param 0], true⟩,
  ⟨"GetStringChars", ⟨.cptr (.val .char), [.str, .ptr (.val .boolean)]⟩, "GetStringChars", [.this, .param 0,
    .param 1], true⟩,
  ⟨"ReleaseStringChars", ⟨.val .void, [.str, .cptr (.val .char)]⟩, "ReleaseStringChars", [.this, .param 0,
    .param 1], false⟩,
  ⟨"NewStringUTF", ⟨.str, [.cptr (.cchar)]⟩, "NewStringUTF", [.this, .param 0], true⟩,
  ⟨"GetStringUTFLength", ⟨.val .int, [.str]⟩, "GetStringUTFLength", [.this, .param 0], true⟩,
  ⟨"GetStringUTFChars", ⟨.cptr (.cchar), [.str, .ptr (.val .boolean)]⟩, "GetStringUTFChars", [.this, .param 0,
    .param 1], true⟩,
  ⟨"ReleaseStringUTFChars", ⟨.val .void, [.str, .cptr (.cchar)]⟩, "ReleaseStringUTFChars", [.this, .param 0,
    .param 1], false⟩,
  ⟨"GetArrayLength", ⟨.val .int, [.array]⟩, "GetArrayLength", [.this, .param 0], true⟩,
  ⟨"NewObjectArray", ⟨.objArray, [.val .int, .cls, .val .object]⟩, "NewObjectArray", [.this, .param 0, .param 1,
    .param 2], true⟩,
  ⟨"GetObjectArrayElement", ⟨.val .object, [.objArray, .val .int]⟩, "GetObjectArrayElement", [.this, .param 0,
    .param 1], true⟩,
  ⟨"SetObjectArrayElement", ⟨.val .void, [.objArray, .val .int, .val .object]⟩, "SetObjectArrayElement", [.this,
    .param 0, .param 1, .param 2], false⟩,
  ⟨"NewBooleanArray", ⟨.primArray .boolean, [.val .int]⟩, "NewBooleanArray", [.this, .param 0], true⟩,
  ⟨"NewByteArray", ⟨.primArray .byte, [.val .int]⟩, "NewByteArray", [.this, .param 0], true⟩,
  ⟨"NewCharArray", ⟨.primArray .char, [.val .int]⟩, "NewCharArray", [.this, .param 0], true⟩,
  ⟨"NewShortArray", ⟨.primArray .short, [.val .int]⟩, "NewShortArray", [.this, .param 0], true⟩,
  ⟨"NewIntArray", ⟨.primArray .int, [.val .int]⟩, "NewIntArray", [.this, .param 0], true⟩,
  ⟨"NewLongArray", ⟨.primArray .long, [.val .int]⟩, "NewLongArray", [.this, .param 0], true⟩,
  ⟨"NewFloatArray", ⟨.primArray .float, [.val .int]⟩, "NewFloatArray", [.this, .param 0], true⟩,
  ⟨"NewDoubleArray", ⟨.primArray .double, [.val .int]⟩, "NewDoubleArray", [.this, .param 0], true⟩,
  ⟨"GetBooleanArrayElements", ⟨.ptr (.val .boolean), [.primArray .boolean, .ptr (.val .boolean)]⟩,
    "GetBooleanArrayElements", [.this, .param 0, .param 1], true⟩,
  ⟨"GetByteArrayElements", ⟨.ptr (.val .byte), [.primArray .byte, .ptr (.val .boolean)]⟩, "GetByteArrayElements",
    [.this, .param 0, .param 1], true⟩,
  ⟨"GetCharArrayElements", ⟨.ptr (.val .char), [.primArray .char, .ptr (.val .boolean)]⟩, "GetCharArrayElements",
    [.this, .param 0, .param 1], true⟩,
  ⟨"GetShortArrayElements", ⟨.ptr (.val .short), [.primArray .short, .ptr (.val .boolean)]⟩,
    "GetShortArrayElements", [.this, .param 0, .param 1], true⟩,
  ⟨"GetIntArrayElements", ⟨.ptr (.val .int), [.primArray .int, .ptr (.val .boolean)]⟩, "GetIntArrayElements",
    [.this, .param 0, .param 1], true⟩,
  ⟨"GetLongArrayElements", ⟨.ptr (.val .long), [.primArray .long, .ptr (.val .boolean)]⟩, "GetLongArrayElements",
    [.this, .param 0, .param 1], true⟩,
  ⟨"GetFloatArrayElements", ⟨.ptr (.val .float), [.primArray .float, .ptr (.val .boolean)]⟩,
    "GetFloatArrayElements", [.this, .param 0, .param 1], true⟩,
  ⟨"GetDoubleArrayElements", ⟨.ptr (.val .double), [.primArray .double, .ptr (.val .boolean)]⟩,
    "GetDoubleArrayElements", [.this, .param 0, .param 1], true⟩,
  ⟨"ReleaseBooleanArrayElements", ⟨.val .void, [.primArray .boolean, .ptr (.val .boolean), .val .int]⟩,
    "ReleaseBooleanArrayElements", [.this, .param 0, .param 1, .param 2], false⟩,
  ⟨"ReleaseByteArrayElements", ⟨.val .void, [.primArray .byte, .ptr (.val .byte), .val .int]⟩,
    "ReleaseByteArrayElements", [.this, .param 0, .param 1, .param 2], false⟩,
  ⟨"ReleaseCharArrayElements", ⟨.val .void, [.primArray .char, .ptr (.val .char), .val .int]⟩,
    "ReleaseCharArrayElements", [.this, .param 0, .param 1, .param 2], false⟩,
  ⟨"ReleaseShortArrayElements", ⟨.val .void, [.primArray .short, .ptr (.val .short), .val .int]⟩,
    "ReleaseShortArrayElements", [.this, .param 0, .param 1, .param 2], false⟩,
  ⟨"ReleaseIntArrayElements", ⟨.val .void, [.primArray .int, .ptr (.val .int), .val .int]⟩,
    "ReleaseIntArrayElements", [.this, .param 0, .param 1, .param 2], false⟩,
  ⟨"ReleaseLongArrayElements", ⟨.val .void, [.primArray .long, .ptr (.val .long), .val .int]⟩,
    "ReleaseLongArrayElements", [.this, .param 0, .param 1, .param 2], false⟩,
  ⟨"ReleaseFloatArrayElements", ⟨.val .void, [.primArray .float, .ptr (.val .float), .val .int]⟩,
    "ReleaseFloatArrayElements", [.this, .param 0, .param 1, .param 2], false⟩,
  ⟨"ReleaseDoubleArrayElements", ⟨.val .void, [.primArray .double, .ptr (.val .double), .val .int]⟩,
    "ReleaseDoubleArrayElements", [.this, .param 0, .param 1, .param 2], false⟩,
  ⟨"GetBooleanArrayRegion", ⟨.val .void, [.primArray .boolean, .val .int, .val .int, .ptr (.val .boolean)]⟩,
    "GetBooleanArrayRegion", [.this, .param 0, .param 1, .param 2, .param 3], false⟩,
  ⟨"GetByteArrayRegion", ⟨.val .void, [.primArray .byte, .val .int, .val .int, .ptr (.val .byte)]⟩,
    "GetByteArrayRegion", [.this, .param 0, .param 1, .param 2, .param 3], false⟩,
  ⟨"GetCharArrayRegion", ⟨.val .void, [.primArray .char, .val .int, .val .int, .ptr (.val .char)]⟩,
    "GetCharArrayRegion", [.this, .param 0, .param 1, .param 2, .param 3], false⟩,
  ⟨"GetShortArrayRegion", ⟨.val .void, [.primArray .short, .val .int, .val .int, .ptr (.val .short)]⟩,
    "GetShortArrayRegion", [.this, .param 0, .param 1, .param 2, .param 3], false⟩,
  ⟨"GetIntArrayRegion", ⟨.val .void, [.primArray .int, .val .int, .val .int, .ptr (.val .int)]⟩,
    "GetIntArrayRegion", [.this, .param 0, .param 1, .param 2, .param 3], false⟩,
  ⟨"GetLongArrayRegion", ⟨.val .void, [.primArray .long, .val .int, .val .int, .ptr (.val .long)]⟩,
    "GetLongArrayRegion", [.this, .param 0, .param 1, .param 2, .param 3], false⟩,
  ⟨"GetFloatArrayRegion", ⟨.val .void, [.primArray .float, .val .int, .val .int, .ptr (.val .float)]⟩,
    "GetFloatArrayRegion", [.this, .param 0, .param 1, .param 2, .param 3], false⟩,
  ⟨"GetDoubleArrayRegion", ⟨.val .void, [.primArray .double, .val .int, .val .int, .ptr (.val .double)]⟩,
    "GetDoubleArrayRegion", [.this, .param 0, .param 1, .param 2, .param 3], false⟩,
  ⟨"SetBooleanArrayRegion", ⟨.val .void, [.primArray .boolean, .val .int, .val .int, .cptr (.val .boolean)]⟩,
    "SetBooleanArrayRegion", [.this, .param 0, .param 1, .param 2, .param 3], false⟩,
  ⟨"SetByteArrayRegion", ⟨.val .void, [.primArray .byte, .val .int, .val .int, .cptr (.val .byte)]⟩,
    "SetByteArrayRegion", [.this, .param 0, .param 1, .param 2, .param 3], false⟩,
  ⟨"SetCharArrayRegion", ⟨.val .void, [.primArray .char, .val .int, .val .int, .cptr (.val .char)]⟩,
    "SetCharArrayRegion", [.this, .param 0, .param 1, .param 2, .param 3], false⟩,
  ⟨"SetShortArrayRegion", ⟨.val .void, [.primArray .short, .val .int, .val .int, .cptr (.val .short)]⟩,
    "SetShortArrayRegion", [.this, .param 0, .param 1, .param 2, .param 3], false⟩,
  ⟨"SetIntArrayRegion", ⟨.val .void, [.primArray .int, .val .int, .val .int, .cptr (.val .int)]⟩,
    "SetIntArrayRegion", [.this, .param 0, .param 1, .param 2, .param 3], false⟩,
  ⟨"SetLongArrayRegion", ⟨.val .void, [.primArray .long, .val .int, .val .int, .cptr (.val .long)]⟩,
    "SetLongArrayRegion", [.this, .param 0, .param 1, .param 2, .param 3], false⟩,
  ⟨"SetFloatArrayRegion", ⟨.val .void, [.primArray .float, .val .int, .val .int, .cptr (.val .float)]⟩,
    "SetFloatArrayRegion", [.this, .param 0, .param 1, .param 2, .param 3], false⟩,
  ⟨"SetDoubleArrayRegion", ⟨.val .void, [.primArray .double, .val .int, .val .int, .cptr (.val .double)]⟩,
    "SetDoubleArrayRegion", [.this, .param 0, .param 1, .param 2, .param 3], false⟩,
  ⟨"RegisterNatives", ⟨.val .int, [.cls, .cptr (.nativeMethod), .val .int]⟩, "RegisterNatives", [.this, .param 0,
    .param 1, .param 2], true⟩,
  ⟨"UnregisterNatives", ⟨.val .int, [.cls]⟩, "UnregisterNatives", [.this, .param 0], true⟩,
  ⟨"MonitorEnter", ⟨.val .int, [.val .object]⟩, "MonitorEnter", [.this, .param 0], true⟩,
  ⟨"MonitorExit", ⟨.val .int, [.val .object]⟩, "MonitorExit", [.this, .param 0], true⟩,
  ⟨"GetJavaVM", ⟨.val .int, [.ptr (.ptr (.vm))]⟩, "GetJavaVM", [.this, .param 0], true⟩,
  ⟨"GetStringRegion", ⟨.val .void, [.str, .val .int, .val .int, .ptr (.val .char)]⟩, "GetStringRegion", [.this,
    .param 0, .param 1, .param 2, .param 3], false⟩,
  ⟨"GetStringUTFRegion", ⟨.val .void, [.str, .val .int, .val .int, .ptr (.cchar)]⟩, "GetStringUTFRegion", [.this,
    .param 0, .param 1, .param 2, .param 3], true⟩,
  ⟨"GetPrimitiveArrayCritical", ⟨.ptr (.val .void), [.array, .ptr (.val .boolean)]⟩, "GetPrimitiveArrayCritical",
    [.this, .param 0, .param 1], true⟩,
  ⟨"ReleasePrimitiveArrayCritical", ⟨.val .void, [.array, .ptr (.val .void), .val .int]⟩,
    "ReleasePrimitiveArrayCritical", [.this, .param 0, .param 1, .param 2], false⟩,
  ⟨"GetStringCritical", ⟨.cptr (.val .char), [.str, .ptr (.val .boolean)]⟩, "GetStringCritical", [.this, .param 0,
    .param 1], true⟩,
  ⟨"ReleaseStringCritical", ⟨.val .void, [.str, .cptr (.val .char)]⟩, "ReleaseStringCritical", [.this, .param 0,
    .param 1], false⟩,
  ⟨"NewWeakGlobalRef", ⟨.val .object, [.val .object]⟩, "NewWeakGlobalRef", [.this, .param 0], true⟩,
  ⟨"DeleteWeakGlobalRef", ⟨.val .void, [.val .object]⟩, "DeleteWeakGlobalRef", [.this, .param 0], false⟩,
  ⟨"ExceptionCheck", ⟨.val .boolean, []⟩, "ExceptionCheck", [.this], true⟩,
  ⟨"NewDirectByteBuffer", ⟨.val .object, [.ptr (.val .void), .val .long]⟩, "NewDirectByteBuffer", [.this, .param 0,
    .param 1], true⟩,
  ⟨"GetDirectBufferAddress", ⟨.ptr (.val .void), [.val .object]⟩, "GetDirectBufferAddress", [.this, .param 0], true⟩,
  ⟨"GetDirectBufferCapacity", ⟨.val .long, [.val .object]⟩, "GetDirectBufferCapacity", [.this, .param 0], true⟩,
  ⟨"GetObjectRefType", ⟨.refType, [.val .object]⟩, "GetObjectRefType", [.this, .param 0], true⟩]

/-- `struct _JavaVM`, include/jni.h:908-922. -/
def invokeWrappers : List Wrapper := [
  ⟨"DestroyJavaVM", ⟨.val .int, []⟩, "DestroyJavaVM", [.this], true⟩,
  ⟨"AttachCurrentThread", ⟨.val .int, [.ptr (.ptr (.env)), .ptr (.val .void)]⟩, "AttachCurrentThread", [.this,
    .param 0, .param 1], true⟩,
  ⟨"DetachCurrentThread", ⟨.val .int, []⟩, "DetachCurrentThread", [.this], true⟩,
  ⟨"GetEnv", ⟨.val .int, [.ptr (.ptr (.val .void)), .val .int]⟩, "GetEnv", [.this, .param 0, .param 1], true⟩,
  ⟨"AttachCurrentThreadAsDaemon", ⟨.val .int, [.ptr (.ptr (.env)), .ptr (.val .void)]⟩,
    "AttachCurrentThreadAsDaemon", [.this, .param 0, .param 1], true⟩]

/-- The value of an argument; `va` makes the `va_list` of some arguments.  The caller gives at least the named
parameters. -/
def WArg.eval {α : Type} (self : α) (va : List α → α) (args : List α) : WArg → Res α
  | .this => .ok self
  | .param i => match args[i]? with
    | some a => .ok a
    | none => .ub .outOfBounds
  | .rest i => .ok (va (args.drop (i + 1)))

/-- All of them. -/
def evalWArgs {α : Type} (self : α) (va : List α → α) (args : List α) : List WArg → Res (List α)
  | [] => .ok []
  | a :: as => (a.eval self va args).bind fun x => (evalWArgs self va args as).bind fun xs => .ok (x :: xs)

/-- `functions->slot`: the entry where the header declares that name. -/
def entryAt {f : Type} (header : List (String × Option CFn)) (table : List f) (slot : String) : Res f :=
  match header.findIdx? (fun p => p.1 == slot) with
  | none => .ub .outOfBounds
  | some i => match table[i]? with
    | none => .ub .outOfBounds
    | some f => .ok f

/-- A call of the member function: the new state, and the result if it returns one (`return` of a `void` call, in
GetStringUTFRegion, returns none).  The entries are arbitrary functions on an arbitrary state. -/
def Wrapper.run {α β σ : Type} (header : List (String × Option CFn)) (table : List (List α → σ → Res (σ × β)))
    (self : α) (va : List α → α) (args : List α) (s : σ) (w : Wrapper) : Res (σ × Option β) :=
  (entryAt header table w.slot).bind fun f =>
  (evalWArgs self va args w.args).bind fun as =>
  (f as s).bind fun (s, r) => .ok (s, if w.returns ∧ w.fn.ret ≠ .val .void then some r else none)

end Jnivm
