import Verif.Model.Table
/-!
The functions of the Java Native Interface: which function of the VM implements which, and the order the
specification gives them.
-/
namespace Spec
open Jnivm

/-- The type as it occurs in the names of functions. -/
def typeWord : JTy → String
  | .object => "Object" | .boolean => "Boolean" | .byte => "Byte" | .char => "Char" | .short => "Short"
  | .int => "Int" | .long => "Long" | .float => "Float" | .double => "Double" | .void => "Void"

/-- The ending that tells how arguments are passed. -/
def formSuffix : ArgForm → String
  | .variadic => "" | .vaList => "V" | .array => "A"

/-- `FulfilsName f n`: `f` does what the JNI function `n` is to do. -/
def FulfilsName : Impl → String → Prop
  | .fn n, m => m = n ∨ n = "GetStringChars" ∧ m = "GetStringCritical" ∨
      n = "ReleaseStringChars" ∧ m = "ReleaseStringCritical"
  | .findClass, m => m = "FindClass"
  | .call t .obj f, m => m = "Call" ++ typeWord t ++ "Method" ++ formSuffix f
  | .call t .objCls f, m => m = "CallNonvirtual" ++ typeWord t ++ "Method" ++ formSuffix f
  | .call t .cls f, m => m = "CallStatic" ++ typeWord t ++ "Method" ++ formSuffix f ∨
      t = .object ∧ m = "NewObject" ++ formSuffix f
  | .methodID st, m => m = if st then "GetStaticMethodID" else "GetMethodID"
  | .fieldID st, m => m = if st then "GetStaticFieldID" else "GetFieldID"
  | .getField t .obj, m => m = "Get" ++ typeWord t ++ "Field"
  | .getField t .cls, m => m = "GetStatic" ++ typeWord t ++ "Field"
  | .setField t .obj, m => m = "Set" ++ typeWord t ++ "Field"
  | .setField t .cls, m => m = "SetStatic" ++ typeWord t ++ "Field"
  | .getField _ .objCls, _ => False
  | .setField _ .objCls, _ => False
  | .newArray t, m => m = "New" ++ typeWord t ++ "Array"
  | .getElements t, m => m = if t = .void then "GetPrimitiveArrayCritical" else
      "Get" ++ typeWord t ++ "ArrayElements"
  | .releaseElements t, m => m = if t = .void then "ReleasePrimitiveArrayCritical" else
      "Release" ++ typeWord t ++ "ArrayElements"
  | .getRegion t, m => m = "Get" ++ typeWord t ++ "ArrayRegion"
  | .setRegion t, m => m = "Set" ++ typeWord t ++ "ArrayRegion"
  | .lambda n, m => (n, m) ∈ [("destroy", "DestroyJavaVM"), ("attach", "AttachCurrentThread"),
      ("detach", "DetachCurrentThread"), ("getEnv", "GetEnv"), ("attachDaemon", "AttachCurrentThreadAsDaemon")]

instance (i : Impl) (n : String) : Decidable (FulfilsName i n) := by
  unfold FulfilsName; split <;> infer_instance

def primWords : List String := ["Boolean", "Byte", "Char", "Short", "Int", "Long", "Float", "Double"]

/-- The three functions for calls with one result type. -/
def callNames (pre w : String) : List String :=
  ["", "V", "A"].map fun s => pre ++ w ++ "Method" ++ s

/-- The function table of JNI 6, "Interface Function Table" in chapter 4 of the specification, index 0 to
232. -/
def standardNames : List String :=
  let all := "Object" :: primWords
  ["reserved0", "reserved1", "reserved2", "reserved3", "GetVersion",
   "DefineClass", "FindClass", "FromReflectedMethod", "FromReflectedField", "ToReflectedMethod",
   "GetSuperclass", "IsAssignableFrom", "ToReflectedField",
   "Throw", "ThrowNew", "ExceptionOccurred", "ExceptionDescribe", "ExceptionClear", "FatalError",
   "PushLocalFrame", "PopLocalFrame",
   "NewGlobalRef", "DeleteGlobalRef", "DeleteLocalRef", "IsSameObject", "NewLocalRef", "EnsureLocalCapacity",
   "AllocObject", "NewObject", "NewObjectV", "NewObjectA", "GetObjectClass", "IsInstanceOf", "GetMethodID"] ++
  (all ++ ["Void"]).flatMap (callNames "Call") ++
  (all ++ ["Void"]).flatMap (callNames "CallNonvirtual") ++
  ["GetFieldID"] ++ all.map (fun w => "Get" ++ w ++ "Field") ++ all.map (fun w => "Set" ++ w ++ "Field") ++
  ["GetStaticMethodID"] ++ (all ++ ["Void"]).flatMap (callNames "CallStatic") ++
  ["GetStaticFieldID"] ++ all.map (fun w => "GetStatic" ++ w ++ "Field") ++
  all.map (fun w => "SetStatic" ++ w ++ "Field") ++
  ["NewString", "GetStringLength", "GetStringChars", "ReleaseStringChars",
   "NewStringUTF", "GetStringUTFLength", "GetStringUTFChars", "ReleaseStringUTFChars",
   "GetArrayLength", "NewObjectArray", "GetObjectArrayElement", "SetObjectArrayElement"] ++
  primWords.map (fun w => "New" ++ w ++ "Array") ++
  primWords.map (fun w => "Get" ++ w ++ "ArrayElements") ++
  primWords.map (fun w => "Release" ++ w ++ "ArrayElements") ++
  primWords.map (fun w => "Get" ++ w ++ "ArrayRegion") ++
  primWords.map (fun w => "Set" ++ w ++ "ArrayRegion") ++
  ["RegisterNatives", "UnregisterNatives", "MonitorEnter", "MonitorExit", "GetJavaVM",
   "GetStringRegion", "GetStringUTFRegion", "GetPrimitiveArrayCritical", "ReleasePrimitiveArrayCritical",
   "GetStringCritical", "ReleaseStringCritical", "NewWeakGlobalRef", "DeleteWeakGlobalRef", "ExceptionCheck",
   "NewDirectByteBuffer", "GetDirectBufferAddress", "GetDirectBufferCapacity", "GetObjectRefType"]

/-- The invocation interface, chapter 5 of the specification. -/
def standardInvokeNames : List String :=
  ["reserved0", "reserved1", "reserved2", "DestroyJavaVM", "AttachCurrentThread", "DetachCurrentThread",
   "GetEnv", "AttachCurrentThreadAsDaemon"]

/-- What a slot has to hold: nothing if it is reserved, otherwise the one function the compiler finds for the
declared type, and that has to implement the declared name. -/
def SlotOk (slot : String × Option CFn) (e : Entry) : Prop :=
  match slot.2 with
  | none => e = .null
  | some ty => ∃ f, e.resolve ty = [f] ∧ FulfilsName f slot.1

end Spec
