{"id": "C01", "title": "UTF-16 strings survive storage", "statement": "For every sequence of 16-bit Java chars (including U+0000 and unpaired surrogates), a string made with NewString reports exactly that many chars from GetStringLength, and GetStringRegion over the whole string (hence GetStringChars) yields exactly the same sequence.", "quantifier": "all finite jchar sequences", "why_tests_cant": "65536^n inputs of every length; boundaries at 0, 0x80, 0x800 and surrogates interact with neighbours", "anchors": ["src/jnivm/internal/stringUtil.cpp:JCharToUTF", "src/jnivm/internal/stringUtil.cpp:UTFToJChar", "src/jnivm/internal/string.cpp:NewString", "src/jnivm/internal/string.cpp:GetStringLength", "src/jnivm/internal/string.cpp:GetStringRegion"]}
{"id": "C02", "title": "Stored strings are canonical modified UTF-8", "statement": "The bytes obtained from GetStringUTFChars for a NewString string are the modified UTF-8 encoding fixed by the Java specification (U+0000 as C0 80, surrogates as three bytes each): they contain no zero byte, GetStringUTFLength counts them exactly, and two different char sequences never give the same bytes.", "quantifier": "all finite jchar sequences", "why_tests_cant": "infinitely many sequences; injectivity relates pairs of them", "anchors": ["src/jnivm/internal/stringUtil.cpp:JCharToUTFLength", "src/jnivm/internal/stringUtil.cpp:JCharToUTF", "src/jnivm/internal/string.cpp:GetStringUTFLength", "src/jnivm/internal/string.cpp:GetStringUTFChars"]}
{"id": "C03", "title": "NewStringUTF / GetStringUTFChars give back the C string", "statement": "For every C string passed to NewStringUTF, GetStringUTFChars returns the same bytes up to and including the first NUL, GetStringUTFLength is its strlen, and a null pointer behaves as the empty string.", "quantifier": "all byte sequences (with or without embedded NUL) and the null pointer", "why_tests_cant": "arbitrary bytes of arbitrary length, valid UTF-8 or not", "anchors": ["src/jnivm/internal/string.cpp:NewStringUTF", "src/jnivm/internal/string.cpp:GetStringUTFChars", "src/jnivm/internal/string.cpp:GetStringUTFLength"]}
{"id": "C04", "title": "Decoding a string never reads outside it", "statement": "For every byte content a string can hold (valid modified UTF-8 or not, with or without zero bytes), GetStringLength and GetStringChars terminate, read no byte beyond the terminating NUL, and either succeed or throw the data-format error; they succeed exactly when the content is a concatenation of well-formed 1-, 2- or 3-byte groups. The only exception are contents that begin with more than 2^31-1 such groups, where the length overflows.", "quantifier": "all byte contents of a String object", "why_tests_cant": "malformed input space is unbounded and the failure is an out-of-bounds read that tests do not observe", "anchors": ["src/jnivm/internal/stringUtil.cpp:UTFToJCharLength", "src/jnivm/internal/string.cpp:GetStringLength", "src/jnivm/internal/string.cpp:GetStringChars"]}
{"id": "C05", "title": "GetStringRegion returns the requested slice", "statement": "GetStringRegion(start, len) stores exactly chars start..start+len-1 of the string for every in-range request, and (as JNI requires) never reads outside the string for any request.", "quantifier": "all strings and all (start,len) pairs, including negative and out-of-range ones", "why_tests_cant": "the set of out-of-range requests is infinite and their effect is memory corruption, not a return value", "anchors": ["src/jnivm/internal/string.cpp:GetStringRegion"]}
{"id": "C06", "title": "GetStringUTFRegion returns the encoded slice", "statement": "GetStringUTFRegion(start, len) stores exactly the modified UTF-8 encoding of chars start..start+len-1 followed by one NUL for every in-range request, writing no other byte.", "quantifier": "all strings and all in-range (start,len) pairs", "why_tests_cant": "buffer contents must be exact for every string and slice", "anchors": ["src/jnivm/internal/string.cpp:GetStringUTFRegion"]}
{"id": "C07", "title": "Type descriptors are skipped exactly", "statement": "For every JNI type descriptor (primitive, class with any name, array of any depth) embedded anywhere in a signature, scanning one type advances past exactly the characters of that descriptor.", "quantifier": "all type descriptors, all surrounding text", "why_tests_cant": "descriptors nest to unbounded depth and carry arbitrary names", "anchors": ["src/jnivm/internal/skipJNIType.cpp:SkipJNIType"]}
{"id": "C08", "title": "Variadic calls deliver one argument per parameter", "statement": "For every well-formed method signature and every matching C argument list, Call*Method / Call*MethodV decode exactly one value per declared parameter, in order, with the value that was passed (narrowed to the parameter's width), and consume every argument.", "quantifier": "all well-formed method signatures and all argument lists", "why_tests_cant": "signatures and argument lists are unbounded; misalignment shows only for particular combinations", "anchors": ["src/jnivm/internal/jValuesfromValist.cpp:JValuesfromValist", "src/jnivm/internal/skipJNIType.cpp:SkipJNIType", "src/jnivm/internal/method.cpp:CallMethod"]}
{"id": "C09", "title": "A malformed signature is rejected or decoded without reading past its end", "statement": "For every string used as a method signature, decoding variadic arguments terminates and never reads past the terminating NUL of the signature.", "quantifier": "all strings", "why_tests_cant": "malformed strings are unbounded; out-of-bounds reads are silent", "anchors": ["src/jnivm/internal/jValuesfromValist.cpp:JValuesfromValist", "src/jnivm/internal/skipJNIType.cpp:SkipJNIType"]}
{"id": "C10", "title": "Looking up a method or field declares the classes in its signature", "statement": "After GetMethodID/GetFieldID creates a member with a well-formed signature, every class named in the signature exists and FindClass on it returns that class; no other class is created except enclosing classes.", "quantifier": "all well-formed signatures and all prior registry states", "why_tests_cant": "signatures mention arbitrarily many classes", "anchors": ["src/jnivm/internal/findclass.cpp:Declare", "src/jnivm/internal/method.cpp:GetMethodID"]}
{"id": "C11", "title": "The invoke result follows the declared return type", "statement": "For every method signature, jinvoke calls the function through the type given by the character after the last ')', and two signatures with the same return descriptor are dispatched the same way; signatures without a known return type are rejected by an exception.", "quantifier": "all signature strings", "why_tests_cant": "return type is found by scanning arbitrary text", "anchors": ["src/jnivm/method.cpp:Method::jinvoke"]}
{"id": "C12", "title": "FindClass is stable", "statement": "For every history of API calls, FindClass on the same name returns the same class object every time once it exists.", "quantifier": "all class names and all interleaved histories of class, member and signature operations", "why_tests_cant": "histories are unbounded", "anchors": ["src/jnivm/internal/findclass.cpp:InternalFindClass", "src/jnivm/vm.cpp:FindClass"]}
{"id": "C13", "title": "FindClass separates names", "statement": "For every history, FindClass on two different names never returns the same class object, and the class returned for a name reports exactly that name as its path (nativeprefix) and the expected simple name.", "quantifier": "all pairs of class names (including arrays, '$', empty components) and all histories", "why_tests_cant": "aliasing between two arbitrary names after arbitrary histories", "anchors": ["src/jnivm/internal/findclass.cpp:InternalFindClass"]}
{"id": "C14", "title": "Lookup-only class queries have no effect", "statement": "A FindClass that is not allowed to create classes changes nothing and finds a class exactly when that name (or a name nested in it) was created before.", "quantifier": "all names and all histories", "why_tests_cant": "depends on the entire creation history", "anchors": ["src/jnivm/internal/findclass.cpp:InternalFindClass", "src/fake-jni/fake-jni.cpp:Jvm::findClass"]}
{"id": "C15", "title": "Creating a nested class creates its enclosing classes and nothing else", "statement": "After FindClass(\"a/B$C\") the enclosing class a/B exists and is found by FindClass; the class registry of the VM contains exactly the requested names and their enclosing classes.", "quantifier": "all names, all histories", "why_tests_cant": "set-valued statement over unbounded histories", "anchors": ["src/jnivm/internal/findclass.cpp:InternalFindClass"]}
{"id": "C16", "title": "GetMethodID is stable", "statement": "Asking twice for the same (class, name, signature, static?) returns the same jmethodID, no matter what other lookups, hooks or native registrations happen in between on a single thread.", "quantifier": "all classes, inheritance graphs, names, signatures and histories", "why_tests_cant": "histories and inheritance graphs are unbounded", "anchors": ["src/jnivm/internal/method.cpp:GetMethodID", "include/jnivm/hookManager.h:FunctionBase::install"]}
{"id": "C17", "title": "GetMethodID returns the right member", "statement": "A returned jmethodID always denotes a method with the requested name, signature and staticness; the class's own method wins over inherited ones and superclasses are searched depth-first in order; null-mode lookups change nothing and return null exactly when no such method is declared in the class or its superclasses.", "quantifier": "all acyclic inheritance graphs, method tables and queries", "why_tests_cant": "unbounded graphs", "anchors": ["src/jnivm/internal/method.cpp:GetMethodID"]}
{"id": "C18", "title": "Constructors are looked up as static factories of exactly that class", "statement": "GetMethodID(cls, \"<init>\", \"(args)V\") yields the same member as the static method \"<init>\" with return type cls, and never an inherited constructor of a superclass.", "quantifier": "all classes, graphs and argument lists", "why_tests_cant": "ranges over all signatures and hierarchies", "anchors": ["src/jnivm/internal/method.cpp:GetMethodID"]}
{"id": "C19", "title": "GetFieldID is stable and exact", "statement": "A returned jfieldID denotes a field with the requested name, type and staticness, own fields win over inherited ones, repeated lookups return the same id, and null-mode lookups change nothing.", "quantifier": "all classes, inheritance graphs, names, types and histories", "why_tests_cant": "unbounded histories and graphs", "anchors": ["src/jnivm/internal/field.cpp:GetFieldID"]}
{"id": "C20", "title": "Hooking keeps ids and takes effect", "statement": "Hooking a method on a class makes a later GetMethodID return a method that runs the hooked function; re-hooking keeps the jmethodID and replaces the function; hooking does not affect any other member.", "quantifier": "all method tables and hook sequences", "why_tests_cant": "sequence of arbitrary hooks on arbitrary tables", "anchors": ["include/jnivm/hookManager.h:FunctionBase::install", "include/jnivm/hookManager.h:PropertyBase"]}
{"id": "C21", "title": "RegisterNatives / UnregisterNatives", "statement": "After RegisterNatives every listed function is found by native lookup with its own function pointer (the most recent registration for a name and signature wins); UnregisterNatives removes all native methods and leaves every other method and its id in place.", "quantifier": "all method tables, all registration lists and histories", "why_tests_cant": "lists and histories unbounded", "anchors": ["src/jnivm/vm.cpp:RegisterNatives", "src/jnivm/vm.cpp:UnregisterNatives"]}
{"id": "C22", "title": "Virtual calls run the most derived implementation", "statement": "Call*Method on an object runs the implementation from the object's class if it declares one, otherwise the nearest superclass override of the method.", "quantifier": "all inheritance graphs, overrides and receiver classes", "why_tests_cant": "unbounded hierarchies", "anchors": ["src/jnivm/internal/method.cpp:findVirtualOverload", "src/jnivm/internal/method.cpp:MDispatchBase2::CallMethod"]}
{"id": "C23", "title": "Non-virtual calls run the named class's implementation", "statement": "CallNonvirtual*Method(obj, cls, id) runs cls's own implementation regardless of the object's class, and is well defined for every class and method id obtained through the API.", "quantifier": "all classes and method ids", "why_tests_cant": "unbounded tables; failure is undefined behaviour", "anchors": ["src/jnivm/internal/method.cpp:findNonVirtualOverload"]}
{"id": "C24", "title": "A failing native handler becomes exactly one pending exception", "statement": "Call*Method never lets a C++ exception of the handler escape: it returns the default value and the thrown exception becomes the pending one; a call whose handler returns normally returns its value and does not disturb the pending state; unknown or null method ids give the default value.", "quantifier": "all handlers, receivers, arguments and pending states", "why_tests_cant": "handlers are arbitrary functions", "anchors": ["src/jnivm/internal/method.cpp:MDispatchBase2::CallMethod"]}
{"id": "C25", "title": "Pending exception state machine", "statement": "For every history of Throw, ThrowNew, ExceptionClear, ExceptionOccurred, ExceptionCheck, calls and other operations, ExceptionCheck is true exactly when some exception was raised after the last clear, and ExceptionOccurred returns exactly the last one raised.", "quantifier": "all operation histories", "why_tests_cant": "unbounded histories", "anchors": ["src/jnivm/vm.cpp:Throw", "src/jnivm/vm.cpp:ThrowNew", "src/jnivm/vm.cpp:ExceptionOccurred", "src/jnivm/vm.cpp:ExceptionCheck", "src/jnivm/vm.cpp:ExceptionClear"]}
{"id": "C26", "title": "Assignability is reachability", "statement": "IsAssignableFrom(c1,c2) is true exactly when c2 is c1 or a direct or indirect superclass; it is reflexive and transitive, and IsInstanceOf agrees with it on the object's class.", "quantifier": "all finite acyclic inheritance graphs", "why_tests_cant": "unbounded graphs with sharing", "anchors": ["src/jnivm/vm.cpp:HasBaseClass", "src/jnivm/vm.cpp:IsAssignableFrom", "src/jnivm/vm.cpp:IsInstanceOf"]}
{"id": "C27", "title": "Local frames nest", "statement": "PushLocalFrame, any balanced sequence of operations, then PopLocalFrame leaves all references created before the push exactly as they were; there is always at least one frame, and recycled frames never carry old references.", "quantifier": "all balanced operation histories", "why_tests_cant": "unbounded nesting and histories", "anchors": ["src/jnivm/vm.cpp:PushLocalFrame", "src/jnivm/vm.cpp:PopLocalFrame"]}
{"id": "C28", "title": "A referenced object stays alive", "statement": "As long as a local or global reference made through the API has not been deleted or popped, the object it denotes is alive, for every history of operations of every thread.", "quantifier": "all operation histories", "why_tests_cant": "use-after-free appears only on particular histories", "anchors": ["src/jnivm/vm.cpp:NewLocalRef", "src/jnivm/vm.cpp:NewGlobalRef", "include/jnivm/jnitypes.h:ToJNIType"]}
{"id": "C29", "title": "An unreferenced object is released", "statement": "An object is alive only while some local reference, global reference or containing object reaches it: after the last one is gone it is released.", "quantifier": "all operation histories", "why_tests_cant": "leaks are visible only over whole histories", "anchors": ["src/jnivm/vm.cpp:DeleteLocalRef", "src/jnivm/vm.cpp:DeleteGlobalRef", "src/jnivm/vm.cpp:PopLocalFrame"]}
{"id": "C30", "title": "Deleting one local reference removes exactly one", "statement": "DeleteLocalRef removes exactly one local reference to the object, the one in the innermost frame holding it, and touches no other reference; deleting an unknown reference changes nothing.", "quantifier": "all frame stacks and references", "why_tests_cant": "multiset statement over arbitrary stacks", "anchors": ["src/jnivm/vm.cpp:DeleteLocalRef"]}
{"id": "C31", "title": "Weak references observe lifetime", "statement": "A weak global reference denotes its object exactly while the object is alive: it never keeps it alive, it yields null afterwards (NewLocalRef, IsSameObject with null), and it never resolves to another object.", "quantifier": "all operation histories", "why_tests_cant": "needs every release history", "anchors": ["src/jnivm/vm.cpp:NewWeakGlobalRef", "include/jnivm/jnitypes.h:UnpackJObject", "include/jnivm/weak.h"]}
{"id": "C32", "title": "IsSameObject is identity of the denoted object", "statement": "IsSameObject is an equivalence relation on valid references, and two references (local, global or weak, wrapped any number of times) are the same exactly when they denote the same object, cleared weak references denoting null.", "quantifier": "all reachable heaps and pairs/triples of references", "why_tests_cant": "relation over arbitrary heaps", "anchors": ["src/jnivm/vm.cpp:IsSameObject", "include/jnivm/jnitypes.h:UnpackJObject"]}
{"id": "C33", "title": "PopLocalFrame hands its result to the outer frame", "statement": "PopLocalFrame(result) returns a reference to the same object as result, valid in the enclosing frame, even if result was only referenced by the popped frame; a null or dead result yields null.", "quantifier": "all frame stacks and results (local, global, weak)", "why_tests_cant": "depends on the whole reference graph", "anchors": ["src/jnivm/vm.cpp:PopLocalFrame"]}
{"id": "C34", "title": "GetObjectRefType classifies references", "statement": "For every reference obtained from the API GetObjectRefType reports the kind of call that created it (local, global, weak global; invalid for null) and does not change over the reference's life.", "quantifier": "all reachable heaps and references", "why_tests_cant": "ranges over all histories", "anchors": ["src/jnivm/vm.cpp:GetObjectRefType"]}
{"id": "C35", "title": "Each attached thread has exactly one environment", "statement": "Under every interleaving of AttachCurrentThread, GetEnv, DetachCurrentThread by any number of threads: an attached thread always gets the same environment until it detaches, different threads never share one, and a detached thread's environment is gone.", "quantifier": "all thread schedules of any length and any number of threads", "why_tests_cant": "schedules are unbounded", "anchors": ["src/jnivm/vm.cpp:VM::VM", "src/jnivm/vm.cpp:VM::GetEnv", "src/jnivm/vm.cpp:VM::CreateEnv"]}
{"id": "C36", "title": "Concurrent field lookup is atomic, and so is method lookup", "statement": "When several threads concurrently ask for the same field (or the same method) of a class, all obtain the same id and only one member is created.", "quantifier": "all schedules of any number of threads", "why_tests_cant": "races need every interleaving", "anchors": ["src/jnivm/internal/field.cpp:GetFieldID", "src/jnivm/internal/method.cpp:GetMethodID"]}
{"id": "C37", "title": "Monitors are re-entrant locks", "statement": "Under every schedule MonitorEnter/MonitorExit on an object admit at most one owner thread, the owner may re-enter any number of times, and others proceed exactly after as many exits as entries; references of different kinds to the same object use the same monitor.", "quantifier": "all schedules and nesting depths", "why_tests_cant": "mutual exclusion is a statement about all schedules", "anchors": ["src/jnivm/vm.cpp:MonitorEnter", "src/jnivm/vm.cpp:MonitorExit"]}
{"id": "C38", "title": "Threads do not see each other's pending exceptions or local references", "statement": "Under every interleaving, a thread's pending exception and local frames are determined by its own operations only.", "quantifier": "all interleavings of any number of threads", "why_tests_cant": "non-interference over all schedules", "anchors": ["include/jnivm/env.h:ENV", "src/jnivm/vm.cpp"]}
{"id": "C39", "title": "Primitive arrays store what was written", "statement": "A new primitive array is zeroed and has the requested length; Set<Type>ArrayRegion followed by Get<Type>ArrayRegion behaves as array slice assignment for in-range requests, element pointers alias the array, and out-of-range requests have no undefined effect.", "quantifier": "all lengths, contents and (start,len) requests", "why_tests_cant": "all offsets and lengths; out-of-range access is silent", "anchors": ["src/jnivm/internal/array.cpp"]}
{"id": "C40", "title": "Object arrays store references to the given objects", "statement": "NewObjectArray fills all slots with the initial element, Get after Set returns the object denoted by what was stored, other slots keep their value, and stored objects stay alive while the array does.", "quantifier": "all arrays, indices and references", "why_tests_cant": "aliasing and lifetime over all histories", "anchors": ["src/jnivm/internal/array.cpp:NewObjectArray", "include/jnivm/array.h"]}
{"id": "C41", "title": "The JNI function table is aligned with jni.h", "statement": "Each slot of the JNIEnv and JavaVM function tables that the VM fills holds the implementation of the function jni.h declares at that position (name and result type).", "quantifier": "all slots", "why_tests_cant": "a slot mix-up is only noticed when that one slot is called with distinguishing arguments", "anchors": ["src/jnivm/vm.cpp:InterfaceFactory", "include/jni.h:JNINativeInterface"]}
{"id": "C42", "title": "Overriding the function table keeps the environment reachable", "statement": "OverrideJNINativeInterface / OverrideJNIInvokeInterface accept a table only if recovering ENV/VM from it still works: after any sequence of overrides FromJNIEnv/FromJavaVM return the original object.", "quantifier": "all sequences of override attempts", "why_tests_cant": "histories unbounded", "anchors": ["src/jnivm/env.cpp:OverrideJNINativeInterface", "src/jnivm/vm.cpp:OverrideJNIInvokeInterface"]}
{"id": "C43", "title": "Baron deny rules are applied exactly", "statement": "isClassDenied/isMethodDenied/isFieldDenied answer exactly according to the set of rules added so far, where an empty component in a rule or in a query is a wildcard, independent of insertion order.", "quantifier": "all rule sets, insertion orders and queries", "why_tests_cant": "rule sets and queries unbounded", "anchors": ["src/baron/jvm.cpp:isClassDenied", "src/baron/jvm.cpp:isMethodDenied", "src/baron/jvm.cpp:isFieldDenied", "src/baron/jvm.cpp:denyMethod"]}
{"id": "C44", "title": "Baron never fabricates a denied class, method or field", "statement": "With the Baron VM, FindClass / GetMethodID / GetFieldID on something denied that was not defined before returns null and creates nothing.", "quantifier": "all rule sets, histories and queries", "why_tests_cant": "depends on rule set, history and name structure", "anchors": ["src/baron/jvm.cpp:CreateEnv", "src/baron/jvm.cpp:findClass"]}
{"id": "C45", "title": "JniEnvContext restores the thread's attachment", "statement": "Constructing and destroying nested JniEnvContext objects on a thread leaves it attached exactly if it was attached before, and inside the context an environment is always available.", "quantifier": "all nestings and all threads", "why_tests_cant": "nesting depth and interleavings unbounded", "anchors": ["src/fake-jni/fake-jni.cpp:JniEnvContext"]}
{"id": "C46", "title": "Library load and unload are balanced", "statement": "For every sequence of attachLibrary/removeLibrary and VM destruction, every successful load has exactly one matching unload by the end, JNI_OnLoad is called before JNI_OnUnload, and a path is registered at most once.", "quantifier": "all operation sequences and all loader behaviours", "why_tests_cant": "loader behaviour is arbitrary", "anchors": ["src/fake-jni/fake-jni.cpp:libinst", "src/fake-jni/fake-jni.cpp:attachLibrary"]}
{"id": "C47", "title": "fake-jni method lookup and proxy invocation pick the right kind", "statement": "getMethod(signature,name) finds a member, static or native method exactly when one exists, and invoking the proxy on an object or on a class runs the matching kind, throwing when there is none and refusing ambiguous conversion.", "quantifier": "all method tables and queries", "why_tests_cant": "combinations of kinds over arbitrary tables", "anchors": ["src/fake-jni/method.cpp:getMethod", "include/jnivm/method.h:MethodProxy"]}
{"id": "C48", "title": "Reflection round trip", "statement": "FromReflectedMethod(ToReflectedMethod(cls, id, isStatic)) is id again for every method of matching staticness (likewise fields).", "quantifier": "all methods and fields", "why_tests_cant": "holds or fails for every reachable heap", "anchors": ["src/jnivm/vm.cpp:FromReflectedMethod", "src/jnivm/vm.cpp:ToReflectedMethod"]}
{"id": "C49", "title": "Hook signatures are well formed and parse back", "statement": "The signature generated for a hooked C++ function from its parameter types is a well-formed JNI signature whose decoded parameters are exactly those types, so variadic calls and the hook agree on argument positions.", "quantifier": "all parameter type lists", "why_tests_cant": "type lists unbounded", "anchors": ["include/jnivm/jnitypes.h:JNITypes", "include/jnivm/wrap.h", "include/jnivm/function.h"]}
{"id": "C50", "title": "Generated code parses every well-formed signature", "statement": "The code generator translates every well-formed parameter type into exactly one C++ type and consumes exactly its characters, so generated parameter lists have the right arity and order.", "quantifier": "all well-formed signatures", "why_tests_cant": "unbounded descriptors", "anchors": ["src/jnivm/internal/codegen/parseJNIType.cpp:ParseJNIType", "src/jnivm/internal/codegen/method.cpp"]}
{"id": "C51", "title": "Legal calls never touch released memory", "statement": "In every state that any history of calls can produce, every reference, frame, array, exception and attach call that keeps to the rules of the interface (attached thread, references null or not released, indices in range, no class query on a cleared weak reference) returns or throws: no use of released memory, null dereference, out of bounds access or endless loop.", "quantifier": "all histories of legal calls by any number of threads", "why_tests_cant": "memory safety over unbounded histories; a test only shows that no crash happened", "anchors": ["src/jnivm/vm.cpp", "include/jnivm/jnitypes.h:UnpackJObject", "src/jnivm/internal/array.cpp"]}
{"id": "C52", "title": "Field accesses run the installed accessors", "statement": "Get<Type>Field and Set<Type>Field (instance and static) run exactly the getter or setter installed for the field the id denotes, on the receiver of the call and with the given value; without an accessor they give the default value and change nothing; an access of the wrong staticness ends the process.", "quantifier": "all reachable VM states, fields, receivers and accessor behaviours", "why_tests_cant": "accessors are arbitrary code over an unbounded state space", "anchors": ["src/jnivm/internal/field.cpp:GetField", "src/jnivm/internal/field.cpp:SetField", "include/jnivm/wrap.h"]}
{"id": "C53", "title": "The class dump is complete", "statement": "GenerateClassDump writes every known class that is neither an array nor built in exactly once into the declarations, definitions, registrations and bindings, in the C++ scope of its name, with all its fields, its inner classes and all methods the application does not implement; bindings stand in the block of their own class.", "quantifier": "all VMs that any history of lookups, hooks and registrations can produce", "why_tests_cant": "the class tree is unbounded in depth and width", "anchors": ["src/jnivm/internal/codegen/class.cpp", "src/jnivm/internal/codegen/namespace.cpp", "src/jnivm/internal/codegen/vm.cpp:GenerateClassDump"]}
{"id": "C54", "title": "No deadlock between calls", "statement": "Whatever calls any number of threads make at the same time, no thread locks a mutex it owns or unlocks one it does not own, some unfinished thread can always go on, and all threads can finish with all mutexes free.", "quantifier": "all numbers of threads, call sequences, table contents and schedules", "why_tests_cant": "interleavings and class hierarchies are unbounded; deadlocks need a particular schedule", "anchors": ["src/jnivm/vm.cpp:FindClass", "src/jnivm/internal/field.cpp:GetFieldID", "src/jnivm/internal/method.cpp:GetMethodID", "include/jnivm/jnitypes.h:GetClass", "include/jnivm/env.h:GetClass"]}
{"id": "C55", "title": "Shared tables are only used under their mutex", "statement": "Every access to a table shared by threads (classes, types, global references, environments; methods, fields, natives and base classes of each class) happens while the thread owns the mutex that protects it, so that no two threads race for it.", "quantifier": "all numbers of threads, call sequences and schedules", "why_tests_cant": "data races are rarely visible in tests", "anchors": ["src/jnivm/vm.cpp", "include/jnivm/vm.h", "include/jnivm/class.h", "include/jnivm/hookManager.h"]}
{"id": "C56", "title": "Typed object arrays hold instances of their element type", "statement": "An Array<T> of a C++ class T holds null and instances of T only, whichever base class it is seen as an array of; reading an element gives what was last written there, NewObjectArray with an initial value fills all elements, and writing an object that is no instance of T is refused.", "quantifier": "all class hierarchies with multiple inheritance, all arrays and histories of writes through any base class", "why_tests_cant": "which override of Get and Set runs depends on the inheritance graph; tests cover arrays of one class", "anchors": ["include/jnivm/array.h:Array", "include/jnivm/array.h:ArrayBaseImpl", "include/jnivm/extends.h:ArrayBaseType", "src/jnivm/internal/array.cpp:NewObjectArray"]}
{"id": "C57", "title": "Hooked functions receive the objects that were passed", "statement": "A hooked C++ function receives, in whatever form its parameters ask for, exactly the objects its references denote when it is called; another class, or null for a reference or value, is refused with an exception before the function runs; receiver and argument objects stay alive while the function runs, whatever it and other threads do with references, and the object it returns is the one the caller gets, alive and referenced; the call leaves nothing else behind.", "quantifier": "all VM states that calls of the interface and of hooked functions can produce, all parameter lists, references, function behaviours and threads", "why_tests_cant": "lifetimes depend on what other references are dropped during the call; tests pass arguments that something else keeps alive", "anchors": ["include/jnivm/jnitypes.h:UnpackJObject", "include/jnivm/jnitypes.h:OrgTypeConverter", "include/jnivm/jnitypes.h:ToJNIReturnType", "include/jnivm/wrap.h:InstanceInvoke"]}
{"id": "C58", "title": "Strings and direct buffers keep their content and the memory handed out for it", "statement": "A string or direct buffer keeps the content it was made with, read through any reference to it at any later time; each array from GetStringChars is new, holds exactly the characters, and stays unchanged until it is given back, whatever happens to the string; arrays are handed out once, may be given back exactly once, and none is lost when a function throws; the pointer from GetStringUTFChars is readable with the same bytes exactly as long as the string is alive; references to other objects are refused.", "quantifier": "all histories of calls on strings, buffers and references by any threads, all contents", "why_tests_cant": "leaks and dangling pointers show only under particular interleavings of deletions and releases", "anchors": ["src/jnivm/internal/string.cpp:GetStringChars", "src/jnivm/internal/string.cpp:ReleaseStringChars", "src/jnivm/internal/string.cpp:GetStringUTFChars", "src/jnivm/internal/bytebuffer.cpp:GetDirectBufferAddress", "src/jnivm/internal/bytebuffer.cpp:NewDirectByteBuffer"]}
{"id": "C59", "title": "Method::invoke passes C++ values through to hooked functions", "statement": "A hooked C++ function that C++ code calls through Method::invoke receives the numbers and objects it was called with: numbers keep their bits, std::shared_ptr and shareable pointer arguments arrive as the same object, other objects as a fresh copy; nothing that other threads do in between changes this; the call either enters the function or throws; receiver and shared arguments stay alive until it returns; the local references it leaves in the caller's frame are exactly known.", "quantifier": "all VM states, argument and parameter lists, function bodies and other threads' calls in between", "why_tests_cant": "round trips through jvalue and local references depend on ownership during the call and on the C++ standard of the caller; tests pass few forms and never count references", "anchors": ["include/jnivm/method.h:jinvoke", "include/jnivm/method.h:jinvoke", "include/jnivm/jnitypes.h:ToJNIReturnType", "include/jnivm/jnitypes.h:ToJNIType", "include/jnivm/wrap.h:StaticInvoke"]}
{"id": "C60", "title": "Class descriptors register what they list", "statement": "Registering a fake-jni class gives the class of its name, bound to its C++ type, in which every function, variable, member and constructor of the descriptor is found under its name and JNI type, as static member exactly if its flags say so, and the last entry for a member wins; existing members keep their ids, everything else stays; registering again changes nothing; a member of the objects with the static flag is refused before the VM is touched; an unregistered class is registered when it is first used.", "quantifier": "all descriptors, VM states and C++ type tables", "why_tests_cant": "overloads, overrides and re-registration combine without bound; tests register one class once", "anchors": ["include/fake-jni/fake-jni.h:Descriptor", "include/fake-jni/fake-jni.h:END_NATIVE_DESCRIPTOR", "include/fake-jni/fake-jni.h:BEGIN_NATIVE_DESCRIPTOR", "include/jnivm/env.h:GetClass"]}
{"id": "C61", "title": "Array objects own their memory exactly once", "statement": "An array object that C++ code makes has the length and elements it was made with: new memory for a length, a vector or a pointer to copy, the caller's own memory for a pointer not to copy; memory of an array stays valid and unchanged as long as the array exists and is deleted exactly once, with it; copies and assignments of array objects keep this.", "quantifier": "all histories of constructions, copies, assignments, element writes, destructions and frees, all lengths and element types", "why_tests_cant": "double frees and leaks depend on the order in which copies are destroyed; tests do not run under a memory checker", "anchors": ["include/jnivm/array.h:Array", "include/jnivm/array.h:~Array", "include/jnivm/array.h:operator[]", "include/jnivm/jnitypes.h:ToJNIReturnType"]}
{"id": "C62", "title": "Generated C++ code brings the dumped members back", "statement": "The C++ code that a class dump generates, read as C++ and run in another VM, installs every field, method and constructor of the dumped classes under its name, JNI type and staticness: GetFieldID and GetMethodID find it there, bound to the generated function, in both syntaxes.", "quantifier": "all dumped VMs, all types, numbers of classes and members, all VMs in which the code runs", "why_tests_cant": "generator output is compiled for a handful of classes at most; nothing compares the members of the new VM with the old one", "anchors": ["src/jnivm/internal/codegen/class.cpp", "src/jnivm/internal/codegen/method.cpp:GenerateJNIBinding", "src/jnivm/internal/codegen/field.cpp:GenerateJNIBinding", "include/jnivm/hookManager.h", "include/fake-jni/fake-jni.h:Descriptor"]}
{"id": "C63", "title": "Default results have the declared class", "statement": "With JNIVM_ENABLE_RETURN_NON_ZERO, a call or field read that nothing implements returns, for a class, an object made by the C++ type that has this class name if it can be made, null if it cannot, and a plain object of the class if it has no C++ type; for an array type an empty array of exactly this class; null for other types. The result is defined for every text, is of the same kind and class when asked again, and nothing but classes is added to the VM.", "quantifier": "all histories of lookups, hooks, types given to the VM and earlier default results, all result types, all three kinds of VM", "why_tests_cant": "the option is off in most builds; tests use one default constructible class and never arrays of arrays, arrays of booleans or renamed types", "anchors": ["src/jnivm/internal/method.cpp:defaultVal", "include/jnivm/env.h:Factory", "include/jnivm/env.h:GetClass", "src/jnivm/internal/array.cpp:NewObjectArray", "src/jnivm/internal/array.cpp:NewArray", "src/jnivm/vm.cpp:initialize"]}
{"id": "C64", "title": "Fields that are C++ variables hold what was set", "statement": "A field that is hooked to a C++ variable, a static one or a member of the objects of a class, gives back what was last set: the same value for primitive types (bool as 0 or 1), the same object for std::shared_ptr<T>, T and jobject, through any reference to the owner, on any thread, after any calls that do not set it; objects in variables stay alive; a std::shared_ptr<T> always points to a T or to null, and setting anything else throws and changes nothing; the functions for other types throw; setting a field of null does nothing.", "quantifier": "all histories of field accesses and other calls by any threads, all values, objects and types of variables", "why_tests_cant": "lifetimes depend on which other references are dropped before the variable is read; tests read right after setting", "anchors": ["include/jnivm/wrap.h:FunctionType::Property", "include/jnivm/wrap.h:FunctionType::InstanceProperty", "include/jnivm/wrap.h:InstanceGet", "src/jnivm/internal/field.cpp:GetField", "src/jnivm/internal/field.cpp:SetField", "include/jnivm/jnitypes.h:JNICast"]}
{"id": "C65", "title": "LocalFrame gives a thread back its frames and its attachment", "statement": "A fake-jni LocalFrame whose scope ends, normally or because a C++ exception leaves it, leaves the thread attached exactly if it was attached before, with the same number of local frames and in them the references from before, minus those deleted inside; so no reference made inside survives it. Scopes nest to any depth; the destructors always return and never throw; the exception that leaves the body is the one that leaves the scope; other threads are not affected. Without the VM the constructor throws on a thread that is not attached.", "quantifier": "all VM states, all programs of calls, throws, try blocks and nested scopes in which the thread does not push, pop or detach by hand, with calls of other threads anywhere", "why_tests_cant": "scopes, exceptions and attachments combine without bound; tests use one scope on an attached thread and never look at the frames", "anchors": ["include/fake-jni/fake-jni.h:LocalFrame", "src/fake-jni/fake-jni.cpp:JniEnvContext", "src/jnivm/vm.cpp:PushLocalFrame", "src/jnivm/vm.cpp:PopLocalFrame"]}
{"id": "C66", "title": "start runs the first main exactly once", "statement": "Jvm::start runs the static main with an array of strings (or, without one, the one given to RegisterNatives) of the first class that has such a main, itself or from a superclass, once, on that class, with the given argument, on an attached thread with a frame of its own; it ends as main does: it returns if main returns, throws the exception that main throws or leaves pending, and in both cases the thread has its frames and its attachment back. If no class has a main it throws and changes nothing.", "quantifier": "all VM states, class hierarchies without cycles, orders of the classes, functions and arguments", "why_tests_cant": "which main runs depends on the order of a hash table and on earlier lookups; tests have one class with one main", "anchors": ["src/fake-jni/fake-jni.cpp:Jvm::start", "include/jnivm/class.h:getMethod", "include/jnivm/method.h:MethodProxy", "include/fake-jni/fake-jni.h:LocalFrame"]}
{"id": "C67", "title": "Destroying the VM releases its objects", "statement": "When a VM is destroyed, every object is destroyed with it except those that C++ code keeps with pointers of its own and those that these own, directly or through others; kept objects are unchanged.", "quantifier": "all VM states, all sets of objects that C++ code keeps", "why_tests_cant": "leaks do not make tests fail, and the ownership between objects is unbounded", "anchors": ["include/jnivm/vm.h:VM", "include/jnivm/env.h:ENV", "include/jnivm/object.h:Object", "include/jnivm/array.h:~Array"]}
{"id": "C68", "title": "Sizes given for frames change nothing but memory", "statement": "The size given to LocalFrame, PushLocalFrame and EnsureLocalCapacity only reserves memory: a program does the same with all sizes as without, PushLocalFrame and EnsureLocalCapacity return 0, or return a negative number with a pending exception and have done nothing; whatever the sizes, a scope leaves the thread with the frames and the attachment from before.", "quantifier": "all VM states, programs of nested scopes, sizes (32 bit numbers), amounts of memory, 32 and 64 bit platforms", "why_tests_cant": "tests pass small sizes only and never count frames", "anchors": ["src/jnivm/vm.cpp:PushLocalFrame", "src/jnivm/vm.cpp:EnsureLocalCapacity", "include/fake-jni/fake-jni.h:LocalFrame"]}
{"id": "C69", "title": "C++ code turns references into objects and back", "statement": "A variable that C++ code sets by resolveReference holds the object that the reference denotes and keeps it alive until it is assigned again, whatever any thread does with references; createGlobalReference and createLocalReference give references that denote the object of the variable, kept until they are deleted or their frame is popped, so that resolving them gives the object back; getClass gives the class of the object. On a thread that is not attached all of them throw.", "quantifier": "all histories of calls and assignments by any threads, all variables and objects", "why_tests_cant": "ownership depends on the order in which other owners go; tests look at the object right away", "anchors": ["src/fake-jni/fake-jni.cpp:resolveReference", "src/fake-jni/fake-jni.cpp:createGlobalReference", "include/fake-jni/fake-jni.h:createLocalReference", "src/fake-jni/fake-jni.cpp:getClass"]}
{"id": "C70", "title": "ThrowNew raises the given exception and ExceptionDescribe prints it", "statement": "ThrowNew(class, message) returns 0 and makes pending, for the calling thread only, an exception of the given class with the given message. Until the thread raises, clears or detaches, ExceptionDescribe prints exactly this message, whatever all threads do meanwhile, and changes nothing but that it clears the exception; without pending exception it says so; it is never undefined. An exception thrown again through any reference is described as before. C++ code that invoked the function that called ThrowNew gets a C++ exception with the message.", "quantifier": "all VM states, histories of all threads, messages, classes and texts of C++ exceptions", "why_tests_cant": "what is printed after other calls depends on the exception object staying alive and unchanged; tests never describe an exception", "anchors": ["src/jnivm/vm.cpp:ThrowNew", "src/jnivm/vm.cpp:ExceptionDescribe", "src/jnivm/vm.cpp:Throw", "include/jnivm/throwable.h:Throwable", "include/jnivm/method.h:j2invoke"]}
{"id": "C71", "title": "Elements of object arrays keep what is assigned to them", "statement": "In C++ code array[i] of an array of objects reads as the object last assigned to that element, through every conversion (shared_ptr, pointer, bool, dereference); an element assigned by pointer, reference or shared_ptr is the assigned object itself, null included; other elements and variables are unchanged. The object stays alive and of its type until the element is assigned, whatever the program does otherwise, and is released with its last owner. Objects of a wrong class are refused with an exception that changes nothing; an index out of range is refused.", "quantifier": "all class hierarchies, programs, arrays, indices and objects, C++14 and C++17", "why_tests_cant": "ownership depends on the order in which other owners go, and the behaviour on the language standard; tests compare an element right after assigning it", "anchors": ["include/jnivm/array.h:Arrayguard", "include/jnivm/array.h:operator[]", "include/jnivm/array.h:Array<T>::Get", "include/jnivm/array.h:Array<T>::Set"]}
{"id": "C72", "title": "Exceptions of hooked functions reach the C++ caller of Method::invoke", "statement": "If C++ code calls a hooked C++ function by Method::invoke and the function, or the conversion of its arguments, throws an exception, the caller gets this exception, through any depth of such calls, and it is the pending exception of the thread afterwards; if the function ends normally, invoke does. Exceptions that were caught and cleared do not come back. Everything owned by the calls on the way is released, LocalFrame scopes on the way restore the frames, other threads are not affected, and no exception leaves through a destructor.", "quantifier": "all VM states and class hierarchies, all programs of nested calls, scopes and handlers, all arguments, exceptions and interleavings with calls of other threads", "why_tests_cant": "tests throw through one call at most, in a fresh VM; what happens after an exception was caught depends on the whole history", "anchors": ["include/jnivm/method.h:j2invoke", "src/jnivm/internal/method.cpp:CallMethod", "include/jnivm/wrap.h:Wrapper", "include/fake-jni/fake-jni.h:LocalFrame"]}
{"id": "C73", "title": "Libraries can use the VM while they are unloaded", "statement": "JNI_OnLoad and JNI_OnUnload may attach and remove libraries, attach and detach the thread and look up classes and members, also when the destructor of the VM unloads the libraries: the lookups answer as before, the rules of a Baron VM apply, nothing is undefined. Every library that was opened is closed once, each of its two functions is called once, in order, and the whole always ends.", "quantifier": "all programs, libraries, nestings, answers of the loader, classes, rules and orders of the table", "why_tests_cant": "tests attach one library that does nothing when it is unloaded, and remove it before the VM ends", "anchors": ["src/fake-jni/fake-jni.cpp:libinst::~libinst", "src/fake-jni/fake-jni.cpp:attachLibrary", "src/fake-jni/fake-jni.cpp:removeLibrary", "src/fake-jni/jvm.cpp:CreateEnv", "src/baron/jvm.cpp:CreateEnv"]}
{"id": "C74", "title": "VMs can be made and destroyed while threads use contexts", "statement": "FakeJni::Jvm objects can be made and destroyed, several at the same time in different threads and one after the other: as long as a VM is destroyed after the contexts that use it nothing touches a destroyed VM, every context made for a VM has an environment, destroying a VM takes only its own environments from the threads and leaves all other VMs as they are, and the thread may make another one. Threads that keep VMs and contexts in local variables do not disturb each other.", "quantifier": "all schedules of any number of threads, VMs and contexts; all interleavings", "why_tests_cant": "Tests make one VM per test in the main thread; interleavings of several VMs in several threads and the environment a context really uses are not observed.", "anchors": ["src/fake-jni/jvm.cpp:6-37", "src/fake-jni/fake-jni.cpp:7-55", "src/jnivm/vm.cpp:468-552"]}
{"id": "C75", "title": "A class dump is a C++ program that brings the dumped classes back", "statement": "The text of a class dump, read as a C++ program, compiles and links: every name is declared before it is used, every class is declared before it is completed, what is declared is defined exactly once, InitJNIBinding uses complete classes only. Run in another VM, the program registers all dumped classes and installs every field and every method, so that GetFieldID and GetMethodID find it and it calls the generated function. This holds for every VM state, whatever the classes and members are called.", "quantifier": "all VM states: any number of classes, packages, inner classes, fields and methods, both syntaxes, all target VMs", "why_tests_cant": "the generated text is never compiled by a test; whether it compiles depends on the order of hash tables and on all names and types together", "anchors": ["src/jnivm/internal/codegen/vm.cpp:GenerateJNIBinding", "src/jnivm/internal/codegen/namespace.cpp:GeneratePreDeclaration", "src/jnivm/internal/codegen/class.cpp:GenerateHeader", "src/jnivm/internal/codegen/method.cpp:GenerateHeader", "src/jnivm/internal/codegen/field.cpp:GenerateHeader"]}
{"id": "C76", "title": "The default library functions on Windows open, search and close libraries", "statement": "On Windows the default LibraryOptions behave like dlopen, dlsym and dlclose: the name of a library is converted without leaving the buffer and reaches Windows unchanged; dlopen gives a new handle exactly if Windows gives the module; through an open handle dlsym finds the symbols of the module that was opened and nothing else, whatever is opened and closed in between; closing a handle releases its memory, exactly once, and the library, returns 0 and leaves everything else of the process alone.", "quantifier": "all names, modules, symbols, answers of Windows and histories of calls, mixed with other code that loads and releases modules", "why_tests_cant": "the branch is compiled on Windows only; tests use their own library functions, and whether a library is still loaded is not visible in a test", "anchors": ["src/fake-jni/fake-jni.cpp:LibraryOptions::LibraryOptions", "src/fake-jni/fake-jni.cpp:LibraryOptions_Wrapper"]}
{"id": "C77", "title": "The build without debugging features answers like the default build", "statement": "A library built with JNIVM_ENABLE_DEBUG=OFF answers every program of a client (FindClass, GetMethodID, GetFieldID, hooks, RegisterNatives, GetClass<T>, IsAssignableFrom, GetSuperclass) with the same class names, member addresses and truth values as the default build and ends in the same way; afterwards each class has the same methods, fields, natives and bases in both. In it a class is found again under its name and under no other one, and a lookup that may not create finds exactly the classes that were named.", "quantifier": "all programs of any length, all names and signatures, malformed ones too, all depths of the stack", "why_tests_cant": "tests are built with one setting of the option only; none compares two builds", "anchors": ["src/jnivm/internal/findclass.cpp:InternalFindClass", "src/jnivm/internal/findclass.cpp:Declare", "src/jnivm/internal/method.cpp:GetMethodID", "src/jnivm/internal/field.cpp:GetFieldID", "CMakeLists.txt:34-37"]}
{"id": "C78", "title": "The hierarchy of a VM is that of its C++ types", "statement": "If every C++ type is given one class name, IsAssignableFrom between two classes answers whether the one type is the other or a base of it, and GetSuperclass gives the class of the first base, whatever else happened and in whatever order the types were given. A build with assertions does the same as one without, except that a lookup that comes to a class with a base type that was not given throws before it looks further; if all base types were given, before or after, the builds agree. Every class is assignable to java/lang/Object.", "quantifier": "all histories of registrations, lookups, hooks and natives, all hierarchies, both builds", "why_tests_cant": "which build runs is decided at compile time, and the order of registration and the shape of the hierarchy are unbounded", "anchors": ["include/jnivm/extends.h:GetBaseClasses", "src/jnivm/object.cpp:GetBaseClasses", "include/jnivm/env.h:GetClass", "src/jnivm/vm.cpp:HasBaseClass", "src/jnivm/vm.cpp:GetSuperclass", "src/jnivm/vm.cpp:VM::initialize"]}
{"id": "C79", "title": "A class may be named by any reference to it", "statement": "Every JNI function that takes a class does with a local, global or weak global reference, or with the address of the class, exactly what it does with the class of that name: the same members, the same answer, the same exception. Any two references to a class are the same object. A class is never released, so its address stays good whatever is deleted, popped or detached, and a weak reference to it is never cleared. So every history of calls by any threads does what the program does that finds each class by name.", "quantifier": "all histories of JNI calls and C++ registrations on any threads, all references, classes, members", "why_tests_cant": "tests use the reference right after FindClass; what a reference means later depends on all calls in between", "anchors": ["src/jnivm/vm.cpp:FindClass", "src/jnivm/vm.cpp:GetSuperclass", "src/jnivm/vm.cpp:IsAssignableFrom", "src/jnivm/vm.cpp:IsInstanceOf", "src/jnivm/vm.cpp:RegisterNatives", "src/jnivm/internal/method.cpp:GetMethodID", "src/jnivm/internal/field.cpp:GetFieldID", "include/jnivm/jnitypes.h:JNICast"]}
{"id": "C80", "title": "Hooked and registered functions may use the VM themselves", "statement": "C++ code that makes JNI calls, calls methods, accesses fields, uses Method::invoke and catches exceptions, where the methods it calls are again such code to any depth, ends, normally or with an exception, in a state that calls of the same thread made one after the other lead to: its own calls and those a call of a method consists of (the class of the object, a local reference for it, an exception that becomes pending). So everything proved about histories holds after it; such functions are what the properties of calls ask for; other threads keep their references and exceptions; a class stays where it is; local references last unless the code deletes them. The caller goes on with the result, or with zero and the pending exception. A function that calls itself through the VM n times does so for every n.", "quantifier": "all code, all functions, all depths of nesting, all states after any history, all threads", "why_tests_cant": "tests call functions that make no call or one; the depth and order of nested calls are unbounded", "anchors": ["src/jnivm/internal/method.cpp:MDispatchBase2::CallMethod", "src/jnivm/internal/field.cpp:GetField", "src/jnivm/internal/field.cpp:SetField", "include/jnivm/method.h:jinvoke", "src/jnivm/vm.cpp:GetObjectClass"]}
{"id": "C81", "title": "Threads may run code in the VM at the same time", "statement": "When any number of threads run C++ code of the kind above at the same time, where a thread may be interrupted between any two of its calls, also within a hooked function and before and after it, the state at every moment is one that calls made one after the other lead to, each by the thread that made it. So everything proved about histories of calls holds at every moment; a thread that does nothing keeps its references and exceptions; classes stay where they are; local references of a thread last unless its own code deletes them; a hooked method stays hooked unless somebody hooks it again. A thread that gets its turn again and again ends, if its calls do not nest without end; one that is not interrupted does what it does alone. A function that calls itself through the VM n times counts to n under every schedule if nobody hooks it again.", "quantifier": "all code of all threads, all functions, all depths of nesting, all schedules of any length, all states after any history", "why_tests_cant": "the schedule is chosen by the operating system; tests run one thread", "anchors": ["src/jnivm/internal/method.cpp:MDispatchBase2::CallMethod", "src/jnivm/internal/field.cpp:GetField", "src/jnivm/internal/field.cpp:SetField", "include/jnivm/method.h:jinvoke", "src/jnivm/vm.cpp:GetEnv"]}
{"id": "C82", "title": "Monitors and the library's own locks do not block each other", "statement": "Threads that call the library and enter and leave monitors in between can come to a deadlock exactly if the same threads with their monitors alone can, and do something undefined exactly if those can. In a deadlock no mutex of the library is locked and every thread waits for a monitor; a call of the library that has begun can end whoever is in which monitor; a thread never enters a monitor while it owns a mutex of the library. So threads that enter monitors in one order all come to their end, where nothing is locked. This holds unless code that the library runs under its own mutex, jnienvhooks at AttachCurrentThread and destructors at DetachCurrentThread, enters a monitor: then both threads can wait for good.", "quantifier": "any number of threads, all lists of calls, all schedules, all numbers of objects, all acyclic class hierarchies", "why_tests_cant": "a deadlock depends on the schedule; tests use one thread and no contended monitor", "anchors": ["src/jnivm/vm.cpp:MonitorEnter", "src/jnivm/vm.cpp:MonitorExit", "src/jnivm/vm.cpp:AttachCurrentThread", "src/jnivm/vm.cpp:DetachCurrentThread", "src/jnivm/internal/findclass.cpp:InternalFindClass", "src/jnivm/internal/field.cpp:GetFieldID"]}
{"id": "C83", "title": "Lookups that were made once may be repeated by threads without races", "statement": "A lookup of a class, method or field that is made again at once changes nothing and answers the same. Once made, it changes nothing after any history that neither binds a type nor, if it searches natives, unregisters natives. So after one thread made the lookups a program needs, any number of threads may repeat them at the same time, beside calls on references, arrays, subtypes and class dumps and while threads attach and detach: nobody writes a table that another one reads without its mutex, nobody writes the tables of classes and members at all, and all calls come to their end. This needs a hierarchy without cycle whose base types are all bound. A lookup of a method that makes the method, in contrast, races with every lookup of a method in that class, and binding a type can turn a lookup that found into one that makes.", "quantifier": "any number of threads, all lists of lookups and calls, all schedules, all VM states after any history, all class hierarchies without cycle", "why_tests_cant": "races depend on the schedule and do not fail every time; tests use one thread", "anchors": ["src/jnivm/internal/method.cpp:GetMethodID", "src/jnivm/internal/field.cpp:GetFieldID", "src/jnivm/internal/findclass.cpp:InternalFindClass", "src/jnivm/vm.cpp:FindClass", "include/jnivm/extends.h:GetBaseClasses"]}
{"id": "C84", "title": "The C++ member functions of JNIEnv and JavaVM call the right entry of the table", "statement": "Each member function of JNIEnv and JavaVM calls the entry of the function table at the index that the specification gives to its name, whatever the table holds, passes it the environment and all arguments in order, and returns its result. Functions that take further arguments call the entry for a va_list, which gets exactly the arguments behind the method id; so the variadic entries of the table are never called by C++ code. The declared type of the entry fits. Every function of the specification has a member function and there are no others, and in the table that the VM makes the entry is the implementation of that function.", "quantifier": "all 234 member functions, all tables (also overridden ones), all states, all argument lists of any length", "why_tests_cant": "most of the functions are generated by macros, and a wrong one is only noticed when it is called with distinguishing arguments", "anchors": ["include/jni.h:_JNIEnv", "include/jni.h:_JavaVM", "include/jni.h:CALL_TYPE_METHOD", "include/jni.h:CALL_NONVIRT_TYPE_METHOD", "include/jni.h:CALL_STATIC_TYPE_METHOD"]}
{"id": "C85", "title": "The build that traces calls answers like the one that does not", "statement": "With JNI_TRACE every call of a method, every access of a field and every lookup of a method has the result, the exception and the effect on the VM that it has without; only the output differs.", "quantifier": "all states of the VM after any history, all hooked functions, all forms of calls, all receivers, ids and arguments", "why_tests_cant": "tests are run in one build, and what the printing leaves behind is not looked at", "anchors": ["src/jnivm/internal/method.cpp:CallMethod", "src/jnivm/internal/method.cpp:GetMethodID", "src/jnivm/internal/field.cpp:GetField", "src/jnivm/internal/field.cpp:SetField", "CMakeLists.txt:JNIVM_ENABLE_TRACE"]}
{"id": "C86", "title": "NewObject makes an object of the class or leaves an exception pending", "statement": "NewObject, NewObjectV and NewObjectA with a class and a constructor of it return a reference to a new object of that class, or null with an exception pending. After a constructor was hooked, looking it up as <init> and calling NewObject gives a new object of the class, held by one more local reference of the calling thread, and changes nothing else; if the constructor throws, its exception is pending and null is returned. Two calls give two objects, and GetObjectClass of the result gives the class.", "quantifier": "all states of the VM after any history, all classes, constructors and arguments, all histories between hooking and calling", "why_tests_cant": "tests make objects of a few classes right after hooking, and do not look at what else changed", "anchors": ["src/jnivm/vm.cpp:NewObject", "src/jnivm/vm.cpp:AllocObject", "src/jnivm/internal/method.cpp:CallMethod", "src/jnivm/internal/method.cpp:GetMethodID", "include/fake-jni/fake-jni.h:Constructor"]}
{"id": "C87", "title": "The invocation interface gives each thread its environment", "statement": "AttachCurrentThread, AttachCurrentThreadAsDaemon and GetEnv of an attached thread return JNI_OK and its environment and change nothing; attaching another thread gives it an environment that no other thread has, without references and exception, and changes nothing else. Until it detaches a thread always gets the same environment, whatever the threads do; afterwards it never gets it again. DetachCurrentThread removes only the environment of the caller and what only its references held. GetEnv returns JNI_EDETACHED for a thread that is not attached and JNI_EVERSION for a version that is not supported. GetJavaVM of an environment gives its VM.", "quantifier": "all states of the VM after any history, any number of threads, all histories of calls of the JavaVM and of environments, all versions, all overridden entries AttachCurrentThread", "why_tests_cant": "tests attach one or two threads and pass one version", "anchors": ["src/jnivm/vm.cpp:AttachCurrentThread", "src/jnivm/vm.cpp:DetachCurrentThread", "src/jnivm/vm.cpp:GetEnv", "src/jnivm/vm.cpp:GetVersion", "src/jnivm/vm.cpp:GetJavaVM", "src/fake-jni/jvm.cpp:CreateEnv"]}
{"id": "C88", "title": "What C++ code installs is what a client runs, from the hook to the call", "statement": "After C++ code hooked a method of a class by name, or installed a getter or setter of a field, and after any JNI calls on any threads that do not install the same again, a client that asks for the class with FindClass, for the id with Get(Static)MethodID or Get(Static)FieldID, and calls the method or accesses the field, runs that very function with that class or object and its arguments. It goes on with the result of the function in the state the function left; an exception of a method is pending afterwards, one of an accessor ends the client. A native function that a client registered for a class is, after any calls that do not unregister the natives of that class, what C++ code runs that looks it up and invokes it. Whatever JNI calls do to the tables of classes and members is what a history of the operations on these tables does, and hooks, natives and bound types come from calls that ask for them.", "quantifier": "all states of the VM after any history, all classes, names, signatures and functions (which may call the VM again), all histories on all threads in between, all arguments and continuations", "why_tests_cant": "tests hook a function and call it at once, on one thread and with few other members", "anchors": ["src/jnivm/internal/findclass.cpp:InternalFindClass", "src/jnivm/internal/method.cpp:GetMethodID", "src/jnivm/internal/field.cpp:GetFieldID", "src/jnivm/internal/method.cpp:CallMethod", "src/jnivm/internal/field.cpp:GetField", "src/jnivm/internal/field.cpp:SetField", "src/jnivm/vm.cpp:RegisterNatives", "include/jnivm/class.h:Hook"]}
{"id": "C89", "title": "A client that checks after a call catches what the function threw", "statement": "A client that calls a method and then checks with ExceptionCheck goes on with the result if the function returned and left nothing pending. If the function threw, ExceptionOccurred gives the client a local reference to a throwable that carries exactly what was thrown, and after ExceptionClear nothing is pending; if the function returned but left an exception pending, the client gets that one. This holds from the hook on: after C++ code hooked a static function and any calls followed, a client that finds the class and the method by name and calls it has this. An exception from any depth of calls below reaches the client if the functions between only return, and a caught exception that is passed to Throw is pending again, the same object.", "quantifier": "all states of the VM after any history, all forms of calls, all functions (which may call the VM again), all arguments, handlers and continuations", "why_tests_cant": "tests throw one exception and look whether one is pending; what the reference is, and that it outlives ExceptionClear, is not looked at", "anchors": ["src/jnivm/vm.cpp:ExceptionCheck", "src/jnivm/vm.cpp:ExceptionOccurred", "src/jnivm/vm.cpp:ExceptionClear", "src/jnivm/internal/method.cpp:CallMethod"]}
{"id": "C90", "title": "Objects can be handed from thread to thread by references and arrays", "statement": "After a thread made a global reference to an object with NewGlobalRef, and after any calls on any threads that do not delete that reference, NewLocalRef of it on any attached thread gives a local reference to that very object. The local references of the first thread and the thread itself may be gone by then. The object still has its C++ type, its content except for assigned elements and variables, and its class. With a weak global reference a thread gets the object while it is alive and null otherwise. An object stored in an object array is what any thread with a reference to the array gets from it, after any calls that do not store there.", "quantifier": "all states of the VM after any history, all objects and references to them, all histories of JNI calls on any number of threads in between", "why_tests_cant": "tests use a global reference on one thread right after making it", "anchors": ["src/jnivm/vm.cpp:NewGlobalRef", "src/jnivm/vm.cpp:NewWeakGlobalRef", "src/jnivm/vm.cpp:NewLocalRef", "src/jnivm/internal/array.cpp:SetObjectArrayElement", "src/jnivm/internal/array.cpp:GetObjectArrayElement", "src/jnivm/vm.cpp:DetachCurrentThread", "include/jnivm/jnitypes.h:JNICast"]}
