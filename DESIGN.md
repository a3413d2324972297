# Formal model of libjnivm: design

## What is modelled

`/repo` is ChristopherHX/libjnivm, a C++ library that pretends to be a Java VM:
it fills the `JNIEnv`/`JavaVM` function tables, fabricates classes, methods and
fields on demand and lets C++ code hook them.  The model is written in Lean 4
(core library only unless a file says otherwise) under `lean/Verif`.

* `Verif/Model/*`  – executable model, function by function, with file:line cites.
* `Verif/Spec/*`   – small specifications that do not mention the model.
* `Verif/Lemmas/*` – helper lemmas and invariants.
* `Verif/Props/*`  – the property theorems (one file per group) and, beside each
  theorem or group of theorems, an `example` or a `sample_…` theorem showing that a concrete
  non-trivial case meets the hypotheses (for C16 to C19 see `MemberExamples`).

The modelled build is the default CMake configuration: `EnableJNIVMGC` on,
`JNI_DEBUG` on (off in `Release`), `JNI_TRACE` off (on in `Trace`), `JNI_RETURN_NON_ZERO` off (on in `Defaults`).  Where
`JNIVM_FAKE_JNI_SYNTAX` matters (code generator) both values are modelled.

### Outcomes

C++ code can return, throw, or have undefined behaviour.  These are different
outcomes in the model:

    inductive Res α | ok (a : α) | throws (e : Exn) | ub (u : UB) | diverges

`ub` is produced by every out-of-range read or write, null dereference, use of a
released object, mismatched `va_arg`, signed overflow, unlock of a mutex that is
not held, unsynchronised write and overlapping copy, at the place where the C++ code
would do it.  `diverges` stands for unbounded recursion (only possible on cyclic
inheritance graphs).  A theorem that says a call is safe says that its result is
not `ub`.

### Conventions

* Pointers into C strings and `std::string` buffers are indices; index `length` is
  readable and holds NUL, a larger index is `ub`.
* `shared_ptr` identity is a number that is never reused; a released object is
  absent from the heap, so using a stale handle is `ub`.
* `std::unordered_map` is an association function/list; iteration order is never
  observable in the modelled functions unless stated.
* A critical section of one mutex is one atomic step; code outside of a mutex is
  split into separate steps.  Interleavings are arbitrary lists of (thread, step).
* User code (hooks, natives, `JNI_OnLoad`, accessors) is an arbitrary function on the
  modelled state, or an arbitrary part of the history.

## Plan per property

Status and theorem names are in MANIFEST.json.  "Model" is the file with the
definitions, "proof" the shape of the argument that was planned and carried out.

| id | model | proof |
|----|-------|-------|
| C01 | `Strings`: bytes, per-char coder, the loops of NewString, GetStringLength, GetStringRegion | round trip per char by bit lemmas, then induction over the char list with a moving index |
| C02 | `Strings` | equality with an arithmetic specification of modified UTF-8 (`Spec/Mutf8`); injectivity from the round trip |
| C03 | `Strings` | strlen lemma |
| C04 | `Strings` | well-founded induction on remaining bytes; success iff the content splits into groups |
| C05 | `Strings`; `start`, `len` are integers | slice theorem in range; the unrestricted safety claim fails: witness, and an exact characterisation as `_partial` |
| C06 | `Strings` | induction |
| C07 | `Sig`: SkipJNIType on (text, index) | descriptors as an inductive type with a renderer (`Spec/Descriptor`), structural induction |
| C08 | `Sig`: JValuesfromValist with a typed vararg list, `va_arg` mismatch is `ub` | induction over the parameter list |
| C09 | `Sig` | fails (array of nothing at end of text): witness; `_partial` for an exact class of texts |
| C10 | `Registry` + Declare | induction over the signature |
| C11 | `Sig`: jinvoke | list lemmas about the last `)` |
| C12–C15 | `Registry`: namespaces and classes as a heap of nodes with child lists, `vm->classes` map | monotonicity of lookups; local path invariant (`nativeprefix` = path); induction over histories |
| C16–C19, C26 | `Members`, `MemberOps`: class records with method and field tables, base lists | depth-first search specification as an inductive relation; reflexive-transitive closure for C26; invariants over histories; negations where later overrides or multiple inheritance change the answer |
| C20, C21 | `Members`, `MemberOps`: hook install, RegisterNatives, UnregisterNatives | list lemmas; "latest registration wins" fails: witness + `_partial` |
| C22–C24, C52 | `Calls`: virtual, non-virtual, static calls and field accesses on `World × Heap`, handlers are arbitrary | exact choice of the implementation for all calls; witnesses for intermediate override and null method; `_partial` with the missing condition as hypothesis |
| C25, C27–C34, C38, C40, C48, C51 | `Heap`: objects, arrays and objects with variables, strong/weak edges, frames per thread, globals, pending exceptions; releasing is reference counting with cascade | invariants by induction over all operations of all threads; refinement to multisets; projection lemma over interleavings (C38) |
| C35 | `Heap`: attach, detach, the map of environments | invariant over schedules |
| C36 | `Race`: small-step critical sections of GetFieldID and GetMethodID | linearisation (fields); witness schedule with two ids and a data race (methods), `_partial` for methods that can already be found |
| C37 | `Monitor` | invariant over schedules |
| C39 | `Arrays`: blocks of bytes, native pointers | slice lemmas on byte lists; out-of-range safety fails: witness for every array |
| C41 | `Table`: both tables transcribed | kernel evaluation of the complete finite tables, lifted to a statement over all slots |
| C42 | `Override` | invariant over override histories |
| C43, C44 | `Baron` | equivalence with a rule-set specification; negation for nested classes and signatures |
| C45 | `Context` | bracket lemma by induction over nesting |
| C46 | `Library` with an arbitrary loader | trace invariant |
| C47 | `Proxy` | case analysis against a specification of kinds |
| C49 | `HookSig`: C++ types as data, the signature made from them, installed forms, argument conversion | structural induction, composition with C07/C08 |
| C50, C53 | `Codegen`: parseJNIType and the five generator files | structural induction on types and on the class tree; text equality with a specification |
| C54 | `Locks`: each call as its list of lock operations and table accesses, with arbitrary answers of the tables; threads with mutex owners | lock order by rank (VM mutex last), invariant over schedules, progress by induction on the rank, completion by the number of actions left; witnesses for the cycle and for destructors |
| C55 | `Locks` | lock set invariant for the protected tables; witness schedules for the others |
| C56 | `TypedArrays`: final overriders of `Get`/`Set` computed from the inheritance graph of the element types | the overrider for the type and its direct bases is the type's own; exact condition for all other views; invariant over histories of writes |
| C57 | `ObjArgs` on top of `Heap`: conversion of each parameter form, temporaries as owners while the function runs, results | every conversion is a step that changes no denotation, so all arguments are converted in the initial state; invariant of the ownership of temporaries over arbitrary bodies; collection is the identity when everything is owned; `ArgsAmid` interleaves calls of other threads with the single conversions, with an invariant over the steps that secured references keep their denotation |
| C58 | `Buffers`: `Heap` with contents of strings and buffers and the arrays made by `new jchar[]` | each call changes contents only of new objects and arrays in one of three ways; counting of hand-outs and returns by induction over histories; computing the length checks every byte, so reading cannot throw after the allocation |
| C59 | `Invoke` on top of `ObjArgs`: conversion of C++ arguments to `jvalue`s, the two sides of the call, ownership by parameters and temporaries | each conversion is a step with an exact effect on frame, classes and new objects; local references of the caller keep what was handed over while other threads run; nested ownership of temporaries; nothing is collected when the function is idle, so calls can be counted |
| C60 | `Descriptor` on top of `HookSig`: entries, flags, `registerClass`, `getDescriptor` | each entry is a sequence of promises; registration keeps them one after another and depends only on the tables; exact lookup after a hook, folded over all promises; updates of different members commute and of the same member replace each other, so that a second registration is the identity |
| C61 | `CppArrays`: allocations of elements, array objects with `data`, `length`, `owner` | invariant by induction over histories of rule-keeping code: owners and allocations correspond one to one; copies of owners break it in every state |
| C62 | `Spec/CppText`: a reader for the generated declarations and binding lines; `Codegen`, `HookSig`, `Descriptor` | reading inverts printing line by line; each line that is read is an entry of a descriptor with exact promises; the promises of all classes are kept by running the blocks or registrations one after another; lookups of distinct members do not interfere |
| C63 | `Defaults`: classes with what their `Instantiate` makes, `defaultVal`, `VM::initialize` | invariant that relates classes, types and makers to the list of types given so far, by induction over histories; one theorem per result type |
| C64 | `FieldVars` on top of `Heap` (objects with variables): get and set by type of variable, static and member variables | each access is at most one step of `Heap`; variables are changed only by the set that names them, by induction over histories of all threads; a typing invariant for pointers; witnesses for `jobject` and for cycles |
| C65 | `LocalFrame` on top of `Heap`: programs of calls, throws, try blocks and nested scopes | mutual induction over programs: the innermost frame only grows, references may be missing, everything below stays; the constructor and the destructors are exact steps |
| C66 | `Start` on top of `Proxy` and `LocalFrame`: the loop over the classes in any order | induction over the classes without `main`, each an empty scope; then one invocation between constructor and destructor of the scope, with every outcome of `main` as a case |
| C67 | `Destroy` on top of `Heap`: the tables of the VM are dropped, then everything that nobody owns | exact fixpoint of the release loop: an object survives iff a backward chain of owners ends in a root or, because there are finitely many objects, repeats one |
| C68 | `FrameSize` on top of `LocalFrame`: `reserve` with a platform and an allocator as parameters, scopes with sizes | refinement to the programs without sizes by mutual induction; depth of the frames bounded by the number of sizes that do not fit |
| C69 | `CppRefs` on top of `Heap`: a variable of C++ code is a hidden global reference | invariant: hidden owners are distinct, in the table and never named by calls; everything else is inherited from C28 |
| C70 | `Except` on top of `Heap`: a `Throwable` may contain no exception; what is printed is a value | the exception inside the pending object is kept by every call that does not touch it; induction over histories for the absence of empty ones |
| C71 | `Guards` on top of `TypedArrays`: objects, `shared_ptr` variables and arrays of C++ code | invariant: owned objects exist, managed objects are owned; frame properties per statement |
| C72 | `Unwind` on top of `Invoke` and `LocalFrame`: programs of nested calls, scopes and handlers with the exception that leaves them | mutual induction over programs: well-formedness, owners given back in order, frames, pending exception; each call is split into begin, enter, body, leave, end |
| C73 | `Unload`: a machine with a stack of what is still to be done, over `Library` and `Baron` | weight that decreases with each step; every object not yet destroyed is held by exactly one place of the machine, with what has happened for it |
| C74 | `Lifetime` on top of `Context`: VMs are made and destroyed by steps of the schedule; using one that does not exist is undefined | invariant: entries and contexts refer to existing VMs; for separate threads a simulation of each thread by its stack of local variables |
| C75 | `Spec/CppProgram`: a reader of whole C++ texts, line by line, with the declared names, complete classes, definitions and the body of `InitJNIBinding`; running the program that was read | each part of the dump (`dump_text`) is read from an arbitrary state of the reader by induction over its lines, then the parts are put together; running is `regenerate_partial` |
| C76 | `WinLoader`: wrappers, references to modules and kernel handles; the answers of Windows are part of the calls | invariant over histories: the wrappers are those of the open handles; references are counted exactly |
| C77 | `Release`: the functions of the registry and the member tables without `JNI_DEBUG`; a program of a client is run by both builds, classes named by what is passed to `FindClass` | relation between the two worlds (classes found by the same name have the same tables, classes only the default build knows have none), kept by every operation |
| C78 | `Asserts`: lookups that throw when a base type has no class, the types of `VM::initialize` | invariant over histories: bound types and base lists are those of the declarations; search order induction with the place where it throws |
| C79 | `Jni`: the tables of `MemberOps` and the objects of `Heap` in one state, calls with references on threads; the registry learns of every class that has an object | invariant over histories: both halves reachable, every class object is a class of the registry, one object per name (`ClassTable`); conversion of a reference is finding the name; a translation of histories into programs by name, answer by answer |
| C80 | `Nested`: C++ code as a tree of calls whose continuation depends on the answers; functions are again such code, followed to a given depth | invariant of scripts: whatever JNI calls, the class of an object, a conversion, a raised exception and a new local reference keep, every script keeps; instances: reachable from the state before by calls of the thread, well-behaved; deeper following changes nothing but `diverges` |
| C81 | `ThreadsRun`: the code of `Nested` cut into steps (continuation passing), a pool of threads and a schedule | simulation: the steps of a thread alone come to the end that `Script.run` gives; invariant of programs under any state in order, instance: reachable by calls of the thread; induction over schedules; fairness by induction over the program |
| C82 | `Waits`: threads whose programs are lists of library calls (`Locks`) and monitor operations | invariant: the part of the current call is in lock order, a thread at a monitor holds no mutex; projection to the monitors and its converse (finish all begun calls, then take the monitor's step); for ordered monitors induction over the rank of the monitor that is waited for, then over the number of actions left |
| C83 | `Warm`: lookups as functions on the tables (`Members`) and as lists of locks, reads and writes (`Locks`) of one VM state | a search that finds in the tables finds in the list of accesses, so it writes nothing; more members answer at least as much (monotonicity of the search); no thread writes an unguarded table; the first lookup by running one thread alone up to its write |
| C84 | `Wrappers`: the member functions as data (entry, arguments, result), transcribed by a script, and their meaning on an arbitrary table | one check of the whole list by the kernel, lifted by lemmas on the evaluation of arguments to all tables, states and argument lists; with C41 to the implementation |
| C85 | `Trace`: calls, accesses and lookups with the statements under `JNI_TRACE`, without the output | equality of outcomes case by case; `ExceptionDescribe` of a just raised exception changes nothing; the effect of `GetObjectClass` as a relation of two heaps (`OnlyLocals`) |
| C86 | `NewObject`: the static calls of `Calls` and hooked constructors on the heap | what making one object does to the heap, in full; then the call around it, the lookup by C18 and C20; spec `MadeObject` relates the two states |
| C87 | `Invocation`: the five functions of the table on the heap, the entry `AttachCurrentThread` being a parameter; several VMs by `Context` | each call is a history of the heap of length at most one, so C35 carries over to all histories; spec relations `AttachSpec`, `DetachSpec`, `GetEnvSpec`; for several VMs the invariant that a thread has one entry per VM |
| C88 | the models of `Jni` and `Nested`; the client is a `Script` of three calls | every JNI call is a history of the operations of `Members` (`ByMem`), so C20 carries over to JNI histories; the accessors of a field are kept by every operation but their installation (`FieldKept`), and natives by every operation but unregistering (`NativeKept`); then C80 for the call; spec `CausedBy` says which call an operation comes from |
| C89 | the models of `Heap`, `Jni` and `Nested`; the client is a `Script` (spec `orCatch`) | the effects of the three calls on the pending exception and the frames (`Heap.effect_exec`), collection keeps what a frame holds, kinds of objects never change (`runStep`); then `Handled` for the call and C88 to find the method; spec `Caught` |
| C90 | the models of `Heap` and `Jni` | a JNI history is a history of the heap (`Grows`), in which only deleting calls delete; C28 and C31 for the reference, kinds and classes of objects never change (`runStep`); spec `StillIs` |

## Findings

Properties that turned out to be false are proved to be false by the theorem in
brackets; the strongest true part is kept as a `_partial` theorem.  Undefined behaviour
is meant in the sense of the C++ standard.

* C05/C39: `GetStringRegion` and the array regions do not check bounds
  (`getStringRegion_not_safe`, `region_out_of_range`); a null array and a buffer
  overlapping the region are undefined too (`array_null`, `region_overlap`).
  `NewArray` leaks an allocation of the size of the array (`new_array_leaks`).
* C09: a signature that ends inside an array or class type is read past its end
  (`signature_read_past_end`, `signature_cut_array_ub`, `declare_unterminated_ub`).
* C11: a return type whose name contains `)` is dispatched wrongly
  (`jinvoke_kind_counterexample`).
* C16/C19: ids change when a subclass hook or another base class is added
  (`method_id_unstable_hook`, `method_id_unstable_multiple_inheritance`,
  `field_id_unstable_multiple_inheritance`); GetFieldID without class is undefined
  (`field_null_class_ub`); cyclic hierarchies recurse forever (`lookup_cyclic_diverges`).
* C20/C21: a hook installed after a native of the same name is never reached
  (`hook_after_native_ineffective`), a second RegisterNatives does not replace the
  first for method lookups (`register_stale`); the table of natives is keyed by the
  name only.
* C22: a virtual call skips overrides between the receiver's class and the class of the
  id (`virtual_call_skips_override`) and ignores all overrides for an id without
  implementation (`virtual_call_unhooked_id`).
* C23: a non-virtual call on a class that only inherits the method dereferences null
  (`nonvirtual_inherited_ub`); implementations given by member pointers never run
  non-virtually (`nonvirtual_member_pointer`).
* C24: exceptions escape when the class argument is no class (`call_escapes_class`) and
  when the signature of a variadic call is malformed (`callV_escapes_signature`).
* C25: `Throw(null)` clears the pending exception (`throw_null_clears`).
* C26: `IsInstanceOf` of an object without class dereferences null
  (`instanceOf_classless_ub`).
* C29: arrays that contain themselves are never released (`array_cycle_leaks`).
* C33: `PopLocalFrame` hands back a cleared weak reference (`pop_cleared_not_null`).
* C34: `NewObjectArray` stores a global or weak reference itself (`array_ref_type_wrong`).
* C36: two threads can create the same method twice and push to the vector without lock
  (`methods_disagree`, `methods_race`).
* C37: leaving a monitor one is not in, dropping the last reference to a locked object
  and null are undefined; detaching keeps monitors (`monitor_null`,
  `monitor_object_released`, `monitor_after_detach`).
* C40: object array indices are not checked (`index_unchecked`).
* C43/C44: an empty query name is no wildcard (`empty_name_no_wildcard`); outer classes
  of inner classes, classes named in signatures and constructors looked up as static
  methods are fabricated although denied (`denied_outer_class`,
  `denied_signature_class`, `denied_constructor`).
* C45: a context for one VM on a thread attached to another VM yields the other VM's
  environment (`context_wrong_vm`); a default context without environment throws, detach
  inside a context breaks it, thread exit inside a context aborts
  (`context_default_throws`, `detach_inside_context`, `exit_inside_context`).
* C46: a library whose `JNI_OnLoad` throws stays open (`library_leak`); a path whose
  load failed stays registered (`library_after_failure`).
* C47: `getMethod` hides natives (`getMethod_hides_native`), `operator bool` is false if
  both a member and a static exist (`proxy_bool_both`), `invoke` rethrows exceptions that
  were pending before (`invoke_stale`). A constructor found as `("()V", "<init>")` can be
  invoked neither on the class nor on an object (`getMethod_init_useless`); found with the
  signature it is recorded under it converts to false (`init_written_out`).
* C48: `ToReflectedMethod`/`FromReflectedMethod` yield null unless the class of the
  method object was set before (`reflect_null`).
* C49: types without Java name make hooks throw (`hook_nameless_throws`), unregistered
  bases dereference null (`hook_unregistered_base_ub`), names with `;` break signatures
  (`hook_semicolon_breaks`), accessors with too many parameters are silently ignored
  (`hook_ignored`).
* C50/C53: the generator reads past malformed signatures that GetMethodID accepts
  (`dump_cut_signature`); `a/b` and `a$b` give the same C++ type (`codegen_types_clash`);
  overloads are bound ambiguously (`codegen_overloads_ambiguous`).
* C52: exceptions of accessors escape, a static/instance mismatch aborts
  (`field_exception_escapes`, `field_static_mismatch`).
* C54: the deadlock that a comment in include/jnivm/jnitypes.h:287 asks for is `FindClass` on a
  class object without class (`getClass_lock_relocks`); without that lock, `GetFieldID` on
  a class that is its own base class and destructors that use JNI during
  `DetachCurrentThread` still lock twice (`field_cycle_relocks`, `detach_destructor_relocks`).
* C55: lookups of classes by `GetMethodID`, `NewGlobalRef`, array creation and the dump race
  with `FindClass`; `typecheck`, base classes, methods, fields (accessors) and environments
  (`VM::GetEnv`) are used without their mutex (`classes_race`, `types_race`, `bases_race`,
  `class_methods_race`, `class_fields_race`, `envs_race`).
* C56: an `Array<T>` for a class `T` that extends `Object` through another class is accessed by JNI
  through the override made for the other class, which casts the cells to the wrong
  `std::shared_ptr` type (`typed_view_exact`, `jni_array_of_grandchild`); the type check there is
  the one of the other class too.  With two bases that both extend `Object`, and `Object` not in
  the list, `Array<T>` does not compile.  "Class Type Exception" is a C++ exception and leaves
  `SetObjectArrayElement`.
- Parameters of hooked functions (C57): a `T&` or `const T&` parameter is bound to an object that
  nothing owns during the call (the `shared_ptr` made by `UnpackJObject` dies inside `JNICast`); if the
  function or another thread drops the last reference meanwhile, it dangles.  A `T*` (also `jclass`
  and `jthrowable`) parameter puts a local reference into the caller's frame at every call and leaves it
  there.  A member function called with null, or with a weak reference whose object is gone, is called
  on a null pointer.  The same weak reference passed for two parameters can be an object for the first and
  null for the second (`amid_weak`).
- C58: `GetStringUTFChars` returns a pointer into the string and keeps no reference
  (`utf_pointer_dangles`); `GetStringChars(null)` leaves `*isCopy` unset and returns an array that has to
  be released, while arrays of other strings are not NUL-terminated; `GetDirectBufferAddress` and
  `GetDirectBufferCapacity` dereference null, and throw a C++ exception for objects that are no direct
  buffers instead of returning null or -1.
- C59: `Method::invoke` copies an argument of type `T*` when the caller is compiled as C++14, the standard
  the library's targets ask for (CMakeLists.txt:12), because `weak_from_this` is used only with C++17
  (include/jnivm/jnitypes.h:57-65): the function works on another object than the caller passed
  (`pointer_copied_cpp14`), so the meaning of a call depends on the caller's language standard.
- C59: every call through `invoke` leaves local references in the caller's frame: the receiver, its
  class, each object argument and each pointer parameter (`invoke_leaves`, `invoke_leak`); a loop that calls
  `invoke` without pushing frames grows the frame without bound.  `jclass`, `jthrowable` and `jstring`
  arguments do not compile.
- C60: `getDescriptor` (fake-jni.h:261-267), which is also `getClassInternal` of the objects, should register
  a class at its first use, but asks `GetClass` first, which sets `baseclasses`, and registers only if
  `baseclasses` is not set.  It never registers (`descriptor_never_registers`): a class that nobody
  registered explicitly has no members.
- C60: a function that belongs to no object and is listed without flags becomes an instance method
  unless `JNIVM_FAKE_JNI_MINECRAFT_LINUX_COMPAT` is defined (`descriptor_promotes`).
- C61: array objects have no copy constructor or assignment of their own.  A copy shares the memory and both
  destructors delete it (`copy_double_free`); assignment also leaks (`assign_leaks`).  The library itself copies
  objects that are passed or returned as `T*` or `T&` and are not shared, always in C++14 (jnitypes.h:59-75),
  or are stored in object arrays that way (array.h:124-140).
- C61: `Array(vector)` truncates the number of elements to 32 bits (`vector_length_truncated`), and
  `Array(data, length, false)` accepts a negative length (`array_of_pointer_negative`).
- C62: generated code binds methods as `&C::name`.  For overloaded methods, or a field and a method of one name,
  it does not compile (`regenerate_overloaded`).
- C62: without the fake-jni syntax static functions and constructors take the class as a parameter, and `Hook`
  binds them with and without `java.lang.Class` in the signature.  If constructors `(Class, T..)` and `(T..)`
  exist, the binding of the second replaces the first, so that `new C(Class, T..)` runs `new C(T..)`
  (`regenerate_constructor_hidden`).
- C62: `javatypes.h` has no alias for `java/lang/ref/WeakReference`, so members that mention it do not compile,
  and has aliases `java::lang::Array` and `internal::lang::Weak`, which do not keep classes of that name from
  being declared again (`regenerate_aliases`).
- C63: `defaultVal` has no case for `[Z`, so that arrays of booleans are null (`default_boolean_array`).
- C63: for an array of arrays `defaultVal` passes the array class itself as element class to `NewObjectArray`, so the
  result has one dimension too many (`default_nested_array`).
- C63: for an array of a class, `defaultVal` does not check what `FindClass` returned.  In fake-jni VMs every unknown
  class, in Baron VMs every denied one, leads to a null dereference (`default_refused_array`).
- C63: `Instantiate` gives the object the class that its C++ type has now, not the class it belongs to
  (`default_renamed`).
- C63: a default result of a denied class makes up the class, after which `FindClass` of Baron finds it
  (`default_denied_class`).
- C64: a field hooked to a variable of class type is read as a new object each time.  The copy has the `clazz` of the
  object that was set, even if that was of a derived class, although only the part of the base class was copied
  (`field_copy`).
- C64: a field hooked to a variable of type `jobject` keeps the reference, not the object.  After `DeleteLocalRef`
  it gives back a reference that is no longer valid (`field_handle_dangles`).
- C64: `SetObjectField` ignores a null object, `GetObjectField` dereferences it (`field_of_null`).
- C65: `LocalFrame` can be copied.  The copy pops a frame of its own when it is destroyed, although none was pushed
  for it, so that the thread loses the innermost frame from outside of the scope (`frame_copied`).
- C66: `Jvm::start` stops at the first class for which `getMethod` finds something.  If that is a member function, the
  invocation throws `NoSuchMethod` (`start_member`), with a static one beside it an exception about ambiguity
  (`start_ambiguous`), although a class after it has a proper `main`.
- C66: `start` pops the innermost frame, whoever pushed it: a `main` that pops a frame too many takes away local references
  of the caller (`start_pops`).
- C66: `createMainMethod` does not work in fake-jni VMs.  Their `findClass` does not make up classes and nothing
  registers "fakejni/impl/createMainMethod", so the class is null and is used (`main_method_fake`).
- C66: `GetStaticMethodID` makes up functions that do not exist.  If somebody asked any class for `main`, `start` can
  pick this class and returns without having run anything (`start_unhooked`).
- C67: arrays that contain themselves, directly or through others, survive the VM (`destroy_leaks`).  `live_exact` and
  `destroy_exact` show that there are no other leaks.
- C68: `PushLocalFrame` with a negative or too large size throws a C++ exception after it has pushed the frame
  (`room_throws`), so `LocalFrame(vm, -1)` leaves a frame behind (`sized_not_restored`) and an enclosing scope then keeps
  its references (`sized_keeps_locals`).
- C69: `createGlobalReference` dereferences null on a thread that is not attached (`cpp_detached`).
- C70: `ThrowNew` ignores the class, all its exceptions have class java/lang/Throwable (`throwNew_loses_class`); `ExceptionDescribe`
  does not clear the exception (`describe_not_cleared`); a `Throwable` made by `NewObject` (default results) and thrown makes
  `ExceptionDescribe` and `invoke` rethrow a null `exception_ptr` (`describe_bare_throwable`, `shown_pends`).
- C71: `array[i] = *p` and `array[i] = p` store a copy in C++14 (the default of the library), sliced to the static type, while in C++17
  they store the object itself (`guard_copied_cpp14`, `guard_slices`); indices are not checked (`guard_index_unchecked`).
- C72: the exception thrown by `Method::invoke` stays pending, so C++ code that catches it and goes on gets it again from the
  next `invoke`, of whatever function, unless it calls `ExceptionClear` (`unwind_caught`, `unwind_stale`).
- C73: a Baron VM that is destroyed with libraries attached destroys its rules (`denyClasses` …) first; a lookup of something
  unknown in `JNI_OnUnload` then reads them (`unload_unknown`).  Removing the libraries before helps.
- C74: a `JniEnvContext` made for one VM in a thread that is attached to another VM uses the environment of the
  other one and dangles when that is destroyed (`life_borrowed`).  A thread cannot have two VMs: the second
  constructor throws (`life_two_vms`).
- C74: `Jvm::findClass`, `GetJNIEnv` and `createGlobalReference` dereference null in a thread that is not attached
  (`life_direct`); `JniEnvContext` attaches, they do not.
- C75: the reader refuses class names that are looked up without scope by the generated code (`std`, `jnivm`, `jint`
  and so on) in every package, which is stricter than C++ in some cases.  Macros, and identifiers that C++ reserves,
  are not known to it.
- C75: three kinds of VMs for which the class dump does not compile, each with a proved witness: a class named like a
  package (FindClass("a") and FindClass("a/B") give `class a` and `namespace a` in the same scope, `program_clash`); a
  member of a class whose type is an inner class of one of its inner classes, or two classes that name inner classes of each
  other (`program_inner_inner`, `program_inner`, `program_mutual`): C++ can declare `B::C::D` only inside of `B::C`, and the
  generator completes `B` before `B::C`; a member named like one that the generated classes have anyway
  (`program_reserved`).  `program_needs` shows that no order of the classes helps.
- C76: on Windows `dlclose` calls `CloseHandle` with a module: the library stays loaded for ever (`win_references`), and a
  kernel handle of other code with the same number is closed (`win_close_answer`, `win_example`).
- C77: a signature with an `L` but no `;` behind it makes the default build read out of bounds; the build without
  `JNI_DEBUG` makes the member (`release_unclosed`).  Lookups that may not create find enclosing classes only in the
  default build (`release_query_differs`), and `Class::name` of a nested class differs (`release_simple_name`).
- C44: `isMethodDenied` makes a `std::string` of a null name (`baron_null_name`).
- C78: `java/lang/String`, `Class`, `Throwable` and the other classes of a new VM inherit `Object::GetBaseClasses`, which
  returns one null pointer, so `IsAssignableFrom(String, Object)` is false and `GetSuperclass(String)` null
  (`string_not_object`, `rootless_not_object`); the same for classes that `FindClass` makes up (`made_up_not_object`).
- C04: `GetStringLength` tests for a negative length after `length++` has overflowed, which is undefined, so a string of 2^31
  chars or more is not refused reliably (`string_too_long`); `GetStringUTFLength` throws.
- C79: `GetSuperclass` returns the address of the class without a local reference, which the JNI demands; a client that
  deletes it deletes the local reference of an earlier `FindClass` (`superclass_takes_local`).
- C85: with `JNI_TRACE` the printing has effects of its own: calls of methods without implementation and all accesses of
  fields leave a local reference to the class of the object (`trace_adds_locals`), for a null object a class "Invalid" is
  made (`trace_null_makes_class`), a cleared weak reference is dereferenced (`trace_cleared`), a class argument that is no
  class lets `bad_cast` escape (`trace_bad_class`), and a lookup in a null class passes a null pointer to `%s`
  (`trace_null_lookup`).
- Not part of a property: with `JNIVM_ENABLE_GC=OFF` src/jnivm/vm.cpp does not compile (the parentheses at the tables of
  interface functions are unbalanced), so the model is of the default.
- C86: `NewObject` with a constructor that is not hooked, or a null id, returns null and no exception is pending
  (`new_object_unhooked`); with a constructor of another class it makes an object of that other class
  (`new_object_other_class`).  `AllocObject` is not implemented and returns null (`alloc_object_null`).
- C87: `GetEnv` attaches a thread that is not attached instead of returning `JNI_EDETACHED` (`get_env_attaches`) and accepts
  every version instead of returning `JNI_EVERSION` (`get_env_version`).  With fake-jni a thread that has an environment of
  one VM makes `AttachCurrentThread` of another VM throw through the C interface; a null entry stays in `jnienvs`
  (`attach_second_vm`).  `DestroyJavaVM` returns `JNI_OK` and does nothing (`destroy_nothing`).
- C88: a hook of an instance method does not take effect when a native method of that name and signature was registered
  before (`hook_after_native_ineffective`), so `hook_program_partial` excludes that.  A native that is registered a second time is not the one that runs
  (`register_stale`), so `native_program_partial` is of the first registration.

## Which code is modelled

| code | model | left out |
|------|-------|----------|
| src/jnivm/internal/stringUtil.cpp, string.cpp | `Strings` (content), `Buffers` (objects and pointers) | – |
| src/jnivm/internal/skipJNIType.cpp, jValuesfromValist.cpp | `Sig` | – |
| src/jnivm/internal/findclass.cpp, include/jnivm/internal/codegen/namespace.h | `Registry` | – |
| src/jnivm/internal/method.cpp, method.h | `Members` (lookup), `Calls` (calls), `Race`, `Locks` (threads), `Defaults` (`JNI_RETURN_NON_ZERO`), `Trace` (`JNI_TRACE`), `NewObject` | the text of log output |
| src/jnivm/internal/field.cpp | `Members`, `Calls`, `Race`, `Locks`, `FieldVars` (fields that are C++ variables), `Trace` (`JNI_TRACE`) | the text of log output |
| src/jnivm/internal/array.cpp, include/jnivm/array.h | `Arrays`, `Heap` (object arrays), `TypedArrays` (arrays of C++ classes), `CppArrays` (memory of array objects), `Guards` (`array[i]` in C++ code) | the unused `Array<Y,Z>` |
| src/jnivm/env.cpp, object.cpp, include/jnivm/{env,object,weak,throwable,vm}.h | `Heap`, `Destroy` (destructors) | – |
| src/jnivm/vm.cpp | `Heap`, `MemberOps`, `Monitor`, `Table`, `Override`, `Context`, `FrameSize`, `Except` (ThrowNew, ExceptionDescribe), `NewObject` (with AllocObject), `Invocation` (the table of the JavaVM, GetVersion) | DefineClass, FatalError (constant results, logging or abort; table slot only) |
| src/jnivm/method.cpp, include/jnivm/method.h | `Sig` (jinvoke), `Proxy`, `Invoke` (arguments), `Unwind` (exceptions) | – |
| include/jnivm/hookManager.h, class.h, function.h, jnitypes.h, wrap.h, extends.h | `MemberOps` (tables), `HookSig` (signatures, forms, arguments), `Asserts` (hierarchy), `Calls` (wrappers), `ObjArgs`, `ArgsAmid` (object arguments and results), `FieldVars` (variables) | template instantiation failures |
| src/jnivm/internal/codegen/*.cpp | `Codegen`; `Spec/CppText` and `Spec/CppProgram` read its output back | stream state, file output in `GenerateHeader`-style callers |
| include/fake-jni/fake-jni.h | `Context`, `Lifetime`, `LocalFrame`, `FrameSize` (scopes), `CppRefs` (references), `Descriptor` (class descriptors) | `Instantiate`, the deprecated aliases |
| src/fake-jni/{fake-jni,jvm,method}.cpp | `Context`, `Lifetime` (VMs that are made and destroyed), `Library`, `Unload`, `Proxy`, `Start`, `MainMethod`, `CppRefs`, `GetClasses` | – |
| src/jnivm/vm.cpp, src/jnivm/internal/{method,field,findclass}.cpp | `Jni` (calls by reference on the joined state of `MemberOps` and `Heap`; the object of a class that C++ code finds or binds is made by `HeapOp.classObject`) | calls of the members (see `Calls`) are not part of its histories; a made up method is no object of the heap there |
| src/jnivm/internal/{method,field}.cpp, include/jnivm/method.h | `Nested` (C++ code and functions that use `Jni`, `Calls` and `Proxy` on one thread) | other threads in between; the state at a JNI call that throws is that before the call; the limit of the stack is the depth to which calls are followed |
| src/jnivm/internal/{method,field}.cpp, include/jnivm/method.h | `ThreadsRun` (the code of `Nested` on several threads, cut into steps) | threads that are interrupted within a step: a JNI call, the choice of the function that a call enters, the handling of its exception |
| src/jnivm/vm.cpp (MonitorEnter, MonitorExit, attach, detach) with the mutexes | `Waits` (`Locks` and `Monitor` together) | user code under the VM mutex is a given list of actions; condition variables do not occur in the code |
| src/jnivm/internal/{method,field,findclass}.cpp | `Warm` (lookups of `Members` and `Registry` with their accesses in `Locks`) | what a lookup meets is read off one state; the build with asserts (`GetBaseClasses` throws there) |
| src/baron/jvm.cpp, include/baron/baron.h | `Baron`, `Unload` (order of destruction) | printing of the stack trace |
| src/jnivm/internal/bytebuffer.cpp | `Buffers` | the memory itself, which belongs to native code |
| include/jni.h | `Table` (order of the slots), `Wrappers` (member functions in C++), `Spec` (jvalue) | constants |
| src/examples | not modelled | – |
| src/tests | `Tests/Strings`, `Tests/Refs`, `Tests/Members`: replayed on the model, see below | tests of templates and of compilation |

Further simplifications are stated at each definition.

### The project's tests on the model

`Verif/Tests/*.lean` replay assertions of src/tests/Tests.cpp and src/tests/fake-jni.cpp on the model, by evaluation in the
kernel: strings, arrays, references, weak references, exceptions, reflection, monitors, threads, libraries, inheritance,
hooks, natives, virtual calls and deny lists.  They check that the model agrees with what the project expects of the code;
they are no part of the claims.

## Trusted base

* Lean 4.33.0 kernel (and the elaborator, for producing the statements one reads).
* The correspondence between the model and `/repo` is by reading; every model
  definition cites the lines it models and lists its simplifications.
* Compiler, libstdc++ (`std::find`, containers, `shared_ptr`, mutexes), the dynamic
  loader and the operating system behave as documented.
* No axioms were added.  The axioms each theorem of MANIFEST.json depends on, by
  `#print axioms`:

**no axioms** (10 theorems): `alloc_object_null`, `create_slots`, `element_bits`, `history_reserved`, `instanceOf_classless_ub`, `instanceOf_null`, `invoke_throws`, `release_nothing`, `searchOrder_unique`, `shown_pends`

**`propext`** (42 theorems): `array_null`, `array_of_pointer_aliases`, `array_of_pointer_negative`, `array_wrong_type`, `assignable_refl`, `bases_race`, `call_slots_by_type`, `class_fields_race`, `context_default_throws`, `context_wrong_vm`, `destroy_empty`, `destroy_nothing`, `destroy_same`, `detach_destructor_relocks`, `detach_inside_context`, `envs_guarded_partial`, `envs_race`, `exit_inside_context`, `fields_guarded_partial`, `forms_same_object`, `from_table_null`, `from_table_own`, `getClass_lock_relocks`, `globals_natives_guarded`, `header_standard`, `hook_overloads_apart`, `life_borrowed`, `life_direct`, `life_late_context`, `life_late_thread`, `life_two_vms`, `monitor_null`, `new_array_negative`, `other_threads`, `override_exact`, `pointer_misuse`, `sync_attach_deadlock`, `sync_detach_deadlock`, `threads_ended`, `types_race`, `vm_daemon`, `win_name_overflow`

**`Quot.sound`, `propext`** (72 theorems): `acts_depth`, `array_no_leak`, `array_of_pointer_copies`, `array_of_vector`, `array_write_independent`, `assign_leaks`, `assignable_iff`, `assignable_null`, `assignable_total`, `assignable_trans`, `class_denied_iff`, `class_methods_race`, `classes_race`, `copy_double_free`, `default_boolean_array`, `default_primitive`, `enterSet_null`, `field_cycle_relocks`, `field_denied_iff`, `field_null`, `field_null_class_ub`, `fields_agree`, `fields_exclusive`, `fields_known`, `fields_linearizable`, `found_member_unwritten`, `get_version`, `guard_ownership`, `hook_other_members`, `hook_result`, `hook_result_none`, `hook_too_few_values`, `instanceOf_iff`, `invoke_slots`, `invoke_wrapper_calls`, `lookup_order_exists`, `lookups_progress`, `method_denied_iff`, `methods_known_partial`, `methods_later_partial`, `methods_race`, `monitor_other`, `monitor_same`, `native_slots`, `native_standard`, `native_wrapper_calls`, `newStringUTF_null`, `newStringUTF_roundtrip`, `newString_prefix`, `new_object_distinct`, `proxy_conversion`, `proxy_picks`, `register_keeps`, `setField_null`, `setField_stale`, `simpleName_unique`, `start_arguments`, `string_null`, `superclass_asserts`, `superclass_first`, `sync_enter_unlocked`, `sync_is_monitor`, `threads_fair_end`, `unregister_exact`, `unregister_forgets`, `utf_length_fits`, `vector_length_truncated`, `win_close_answer`, `win_example`, `win_name`, `wrapper_implementation`, `wrapper_never_variadic`

**`Classical.choice`, `Quot.sound`, `propext`** (618 theorems): `all_registered`, `all_registered_iff`, `amid_alive`, `amid_deleted`, `amid_locals`, `amid_next`, `amid_received`, `amid_weak`, `any_reference`, `args_any_order`, `args_locals`, `args_received`, `args_refused`, `array_content_kept`, `array_cycle_leaks`, `array_elements_kept`, `array_hands_over`, `array_holds`, `array_length`, `array_length_kept`, `array_length_other`, `array_memory_partial`, `array_object_kept`, `array_of_length`, `array_ref_type_wrong`, `array_stays`, `asserts_agree`, `asserts_same`, `assign_correct`, `assignable_asserts`, `assignable_types`, `assignable_types_total`, `attach_exact`, `attach_result`, `attach_second_vm`, `baron_classes`, `baron_fields`, `baron_findClass`, `baron_getFieldID`, `baron_getMethodID`, `baron_methods`, `baron_no_denied_class_partial`, `baron_null_name`, `baron_pointers`, `bases_first_acyclic`, `bases_first_same`, `buffer_checked`, `buffer_kept`, `callV_escapes_signature`, `callV_is_callA`, `call_by_name`, `call_catches`, `call_escapes_class`, `call_mismatch_nonvirtual`, `call_mismatch_static`, `call_mismatch_virtual`, `call_no_escape`, `call_without_implementation`, `calls_act_by_calls`, `catch_program`, `catch_virtual_program_partial`, `caught_rethrown`, `chars_balance`, `chars_stay`, `chars_throw_clean`, `check_catches`, `class_address_forever`, `class_ref_until_released`, `class_refs_same`, `closed_signature`, `closed_type`, `codegen_constructor_binding`, `codegen_declaration`, `codegen_definition`, `codegen_fake_binding`, `codegen_field`, `codegen_field_total`, `codegen_method_binding`, `codegen_names_distinct`, `codegen_native_skipped`, `codegen_overloads_ambiguous`, `codegen_signature`, `codegen_signature_cut`, `codegen_type_exact`, `codegen_types_clash`, `codegen_types_distinct_partial`, `codegen_void_array`, `cold_lookup_races`, `construct_program`, `constructor_is_static_factory`, `constructor_lookup_asserts`, `constructor_not_inherited`, `context_has_env`, `context_vm`, `contexts_restore`, `copy_ok_iff`, `cpp_detached`, `cpp_var_keeps`, `create_exact`, `dangling_class`, `dead_stays_dead`, `declare_exact`, `declare_reads`, `declare_type_exact`, `declare_unterminated_ub`, `default_again`, `default_class`, `default_class_array`, `default_denied_class`, `default_nested_array`, `default_partial`, `default_prim_array`, `default_refused_array`, `default_renamed`, `default_total`, `delete_local_exact`, `delete_local_rest`, `denied_constructor`, `denied_outer_class`, `denied_signature_class`, `describe_bare_throwable`, `describe_defined_partial`, `describe_exact`, `describe_kept`, `describe_not_cleared`, `describe_rethrown`, `descriptor_class_empty`, `descriptor_flags`, `descriptor_never_registers`, `descriptor_promotes`, `destroy_all`, `destroy_exact`, `destroy_leaks`, `detached_gone`, `dump_cut_signature`, `dump_scope_agrees`, `dump_text`, `dump_total`, `elements_alias`, `empty_name_no_wildcard`, `env_distinct`, `env_stable`, `exit_detaches`, `field_bits`, `field_copy`, `field_cycle_leaks`, `field_denotes`, `field_exception_escapes`, `field_handle`, `field_handle_dangles`, `field_hook_effective`, `field_hook_program`, `field_id_stable_own_partial`, `field_id_stable_single_partial`, `field_id_unstable_multiple_inheritance`, `field_lookup_asserts`, `field_lookup_declares`, `field_mismatch`, `field_not_class`, `field_object`, `field_of_null`, `field_order`, `field_own_wins`, `field_set_ok`, `field_static_mismatch`, `field_type_mismatch`, `field_typed`, `field_without_accessor`, `field_wrong_type`, `fields_made_once`, `find_class_refers`, `find_names`, `find_separates`, `find_stable`, `find_total`, `frame_bracket`, `frame_copied`, `frame_ends`, `frame_exceptions`, `frame_locals`, `frame_no_env`, `frame_no_terminate`, `frame_others`, `frame_pop_inside`, `frame_restores`, `frames_nonempty`, `functions_act_by_calls`, `functions_well_behaved`, `getClass_correct`, `getClass_keeps_pending`, `getClass_lock_otherwise`, `getField_runs_getter`, `getMethod_denotes`, `getMethod_exact`, `getMethod_hides_native`, `getMethod_init`, `getMethod_init_total`, `getMethod_init_useless`, `getMethod_total`, `getStringRegion_exact_partial`, `getStringRegion_not_safe`, `getStringRegion_slice`, `getStringUTFRegion_slice`, `get_classes_exact`, `get_classes_grows`, `get_classes_once`, `get_env_attaches`, `get_env_partial`, `get_env_version`, `get_java_vm`, `get_program`, `get_region`, `get_slot`, `global_class_ref`, `global_hands_over`, `global_ref_keeps_alive`, `guard_assign`, `guard_assign_copy`, `guard_assign_null`, `guard_assign_object`, `guard_copied_cpp14`, `guard_index_unchecked`, `guard_kept`, `guard_pointer_dangles`, `guard_read`, `guard_refused`, `guard_slices`, `handles_balanced_partial`, `hook_after_native_ineffective`, `hook_call_locals`, `hook_call_neutral`, `hook_call_static`, `hook_call_virtual`, `hook_effective_partial`, `hook_enters`, `hook_forms`, `hook_getter`, `hook_ignored`, `hook_installs_partial`, `hook_nameless_throws`, `hook_program_partial`, `hook_property`, `hook_receives`, `hook_returns`, `hook_semicolon_breaks`, `hook_setter`, `hook_signature`, `hook_signature_only`, `hook_unregistered_base_ub`, `index_unchecked`, `inherited_get_program`, `inherited_program_partial`, `inherited_set_program`, `init_on_class`, `init_on_object`, `init_written_out`, `initialize_run`, `instance_by_name`, `instance_null`, `invoke_args_arrive`, `invoke_args_or_throws`, `invoke_begin_frame`, `invoke_copies`, `invoke_enters`, `invoke_hands_over`, `invoke_keeps_local`, `invoke_keeps_owned`, `invoke_leak`, `invoke_leaves`, `invoke_native`, `invoke_nothing`, `invoke_on_class`, `invoke_on_object`, `invoke_received`, `invoke_result`, `invoke_same_or_new`, `invoke_stale`, `invoke_throwNew`, `jinvoke_exact`, `jinvoke_kind_counterexample`, `jinvoke_kind_partial`, `jinvoke_rejects`, `jni_array_of_grandchild`, `jni_classes`, `jni_is_member_history`, `jni_program`, `jni_release_answers`, `legal_defined`, `legal_history`, `libraries_balanced_partial`, `libraries_exact`, `library_after_failure`, `library_attach`, `library_leak`, `library_open`, `library_registered_once`, `library_remove`, `library_twice`, `life_destroy`, `life_isolated`, `life_make`, `life_restart`, `life_safe_partial`, `life_use_partial`, `live_exact`, `live_iff_reachable_partial`, `live_referenced`, `local_ref_keeps_alive`, `locks_complete`, `lookup_cyclic_diverges`, `lookup_declares`, `lookup_denotes`, `lookup_null`, `lookup_order`, `lookup_own_wins`, `lookup_repeat`, `made_class`, `made_up_not_object`, `main_created`, `main_method_denied`, `main_method_fake`, `main_method_partial`, `main_method_undefined`, `main_replaced`, `map_agrees`, `method_id_stable_own_partial`, `method_id_stable_single_partial`, `method_id_unstable_hook`, `method_id_unstable_multiple_inheritance`, `method_lookup_asserts`, `methods_disagree`, `monitor_after_detach`, `monitor_depth`, `monitor_enter`, `monitor_exact`, `monitor_exclusive`, `monitor_exit`, `monitor_object_released`, `named_call_heap`, `native_program_partial`, `natives_latest`, `negative_size`, `nested_by_calls`, `nested_class_refs`, `nested_depth`, `nested_detached`, `nested_get`, `nested_locals`, `nested_others`, `nested_reachable`, `nested_recursion`, `nested_registered`, `nested_return`, `nested_set`, `nested_throw`, `nested_try`, `nested_varargs`, `newString_encodes`, `newString_injective`, `newString_no_nul`, `new_array`, `new_array_empty`, `new_array_filled`, `new_array_leaks`, `new_object`, `new_object_get_class`, `new_object_other_class`, `new_object_program`, `new_object_throws`, `new_object_unhooked`, `new_object_varargs`, `new_vars_null`, `no_class_bad_cast`, `nonvirtual_call_partial`, `nonvirtual_inherited_ub`, `nonvirtual_member_pointer`, `nonvirtual_null_class`, `object_top_partial`, `order_irrelevant`, `own_effect`, `pass_gives_class`, `passed_caught`, `pending_cleared`, `pending_live`, `pending_raised_partial`, `pending_unchanged`, `pointer_arg_dangles`, `pointer_args_alive`, `pointer_copied_cpp14`, `pop_cleared_not_null`, `pop_result_partial`, `positive_size`, `program_clash`, `program_hierarchy`, `program_inner`, `program_inner_inner`, `program_mutual`, `program_needs`, `program_partial`, `program_race_free`, `program_reserved`, `program_sample`, `program_text`, `proxy_bool_both`, `proxy_bool_partial`, `push_fresh`, `query_exact`, `query_no_effect`, `reachable_live`, `rebinding_cools`, `receiver_checked`, `recycled_empty`, `ref_arg_dangles`, `ref_type_created`, `ref_type_local_partial`, `ref_type_stable`, `reflect_exact`, `reflect_null`, `reflect_partial`, `regenerate_aliases`, `regenerate_constructor`, `regenerate_constructor_hidden`, `regenerate_lines`, `regenerate_overloaded`, `regenerate_partial`, `regenerate_reads`, `regenerate_registers`, `region_apart`, `region_out_of_range`, `region_overlap`, `region_safe_partial`, `register_again`, `register_class_partial`, `register_constructor`, `register_effective_partial`, `register_program_partial`, `register_refuses`, `register_stale`, `rehook_keeps_id_partial`, `releaseProgram_answers`, `release_answers`, `release_checked`, `release_outcome_partial`, `release_query_differs`, `release_query_exact`, `release_simple_name`, `release_stable`, `release_tables`, `release_unclosed`, `reports_pending`, `resolve_correct`, `result_copy`, `result_same`, `room_contract_partial`, `room_not_contract`, `room_throws`, `rootless_not_object`, `same_equivalence`, `same_iff`, `setField_runs_setter`, `set_get`, `set_program`, `set_region`, `set_slot`, `shared_args_alive`, `shared_name_cycle`, `signature_cut_array_ub`, `signature_inside_partial`, `signature_read_past_end`, `sized_depth`, `sized_fits_partial`, `sized_keeps_locals`, `sized_not_restored`, `sized_restores_partial`, `sized_throws`, `sized_zero`, `skip_exact`, `slot_kept`, `start_ambiguous`, `start_detached`, `start_main`, `start_member`, `start_native`, `start_none`, `start_pops`, `start_search`, `start_unhooked`, `static_call`, `static_program`, `statics_stay`, `store_correct`, `string_calls`, `string_checked`, `string_decode_exact`, `string_decode_safe`, `string_decode_total`, `string_kept`, `string_not_object`, `string_roundtrip`, `string_too_long`, `super_program_partial`, `super_types`, `superclass_null`, `superclass_takes_local`, `superclass_types`, `sync_calls_end`, `sync_deadlock_iff`, `sync_deadlock_monitors`, `sync_ordered_complete`, `sync_undefined_iff`, `thread_alone`, `thread_private`, `threads_by_calls`, `threads_class_refs`, `threads_hook_lasts`, `threads_locals`, `threads_others`, `threads_reachable`, `threads_recursion`, `threads_recursion_ends`, `threads_rehook_race`, `throwNew_class`, `throwNew_loses_class`, `throwNew_null`, `throwNew_partial`, `throw_null_clears`, `toGlobal_correct`, `toGlobal_not_total`, `toGlobal_outlives`, `toLocal_correct`, `toLocal_resolve`, `trace_adds_locals`, `trace_bad_class`, `trace_call`, `trace_cleared`, `trace_get_partial`, `trace_leaves`, `trace_lookup`, `trace_null_lookup`, `trace_null_makes_class`, `trace_reachable`, `trace_set_partial`, `trace_static`, `trace_unknown_nonvirtual_partial`, `trace_unknown_virtual_partial`, `trace_varargs`, `typed_cells_kept`, `typed_fill`, `typed_index_unchecked`, `typed_read_write`, `typed_single_compiles`, `typed_view_exact`, `typed_write_refused`, `unload_agrees`, `unload_balanced_partial`, `unload_completes_partial`, `unload_exact`, `unload_found_partial`, `unload_registered`, `unload_rule_lost`, `unload_self`, `unload_table`, `unload_terminates`, `unload_unknown`, `unload_usable_partial`, `unregister_lookup`, `unwind_agrees`, `unwind_balanced`, `unwind_bare`, `unwind_caught`, `unwind_enters`, `unwind_exact_partial`, `unwind_frames`, `unwind_no_terminate`, `unwind_others`, `unwind_pending`, `unwind_refused`, `unwind_returned`, `unwind_stale`, `unwind_thrown`, `unwind_tidy`, `utf_pointer`, `utf_pointer_dangles`, `utf_pointer_referenced`, `utf_string_kept`, `var_kept`, `var_of_null`, `var_owned`, `varargs_arity`, `varargs_delivered`, `varargs_program_partial`, `varargs_refused`, `varargs_stray`, `varargs_unclosed`, `virtual_call_classless`, `virtual_call_exact`, `virtual_call_nearest_partial`, `virtual_call_skips_override`, `virtual_call_unhooked_id`, `virtual_program_partial`, `vm_attach`, `vm_detach`, `vm_detach_renews`, `vm_env_stable`, `warm_race_free`, `warm_runs`, `warm_stays`, `warm_up`, `warmed_race_free`, `weak_denotes`, `weak_does_not_keep`, `weak_hands_over`, `weak_ref_history`, `win_close`, `win_open`, `win_references`, `win_symbols`, `wrappers_complete`
