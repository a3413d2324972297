{
 "claims": [
  {
   "property": "C01",
   "status": "proved",
   "theorems": [
    "Jnivm.string_roundtrip",
    "Jnivm.newString_prefix"
   ],
   "note": "All jchar sequences up to the largest jsize."
  },
  {
   "property": "C02",
   "status": "proved",
   "theorems": [
    "Jnivm.newString_encodes",
    "Jnivm.newString_no_nul",
    "Jnivm.newString_injective",
    "Jnivm.utf_length_fits"
   ],
   "note": ""
  },
  {
   "property": "C03",
   "status": "proved",
   "theorems": [
    "Jnivm.newStringUTF_roundtrip",
    "Jnivm.newStringUTF_null",
    "Jnivm.string_null"
   ],
   "note": "string_null says what each function does with a null jstring."
  },
  {
   "property": "C04",
   "status": "proved",
   "theorems": [
    "Jnivm.string_decode_exact",
    "Jnivm.string_decode_total",
    "Jnivm.string_decode_safe",
    "Jnivm.string_too_long"
   ],
   "note": "The exception named in the statement is proved by string_too_long: the test for a negative length in GetStringLength comes after the overflow."
  },
  {
   "property": "C05",
   "status": "partial",
   "theorems": [
    "Jnivm.getStringRegion_slice",
    "Jnivm.getStringRegion_exact_partial",
    "Jnivm.getStringRegion_not_safe"
   ],
   "note": "In-range slices proved; out-of-range requests are undefined behaviour in the code (negation proved, exact boundary given)."
  },
  {
   "property": "C06",
   "status": "proved",
   "theorems": [
    "Jnivm.getStringUTFRegion_slice"
   ],
   "note": ""
  },
  {
   "property": "C07",
   "status": "proved",
   "theorems": [
    "Jnivm.skip_exact"
   ],
   "note": ""
  },
  {
   "property": "C08",
   "status": "proved",
   "theorems": [
    "Jnivm.varargs_delivered",
    "Jnivm.varargs_unclosed",
    "Jnivm.varargs_refused",
    "Jnivm.varargs_stray",
    "Jnivm.varargs_arity"
   ],
   "note": ""
  },
  {
   "property": "C09",
   "status": "partial",
   "theorems": [
    "Jnivm.signature_inside_partial",
    "Jnivm.signature_cut_array_ub",
    "Jnivm.signature_read_past_end"
   ],
   "note": "False as stated: an array element type cut off by the end of the text is read past; proved for all other texts."
  },
  {
   "property": "C10",
   "status": "proved",
   "theorems": [
    "Jnivm.declare_exact",
    "Jnivm.declare_type_exact",
    "Jnivm.lookup_declares",
    "Jnivm.field_lookup_declares",
    "Jnivm.declare_unterminated_ub"
   ],
   "note": "Well-formed signatures, any registry state; an unterminated class name (not well formed) is undefined behaviour, shown separately."
  },
  {
   "property": "C11",
   "status": "partial",
   "theorems": [
    "Jnivm.jinvoke_kind_partial",
    "Jnivm.jinvoke_kind_counterexample",
    "Jnivm.jinvoke_rejects",
    "Jnivm.jinvoke_exact"
   ],
   "note": "Return type names containing ')' are dispatched wrongly (counterexample proved)."
  },
  {
   "property": "C12",
   "status": "proved",
   "theorems": [
    "Jnivm.find_stable",
    "Jnivm.find_total"
   ],
   "note": ""
  },
  {
   "property": "C13",
   "status": "proved",
   "theorems": [
    "Jnivm.find_separates",
    "Jnivm.find_names",
    "Jnivm.simpleName_unique"
   ],
   "note": ""
  },
  {
   "property": "C14",
   "status": "proved",
   "theorems": [
    "Jnivm.query_no_effect",
    "Jnivm.query_exact"
   ],
   "note": ""
  },
  {
   "property": "C15",
   "status": "proved",
   "theorems": [
    "Jnivm.create_exact",
    "Jnivm.query_exact",
    "Jnivm.map_agrees",
    "Jnivm.get_classes_exact",
    "Jnivm.get_classes_once",
    "Jnivm.get_classes_grows"
   ],
   "note": ""
  },
  {
   "property": "C16",
   "status": "partial",
   "theorems": [
    "Jnivm.method_id_stable_own_partial",
    "Jnivm.method_id_stable_single_partial",
    "Jnivm.method_id_unstable_multiple_inheritance",
    "Jnivm.method_id_unstable_hook"
   ],
   "note": "False in general (negations proved: multiple inheritance, hook on a subclass). Proved for own methods under every history and, with single inheritance, for every history without a new definition of the method or a hierarchy change."
  },
  {
   "property": "C17",
   "status": "proved",
   "theorems": [
    "Jnivm.lookup_denotes",
    "Jnivm.lookup_own_wins",
    "Jnivm.lookup_order",
    "Jnivm.lookup_order_exists",
    "Jnivm.searchOrder_unique",
    "Jnivm.lookup_null",
    "Jnivm.lookup_cyclic_diverges"
   ],
   "note": "Cyclic hierarchies (outside the quantifier) recurse forever; shown separately."
  },
  {
   "property": "C18",
   "status": "proved",
   "theorems": [
    "Jnivm.constructor_is_static_factory",
    "Jnivm.constructor_not_inherited"
   ],
   "note": ""
  },
  {
   "property": "C19",
   "status": "partial",
   "theorems": [
    "Jnivm.field_denotes",
    "Jnivm.field_own_wins",
    "Jnivm.field_order",
    "Jnivm.field_null",
    "Jnivm.field_id_stable_own_partial",
    "Jnivm.field_id_stable_single_partial",
    "Jnivm.field_id_unstable_multiple_inheritance",
    "Jnivm.field_null_class_ub"
   ],
   "note": "Denotation, order and null mode proved in full; stability is false with multiple inheritance (negation proved), proved for own fields and single inheritance."
  },
  {
   "property": "C20",
   "status": "partial",
   "theorems": [
    "Jnivm.hook_effective_partial",
    "Jnivm.rehook_keeps_id_partial",
    "Jnivm.hook_other_members",
    "Jnivm.hook_after_native_ineffective",
    "Jnivm.field_hook_effective"
   ],
   "note": "False for an instance method with a native of the same name and signature (negation proved); proved otherwise, and fully for fields."
  },
  {
   "property": "C21",
   "status": "partial",
   "theorems": [
    "Jnivm.register_effective_partial",
    "Jnivm.register_keeps",
    "Jnivm.natives_latest",
    "Jnivm.register_stale",
    "Jnivm.unregister_exact",
    "Jnivm.unregister_lookup",
    "Jnivm.unregister_forgets"
   ],
   "note": "'Most recent registration wins' is false for the method lookup (negation proved)."
  },
  {
   "property": "C22",
   "status": "partial",
   "theorems": [
    "Jnivm.virtual_call_exact",
    "Jnivm.virtual_call_nearest_partial",
    "Jnivm.virtual_call_classless",
    "Jnivm.virtual_call_skips_override",
    "Jnivm.virtual_call_unhooked_id"
   ],
   "note": "False: an override between the receiver's class and the class the id was looked up on is skipped, and an id without implementation ignores overrides (both negations proved). The exact choice is proved for all calls, and that it is the nearest implementation when the receiver's class has one or the id was looked up on the receiver's class."
  },
  {
   "property": "C23",
   "status": "partial",
   "theorems": [
    "Jnivm.nonvirtual_call_partial",
    "Jnivm.nonvirtual_null_class",
    "Jnivm.nonvirtual_inherited_ub",
    "Jnivm.nonvirtual_member_pointer"
   ],
   "note": "False for a class that only inherits the method (null dereference) and for implementations given by pointers to member functions (never run), both proved; proved for a class with an own implementation."
  },
  {
   "property": "C24",
   "status": "partial",
   "theorems": [
    "Jnivm.call_no_escape",
    "Jnivm.virtual_call_exact",
    "Jnivm.nonvirtual_call_partial",
    "Jnivm.static_call",
    "Jnivm.call_mismatch_static",
    "Jnivm.call_mismatch_virtual",
    "Jnivm.call_mismatch_nonvirtual",
    "Jnivm.call_without_implementation",
    "Jnivm.getClass_keeps_pending",
    "Jnivm.callV_is_callA",
    "Jnivm.call_escapes_class",
    "Jnivm.callV_escapes_signature"
   ],
   "note": "False if the class argument is no class or if the signature of a variadic call is malformed: the exception escapes (both proved); proved otherwise."
  },
  {
   "property": "C25",
   "status": "partial",
   "theorems": [
    "Jnivm.pending_raised_partial",
    "Jnivm.pending_cleared",
    "Jnivm.pending_unchanged",
    "Jnivm.reports_pending",
    "Jnivm.pending_live",
    "Jnivm.throw_null_clears"
   ],
   "note": "False for Throw(null), which clears (negation proved); otherwise proved for every history of every thread."
  },
  {
   "property": "C26",
   "status": "proved",
   "theorems": [
    "Jnivm.assignable_iff",
    "Jnivm.assignable_total",
    "Jnivm.assignable_refl",
    "Jnivm.assignable_trans",
    "Jnivm.instanceOf_iff",
    "Jnivm.instanceOf_null",
    "Jnivm.assignable_null",
    "Jnivm.instanceOf_classless_ub",
    "Jnivm.superclass_first"
   ],
   "note": ""
  },
  {
   "property": "C27",
   "status": "proved",
   "theorems": [
    "Jnivm.frames_nonempty",
    "Jnivm.recycled_empty",
    "Jnivm.push_fresh",
    "Jnivm.frame_bracket"
   ],
   "note": ""
  },
  {
   "property": "C28",
   "status": "proved",
   "theorems": [
    "Jnivm.reachable_live",
    "Jnivm.local_ref_keeps_alive",
    "Jnivm.global_ref_keeps_alive"
   ],
   "note": ""
  },
  {
   "property": "C29",
   "status": "partial",
   "theorems": [
    "Jnivm.live_referenced",
    "Jnivm.live_exact",
    "Jnivm.live_iff_reachable_partial",
    "Jnivm.array_cycle_leaks"
   ],
   "note": "False for arrays, and objects with variables, that contain themselves (negation proved). live_exact says for every state what is alive: what can be reached, and what such an object owns. Without such a cycle this is the property."
  },
  {
   "property": "C30",
   "status": "proved",
   "theorems": [
    "Jnivm.delete_local_exact",
    "Jnivm.delete_local_rest"
   ],
   "note": ""
  },
  {
   "property": "C31",
   "status": "proved",
   "theorems": [
    "Jnivm.weak_denotes",
    "Jnivm.weak_ref_history",
    "Jnivm.dead_stays_dead",
    "Jnivm.weak_does_not_keep"
   ],
   "note": ""
  },
  {
   "property": "C32",
   "status": "proved",
   "theorems": [
    "Jnivm.same_iff",
    "Jnivm.same_equivalence"
   ],
   "note": ""
  },
  {
   "property": "C33",
   "status": "partial",
   "theorems": [
    "Jnivm.pop_result_partial",
    "Jnivm.pop_cleared_not_null"
   ],
   "note": "False for a cleared weak reference, which is handed back instead of null (negation proved); proved for every other result."
  },
  {
   "property": "C34",
   "status": "partial",
   "theorems": [
    "Jnivm.ref_type_stable",
    "Jnivm.ref_type_created",
    "Jnivm.ref_type_local_partial",
    "Jnivm.array_ref_type_wrong"
   ],
   "note": "False for elements of an array filled with a global or weak reference (negation proved); proved for all histories without such an array."
  },
  {
   "property": "C35",
   "status": "proved",
   "theorems": [
    "Jnivm.attach_exact",
    "Jnivm.env_stable",
    "Jnivm.env_distinct",
    "Jnivm.detached_gone"
   ],
   "note": "Attach and detach are atomic in the model because the code holds the VM mutex; VM::GetEnv of the C++ interface takes no lock and is outside the model."
  },
  {
   "property": "C36",
   "status": "partial",
   "theorems": [
    "Jnivm.fields_linearizable",
    "Jnivm.fields_agree",
    "Jnivm.fields_made_once",
    "Jnivm.fields_known",
    "Jnivm.fields_exclusive",
    "Jnivm.lookups_progress",
    "Jnivm.methods_later_partial",
    "Jnivm.methods_known_partial",
    "Jnivm.methods_disagree",
    "Jnivm.methods_race"
   ],
   "note": "Field lookups are linearizable, agree and exclude each other under every schedule. For methods the property is false: methods_disagree and methods_race show for every missing method a schedule with two ids and an unsynchronised push_back; the partial theorems cover methods that can already be found. Base classes that change and hooks that are registered during lookups are not part of this model; C55 shows that these are data races."
  },
  {
   "property": "C37",
   "status": "proved",
   "theorems": [
    "Jnivm.monitor_exact",
    "Jnivm.monitor_exclusive",
    "Jnivm.monitor_depth",
    "Jnivm.monitor_enter",
    "Jnivm.monitor_exit",
    "Jnivm.monitor_same",
    "Jnivm.monitor_other",
    "Jnivm.monitor_null",
    "Jnivm.monitor_object_released",
    "Jnivm.monitor_after_detach"
   ],
   "note": "std::recursive_mutex is modelled by owner and count without limit. Leaving a monitor one is not in, null references and dropping the last reference to a locked object are undefined; detaching keeps monitors locked (all proved)."
  },
  {
   "property": "C38",
   "status": "proved",
   "theorems": [
    "Jnivm.thread_private",
    "Jnivm.own_effect"
   ],
   "note": ""
  },
  {
   "property": "C39",
   "status": "partial",
   "theorems": [
    "Jnivm.array_holds",
    "Jnivm.new_array",
    "Jnivm.new_array_negative",
    "Jnivm.set_region",
    "Jnivm.get_region",
    "Jnivm.set_get",
    "Jnivm.elements_alias",
    "Jnivm.element_bits",
    "Jnivm.release_nothing",
    "Jnivm.array_null",
    "Jnivm.array_wrong_type",
    "Jnivm.region_safe_partial",
    "Jnivm.region_out_of_range",
    "Jnivm.region_overlap",
    "Jnivm.new_array_leaks",
    "Jnivm.new_array_empty",
    "Jnivm.array_stays",
    "Jnivm.array_content_kept",
    "Jnivm.region_apart"
   ],
   "note": "All but the last clause is proved. Out-of-range requests are undefined for every array (region_out_of_range proves the negation of the last clause); so are a null array and a buffer that overlaps the region. Every array that is not empty leaks an allocation of its size (new_array_leaks)."
  },
  {
   "property": "C40",
   "status": "proved",
   "theorems": [
    "Jnivm.new_array_filled",
    "Jnivm.set_slot",
    "Jnivm.slot_kept",
    "Jnivm.get_slot",
    "Jnivm.index_unchecked",
    "Jnivm.array_length",
    "Jnivm.array_length_other",
    "Jnivm.array_length_kept"
   ],
   "note": "Index in range; an index out of range is undefined behaviour, shown separately."
  },
  {
   "property": "C41",
   "status": "proved",
   "theorems": [
    "Jnivm.native_slots",
    "Jnivm.invoke_slots",
    "Jnivm.header_standard",
    "Jnivm.native_standard",
    "Jnivm.call_slots_by_type"
   ],
   "note": "The two tables are finite; each slot is checked by evaluation in the kernel and lifted to a statement over all indices. The correspondence between an implementation's name and the JNI function is the definition FulfilsName."
  },
  {
   "property": "C42",
   "status": "proved",
   "theorems": [
    "Jnivm.history_reserved",
    "Jnivm.from_table_own",
    "Jnivm.override_exact",
    "Jnivm.create_slots",
    "Jnivm.from_table_null"
   ],
   "note": ""
  },
  {
   "property": "C43",
   "status": "partial",
   "theorems": [
    "Jnivm.class_denied_iff",
    "Jnivm.method_denied_iff",
    "Jnivm.field_denied_iff",
    "Jnivm.empty_name_no_wildcard"
   ],
   "note": "An empty name in a query is not a wildcard (proved); proved for all queries with a name."
  },
  {
   "property": "C44",
   "status": "partial",
   "theorems": [
    "Jnivm.baron_findClass",
    "Jnivm.baron_getMethodID",
    "Jnivm.baron_getFieldID",
    "Jnivm.baron_methods",
    "Jnivm.baron_fields",
    "Jnivm.baron_classes",
    "Jnivm.baron_no_denied_class_partial",
    "Jnivm.denied_outer_class",
    "Jnivm.denied_signature_class",
    "Jnivm.denied_constructor",
    "Jnivm.baron_pointers",
    "Jnivm.baron_null_name"
   ],
   "note": "False for classes around an inner class, for classes named in signatures and for constructors looked up as static methods (all proved); proved for each call on its own argument and for the members over whole histories. A null name, which a plain VM takes for the empty one, is undefined in a Baron VM (baron_pointers, baron_null_name)."
  },
  {
   "property": "C45",
   "status": "proved",
   "theorems": [
    "Jnivm.contexts_restore",
    "Jnivm.context_has_env",
    "Jnivm.other_threads",
    "Jnivm.exit_detaches",
    "Jnivm.attach_result",
    "Jnivm.context_vm",
    "Jnivm.context_wrong_vm",
    "Jnivm.context_default_throws",
    "Jnivm.detach_inside_context",
    "Jnivm.exit_inside_context"
   ],
   "note": "The environment inside a context is that of the VM the thread is attached to, which need not be the VM given to the constructor (witness proved). The default constructor attaches nothing."
  },
  {
   "property": "C46",
   "status": "partial",
   "theorems": [
    "Jnivm.libraries_exact",
    "Jnivm.libraries_balanced_partial",
    "Jnivm.handles_balanced_partial",
    "Jnivm.library_registered_once",
    "Jnivm.library_open",
    "Jnivm.library_attach",
    "Jnivm.library_remove",
    "Jnivm.library_leak",
    "Jnivm.library_after_failure",
    "Jnivm.library_twice"
   ],
   "note": "False if JNI_OnLoad throws: the library stays open (negation proved, and that this is the only exception). Proved for all histories in which no JNI_OnLoad throws, including those where it attaches and removes libraries itself; JNI_OnUnload is taken not to do so."
  },
  {
   "property": "C47",
   "status": "partial",
   "theorems": [
    "Jnivm.getMethod_exact",
    "Jnivm.getMethod_denotes",
    "Jnivm.getMethod_total",
    "Jnivm.getMethod_hides_native",
    "Jnivm.proxy_conversion",
    "Jnivm.proxy_picks",
    "Jnivm.proxy_bool_partial",
    "Jnivm.proxy_bool_both",
    "Jnivm.invoke_on_object",
    "Jnivm.invoke_on_class",
    "Jnivm.invoke_native",
    "Jnivm.invoke_nothing",
    "Jnivm.invoke_throws",
    "Jnivm.invoke_stale",
    "Jnivm.shown_pends",
    "Jnivm.start_search",
    "Jnivm.getMethod_init",
    "Jnivm.getMethod_init_total",
    "Jnivm.init_on_class",
    "Jnivm.init_on_object",
    "Jnivm.init_written_out",
    "Jnivm.getMethod_init_useless"
   ],
   "note": "getMethod finds members and statics exactly when they exist (any name but <init>); a native only when there is neither (getMethod_hides_native shows a native that cannot be reached). operator bool is false when both a member and a static exist (proxy_bool_both). invoke rethrows an exception that was pending before (invoke_stale). A pending Throwable that contains no exception is undefined behaviour (shown_pends). The conversion of C++ arguments is C59. Constructors: getMethod finds them exactly, but as a member function with the return type V, so that invoking throws on the class and on objects (init_on_class, init_on_object, getMethod_init_useless); with the recorded signature the proxy has the constructor twice, converts to false and cannot be converted to a method, but runs on the class (init_written_out)."
  },
  {
   "property": "C48",
   "status": "partial",
   "theorems": [
    "Jnivm.reflect_exact",
    "Jnivm.reflect_partial",
    "Jnivm.reflect_null"
   ],
   "note": "False: the result is null unless the class of the method object was set before (negation proved, exact condition proved)."
  },
  {
   "property": "C49",
   "status": "partial",
   "theorems": [
    "Jnivm.hook_signature",
    "Jnivm.hook_signature_only",
    "Jnivm.hook_overloads_apart",
    "Jnivm.hook_nameless_throws",
    "Jnivm.hook_unregistered_base_ub",
    "Jnivm.hook_receives",
    "Jnivm.hook_too_few_values",
    "Jnivm.hook_semicolon_breaks",
    "Jnivm.hook_result",
    "Jnivm.hook_result_none",
    "Jnivm.hook_forms",
    "Jnivm.hook_installs_partial",
    "Jnivm.hook_getter",
    "Jnivm.hook_setter",
    "Jnivm.hook_property",
    "Jnivm.hook_ignored",
    "Jnivm.hook_call_static",
    "Jnivm.hook_call_virtual"
   ],
   "note": "Proved for all functions whose types denote Java types with valid class names. Types without Java name make the hook throw (hook_nameless_throws), a type that is only known as an unregistered base dereferences null (hook_unregistered_base_ub), a class name with ';' breaks the signature (hook_semicolon_breaks), accessors with too many parameters are ignored (hook_ignored). hook_installs_partial excludes methods for which a native is registered. The conversion of object arguments to C++ objects is C57."
  },
  {
   "property": "C50",
   "status": "proved",
   "theorems": [
    "Jnivm.codegen_type_exact",
    "Jnivm.codegen_signature",
    "Jnivm.codegen_signature_cut",
    "Jnivm.codegen_void_array",
    "Jnivm.codegen_declaration",
    "Jnivm.codegen_definition",
    "Jnivm.codegen_names_distinct",
    "Jnivm.codegen_constructor_binding",
    "Jnivm.codegen_method_binding",
    "Jnivm.codegen_fake_binding",
    "Jnivm.codegen_native_skipped",
    "Jnivm.codegen_field",
    "Jnivm.codegen_field_total",
    "Jnivm.codegen_types_distinct_partial",
    "Jnivm.codegen_types_clash",
    "Jnivm.codegen_overloads_ambiguous"
   ],
   "note": "Both syntaxes. Beyond the property: malformed signatures are read past their end exactly when they end inside a type (codegen_signature_cut); different types have different C++ types if no class name contains '$' or C++ syntax (codegen_types_distinct_partial, counterexample codegen_types_clash); overloads get the same, ambiguous binding (codegen_overloads_ambiguous)."
  },
  {
   "property": "C51",
   "status": "proved",
   "theorems": [
    "Jnivm.legal_defined",
    "Jnivm.legal_history"
   ],
   "note": ""
  },
  {
   "property": "C52",
   "status": "proved",
   "theorems": [
    "Jnivm.getField_runs_getter",
    "Jnivm.setField_runs_setter",
    "Jnivm.field_without_accessor",
    "Jnivm.setField_null",
    "Jnivm.setField_stale",
    "Jnivm.field_static_mismatch",
    "Jnivm.field_type_mismatch",
    "Jnivm.field_exception_escapes"
   ],
   "note": "Accessors are not called in a try block: their exceptions escape, which is proved too."
  },
  {
   "property": "C53",
   "status": "partial",
   "theorems": [
    "Jnivm.dump_text",
    "Jnivm.dump_total",
    "Jnivm.dump_cut_signature",
    "Jnivm.dump_scope_agrees",
    "Jnivm.codegen_types_clash"
   ],
   "note": "Proved for all reachable VMs whose methods and fields have well-formed types and whose names contain no newline. The text contains every class once, outer classes before their inner ones, and opens no namespace in vain. False for methods with a signature like '([', which GetMethodID accepts: the generator reads past its end (dump_cut_signature; dump_total gives the exact condition)."
  },
  {
   "property": "C54",
   "status": "partial",
   "theorems": [
    "Jnivm.locks_complete",
    "Jnivm.acts_depth",
    "Jnivm.field_cycle_relocks",
    "Jnivm.getClass_lock_relocks",
    "Jnivm.getClass_lock_otherwise",
    "Jnivm.detach_destructor_relocks"
   ],
   "note": "Proved for acyclic class hierarchies (which may change meanwhile) and user code under the VM mutex that does not lock. False otherwise: GetFieldID locks a class twice if it is its own base class (field_cycle_relocks); a destructor that deletes a global reference during DetachCurrentThread locks the VM mutex twice (detach_destructor_relocks). The commented-out lock in JNITypesObjectBase::GetClass would make FindClass lock twice (getClass_lock_relocks) and nothing else (getClass_lock_otherwise). Monitors are not part of this model (C37); C82 puts them together."
  },
  {
   "property": "C55",
   "status": "partial",
   "theorems": [
    "Jnivm.globals_natives_guarded",
    "Jnivm.envs_guarded_partial",
    "Jnivm.fields_guarded_partial",
    "Jnivm.found_member_unwritten",
    "Jnivm.classes_race",
    "Jnivm.types_race",
    "Jnivm.bases_race",
    "Jnivm.class_methods_race",
    "Jnivm.class_fields_race",
    "Jnivm.envs_race"
   ],
   "note": "Proved for global references and natives; for the table of environments without VM::GetEnv in C++, for fields without the installation of accessors and class dumps. False for all others: race witnesses for classes, types, base classes, methods, fields and environments. C83 says how a program can avoid them."
  },
  {
   "property": "C56",
   "status": "partial",
   "theorems": [
    "Jnivm.typed_read_write",
    "Jnivm.typed_write_refused",
    "Jnivm.typed_cells_kept",
    "Jnivm.typed_fill",
    "Jnivm.typed_view_exact",
    "Jnivm.jni_array_of_grandchild",
    "Jnivm.typed_single_compiles",
    "Jnivm.typed_index_unchecked"
   ],
   "note": "Proved for arrays seen as arrays of T or of a direct base of T. False for any other base class (typed_view_exact, an exact condition): JNI, which sees Array<Object>, reads and writes the elements of an array of a class that does not list Object as a base through a pointer to another type (jni_array_of_grandchild). The refusal is a C++ exception that leaves the JNI function."
  },
  {
   "property": "C57",
   "status": "partial",
   "theorems": [
    "Jnivm.args_received",
    "Jnivm.args_refused",
    "Jnivm.args_any_order",
    "Jnivm.forms_same_object",
    "Jnivm.args_locals",
    "Jnivm.shared_args_alive",
    "Jnivm.pointer_args_alive",
    "Jnivm.ref_arg_dangles",
    "Jnivm.pointer_arg_dangles",
    "Jnivm.receiver_checked",
    "Jnivm.hook_enters",
    "Jnivm.amid_received",
    "Jnivm.amid_next",
    "Jnivm.amid_alive",
    "Jnivm.amid_locals",
    "Jnivm.amid_weak",
    "Jnivm.amid_deleted",
    "Jnivm.result_same",
    "Jnivm.result_copy",
    "Jnivm.hook_returns",
    "Jnivm.hook_call_neutral",
    "Jnivm.hook_call_locals"
   ],
   "note": "Proved: what each parameter receives, when the call throws (independently of the order of conversion), the lifetime of receivers and std::shared_ptr arguments, results, and that nothing is left behind by functions without pointer parameters. False for T& and const T&: nothing owns the argument (ref_arg_dangles). Pointers are kept only by a local reference, which stays in the caller's frame (hook_call_locals, pointer_args_alive, pointer_arg_dangles). A null receiver is dereferenced (receiver_checked). Other threads may act between the conversions: references the calling thread relies on (its local references and global references nobody deletes) give the same arguments (amid_received, amid_next); a weak reference can be an object for one parameter and null for the next (amid_weak)."
  },
  {
   "property": "C58",
   "status": "proved",
   "theorems": [
    "Jnivm.string_kept",
    "Jnivm.utf_string_kept",
    "Jnivm.buffer_kept",
    "Jnivm.string_calls",
    "Jnivm.string_checked",
    "Jnivm.buffer_checked",
    "Jnivm.chars_stay",
    "Jnivm.chars_balance",
    "Jnivm.release_checked",
    "Jnivm.chars_throw_clean",
    "Jnivm.utf_pointer",
    "Jnivm.utf_pointer_referenced",
    "Jnivm.pointer_misuse",
    "Jnivm.utf_pointer_dangles",
    "Jnivm.made_class"
   ],
   "note": "JNI promises pointers from GetStringUTFChars until they are released; here they end with the string (utf_pointer_dangles). Null is dereferenced by the buffer functions and cleared weak references by all (string_checked, buffer_checked)."
  },
  {
   "property": "C59",
   "status": "partial",
   "theorems": [
    "Jnivm.invoke_hands_over",
    "Jnivm.invoke_copies",
    "Jnivm.invoke_begin_frame",
    "Jnivm.pass_gives_class",
    "Jnivm.invoke_args_arrive",
    "Jnivm.invoke_args_or_throws",
    "Jnivm.invoke_received",
    "Jnivm.invoke_enters",
    "Jnivm.invoke_same_or_new",
    "Jnivm.invoke_keeps_owned",
    "Jnivm.invoke_keeps_local",
    "Jnivm.invoke_leaves",
    "Jnivm.invoke_leak",
    "Jnivm.invoke_result",
    "Jnivm.pointer_copied_cpp14"
   ],
   "note": "Proved for all arguments that are numbers, jobject, shared_ptr, pointers and values, with any calls of other threads between the caller's and the callee's side. A pointer is passed as a copy when the caller is compiled as C++14 (pointer_copied_cpp14), and local references pile up in the caller's frame (invoke_leak), hence partial. The matching of the signature is C47; exceptions thrown by the function are C72."
  },
  {
   "property": "C60",
   "status": "partial",
   "theorems": [
    "Jnivm.descriptor_flags",
    "Jnivm.register_class_partial",
    "Jnivm.register_again",
    "Jnivm.register_constructor",
    "Jnivm.register_refuses",
    "Jnivm.descriptor_promotes",
    "Jnivm.descriptor_never_registers",
    "Jnivm.descriptor_class_empty"
   ],
   "note": "Registration is proved for all descriptors except instance functions for which a native was registered (see C20). Automatic registration on first use is false: getDescriptor never registers (descriptor_never_registers). Without flags, functions that belong to no object become instance members unless the compatibility mode is on (descriptor_promotes)."
  },
  {
   "property": "C61",
   "status": "partial",
   "theorems": [
    "Jnivm.array_of_length",
    "Jnivm.array_of_vector",
    "Jnivm.vector_length_truncated",
    "Jnivm.array_of_pointer_copies",
    "Jnivm.array_of_pointer_negative",
    "Jnivm.array_of_pointer_aliases",
    "Jnivm.array_object_kept",
    "Jnivm.array_memory_partial",
    "Jnivm.array_elements_kept",
    "Jnivm.array_write_independent",
    "Jnivm.array_no_leak",
    "Jnivm.copy_double_free",
    "Jnivm.copy_ok_iff",
    "Jnivm.assign_leaks"
   ],
   "note": "Proved as long as only arrays that own nothing are copied or assigned. False otherwise: the implicit copy shares the memory and both destructors delete it (copy_double_free, an exact condition in copy_ok_iff), and assignment leaks (assign_leaks). Lengths of vectors with 2^31 elements or more are wrong (vector_length_truncated)."
  },
  {
   "property": "C62",
   "status": "partial",
   "theorems": [
    "Jnivm.regenerate_lines",
    "Jnivm.regenerate_reads",
    "Jnivm.regenerate_partial",
    "Jnivm.regenerate_registers",
    "Jnivm.regenerate_constructor",
    "Jnivm.regenerate_constructor_hidden",
    "Jnivm.regenerate_overloaded",
    "Jnivm.regenerate_aliases",
    "Jnivm.codegen_types_clash"
   ],
   "note": "Proved for programs that compile: declared types, identifiers as names, no two members of one name. False otherwise: overloaded methods give code that does not compile (regenerate_overloaded), without the fake-jni syntax a constructor can be replaced by another one (regenerate_constructor_hidden), and some library classes have no alias or one too many (regenerate_aliases). Methods of the target VM for which natives are registered are excluded (see C20). The reader of C++ covers the lines of the generator only; the text as a whole is C75."
  },
  {
   "property": "C63",
   "status": "partial",
   "theorems": [
    "Jnivm.default_partial",
    "Jnivm.default_total",
    "Jnivm.default_class",
    "Jnivm.default_class_array",
    "Jnivm.default_prim_array",
    "Jnivm.default_primitive",
    "Jnivm.default_again",
    "Jnivm.default_boolean_array",
    "Jnivm.default_nested_array",
    "Jnivm.default_renamed",
    "Jnivm.default_refused_array",
    "Jnivm.default_denied_class",
    "Jnivm.initialize_run"
   ],
   "note": "Proved in VMs whose FindClass makes up classes, for types given one name each. False otherwise: arrays of booleans are null (default_boolean_array), arrays of arrays get one dimension too many (default_nested_array), a type that was given a second name makes objects of the wrong class (default_renamed), and in fake-jni and Baron VMs an array of a class that FindClass refuses dereferences null (default_refused_array). Class names with a closing parenthesis are excluded."
  },
  {
   "property": "C64",
   "status": "partial",
   "theorems": [
    "Jnivm.new_vars_null",
    "Jnivm.var_kept",
    "Jnivm.var_owned",
    "Jnivm.statics_stay",
    "Jnivm.var_of_null",
    "Jnivm.field_bits",
    "Jnivm.field_object",
    "Jnivm.field_set_ok",
    "Jnivm.field_typed",
    "Jnivm.field_wrong_type",
    "Jnivm.field_not_class",
    "Jnivm.field_mismatch",
    "Jnivm.field_of_null",
    "Jnivm.field_copy",
    "Jnivm.field_handle",
    "Jnivm.field_handle_dangles",
    "Jnivm.field_cycle_leaks"
   ],
   "note": "Proved for primitive types, bool and std::shared_ptr<T>. False for variables of class type, which are read as a new object each time that claims the class of the object that was set (field_copy), and for jobject, which does not keep the object alive (field_handle_dangles). Objects that hold themselves in a variable are never released (field_cycle_leaks). Reading a member variable of null is undefined (field_of_null)."
  },
  {
   "property": "C65",
   "status": "proved",
   "theorems": [
    "Jnivm.frame_restores",
    "Jnivm.frame_locals",
    "Jnivm.frame_ends",
    "Jnivm.frame_no_terminate",
    "Jnivm.frame_exceptions",
    "Jnivm.frame_no_env",
    "Jnivm.frame_others",
    "Jnivm.frame_pop_inside",
    "Jnivm.frame_copied"
   ],
   "note": "Proved for programs that leave their frames to LocalFrame. With frames popped by hand inside the scope it is false (frame_pop_inside), and a LocalFrame that is copied pops a frame that is not its own (frame_copied). Detaching the thread inside a scope is not covered."
  },
  {
   "property": "C66",
   "status": "partial",
   "theorems": [
    "Jnivm.start_none",
    "Jnivm.start_main",
    "Jnivm.start_detached",
    "Jnivm.start_pops",
    "Jnivm.start_native",
    "Jnivm.start_ambiguous",
    "Jnivm.start_member",
    "Jnivm.start_unhooked",
    "Jnivm.main_created",
    "Jnivm.main_replaced",
    "Jnivm.main_method_partial",
    "Jnivm.main_method_undefined",
    "Jnivm.main_method_fake",
    "Jnivm.main_method_denied",
    "Jnivm.start_arguments"
   ],
   "note": "Proved if the first class with a main has an implemented static or native one and no member function of the same name and type. Otherwise false: a member main is found but cannot be run, so start throws although later classes have a main (start_member, start_ambiguous), and a static main that nobody implements counts, so start returns without having run anything (start_unhooked). createMainMethod is proved where Jvm::findClass gives its class (main_method_partial); otherwise, that is in every new fake-jni VM (main_method_fake) and in Baron VMs that deny the class (main_method_denied), it dereferences null. A main that detaches its thread makes start use the environment that was destroyed (start_main and start_native say so for every main, start_detached is an example); one that pops frames that are not its own takes away references of the caller (start_pops), and what start does is proved for it too."
  },
  {
   "property": "C67",
   "status": "partial",
   "theorems": [
    "Jnivm.destroy_exact",
    "Jnivm.destroy_same",
    "Jnivm.destroy_empty",
    "Jnivm.destroy_all",
    "Jnivm.destroy_leaks"
   ],
   "note": "False for arrays, and objects with variables, that contain themselves: they survive the VM (destroy_leaks). destroy_exact says for every state what is left: what C++ code keeps, what such an object is, and what these own. Without such a cycle this is the property (destroy_all)."
  },
  {
   "property": "C68",
   "status": "partial",
   "theorems": [
    "Jnivm.sized_fits_partial",
    "Jnivm.sized_restores_partial",
    "Jnivm.sized_zero",
    "Jnivm.negative_size",
    "Jnivm.positive_size",
    "Jnivm.sized_throws",
    "Jnivm.sized_not_restored",
    "Jnivm.sized_keeps_locals",
    "Jnivm.sized_depth",
    "Jnivm.room_contract_partial",
    "Jnivm.room_throws",
    "Jnivm.room_not_contract"
   ],
   "note": "Proved for sizes that fit. False for negative sizes and sizes for which there is no memory: reserve throws after the frame was pushed, so the exception leaves the JNI function (room_not_contract) and a LocalFrame leaves a frame behind on an attached thread (sized_throws, sized_not_restored); an outer scope then pops the wrong frame and its references remain (sized_keeps_locals). sized_depth bounds the damage for every program."
  },
  {
   "property": "C69",
   "status": "partial",
   "theorems": [
    "Jnivm.cpp_var_keeps",
    "Jnivm.store_correct",
    "Jnivm.resolve_correct",
    "Jnivm.assign_correct",
    "Jnivm.toGlobal_correct",
    "Jnivm.toGlobal_outlives",
    "Jnivm.toLocal_correct",
    "Jnivm.toLocal_resolve",
    "Jnivm.getClass_correct",
    "Jnivm.cpp_detached",
    "Jnivm.toGlobal_not_total"
   ],
   "note": "All but the last sentence is proved. On a thread that is not attached createGlobalReference dereferences null instead of throwing (cpp_detached, toGlobal_not_total). Classes that replace getClassInternal are part of C60."
  },
  {
   "property": "C70",
   "status": "partial",
   "theorems": [
    "Jnivm.describe_exact",
    "Jnivm.describe_kept",
    "Jnivm.throwNew_partial",
    "Jnivm.throwNew_class",
    "Jnivm.throwNew_loses_class",
    "Jnivm.throwNew_null",
    "Jnivm.describe_not_cleared",
    "Jnivm.describe_rethrown",
    "Jnivm.describe_defined_partial",
    "Jnivm.describe_bare_throwable",
    "Jnivm.shown_pends",
    "Jnivm.invoke_throwNew"
   ],
   "note": "Message, thread, lifetime and text are proved for all histories. False: the class is ignored (throwNew_class for every class, throwNew_loses_class), ExceptionDescribe does not clear (describe_not_cleared), and a Throwable made by hand and thrown cannot be described (describe_bare_throwable; describe_defined_partial covers all histories without one)."
  },
  {
   "property": "C71",
   "status": "partial",
   "theorems": [
    "Jnivm.guard_ownership",
    "Jnivm.guard_read",
    "Jnivm.guard_assign",
    "Jnivm.guard_assign_null",
    "Jnivm.guard_assign_object",
    "Jnivm.guard_assign_copy",
    "Jnivm.guard_kept",
    "Jnivm.guard_refused",
    "Jnivm.guard_index_unchecked",
    "Jnivm.guard_pointer_dangles",
    "Jnivm.guard_copied_cpp14",
    "Jnivm.guard_slices"
   ],
   "note": "Proved for elements in range. False: indices are not checked (guard_index_unchecked); compiled as C++14, and for objects that no shared_ptr manages, an assignment by pointer or reference stores a copy (guard_assign_copy, guard_copied_cpp14), of the static type only (guard_slices); a plain pointer read from an element dangles after the next assignment (guard_pointer_dangles), which is usual for C++. Programs that would not compile because of the static_assert are not excluded from the theorems."
  },
  {
   "property": "C72",
   "status": "partial",
   "theorems": [
    "Jnivm.unwind_thrown",
    "Jnivm.unwind_returned",
    "Jnivm.unwind_refused",
    "Jnivm.unwind_enters",
    "Jnivm.unwind_pending",
    "Jnivm.unwind_exact_partial",
    "Jnivm.unwind_tidy",
    "Jnivm.unwind_balanced",
    "Jnivm.unwind_frames",
    "Jnivm.unwind_others",
    "Jnivm.unwind_no_terminate",
    "Jnivm.unwind_agrees",
    "Jnivm.unwind_caught",
    "Jnivm.unwind_stale",
    "Jnivm.unwind_bare"
   ],
   "note": "Throwing is proved for all programs. That invoke ends normally if the function does holds if the function itself clears what it catches and raises nothing by the interface (unwind_exact_partial). False otherwise: an exception that was caught without ExceptionClear, or was pending before, is thrown by the next invoke (unwind_caught, unwind_stale), and a pending Throwable made by hand makes invoke rethrow null (unwind_bare). Methods without hooked function are C47; JNI_RETURN_NON_ZERO is C63."
  },
  {
   "property": "C73",
   "status": "partial",
   "theorems": [
    "Jnivm.unload_terminates",
    "Jnivm.unload_exact",
    "Jnivm.unload_balanced_partial",
    "Jnivm.unload_registered",
    "Jnivm.unload_self",
    "Jnivm.unload_usable_partial",
    "Jnivm.unload_completes_partial",
    "Jnivm.unload_found_partial",
    "Jnivm.unload_agrees",
    "Jnivm.unload_unknown",
    "Jnivm.unload_table",
    "Jnivm.unload_rule_lost"
   ],
   "note": "Closing and termination are proved in general (except that a library whose JNI_OnLoad throws stays open, C46); the use of the VM is proved for fake-jni VMs and functions that leave the table of libraries alone, and for Baron VMs if what is looked up exists. False otherwise: the destructor of a Baron VM destroys the rules before it unloads the libraries, so that looking up an unknown class in JNI_OnUnload is undefined (unload_unknown); the rules do not bind an environment made then (unload_rule_lost); attaching or removing libraries then is undefined (unload_table). Assumes that unordered_map::erase unlinks an entry before destroying it, as libstdc++ and libc++ do."
  },
  {
   "property": "C74",
   "status": "partial",
   "theorems": [
    "Jnivm.life_safe_partial",
    "Jnivm.life_use_partial",
    "Jnivm.life_make",
    "Jnivm.life_destroy",
    "Jnivm.life_restart",
    "Jnivm.life_isolated",
    "Jnivm.life_two_vms",
    "Jnivm.life_borrowed",
    "Jnivm.life_late_context",
    "Jnivm.life_late_thread",
    "Jnivm.life_direct"
   ],
   "note": "Proved for programs in which a VM is destroyed when no context holds one of its environments, and for threads that keep their VMs and contexts in local variables. False otherwise: one thread cannot have two VMs (life_two_vms), and a context made for one VM may use the environment of another, so that destroying that one makes it dangle (life_borrowed). Contexts that outlive their VM are undefined at their end (life_late_context) or at the end of the thread (life_late_thread), and findClass is undefined in threads that are not attached (life_direct)."
  },
  {
   "property": "C75",
   "status": "partial",
   "theorems": [
    "Jnivm.program_text",
    "Jnivm.program_partial",
    "Jnivm.program_sample",
    "Jnivm.program_needs",
    "Jnivm.program_inner",
    "Jnivm.program_mutual",
    "Jnivm.program_clash",
    "Jnivm.program_inner_inner",
    "Jnivm.program_reserved"
   ],
   "note": "Proved for dumps whose names and types C++ allows (Regenerable): class and member names are identifiers that are not used otherwise, no package is named like a class, no two members of a class have the same name, no constructor is hidden by another one, and members name only classes that are declared before, that is no inner class of a class that is dumped later. These conditions are needed: program_needs derives them from a dump that compiles, and program_clash, program_inner_inner and program_reserved are VMs whose dump does not compile. The reader of C++ covers the lines of the generator, macros of other headers are not known to it. Methods of the target VM for which natives are registered are excluded (see C20)."
  },
  {
   "property": "C76",
   "status": "partial",
   "theorems": [
    "Jnivm.win_name",
    "Jnivm.win_name_overflow",
    "Jnivm.win_open",
    "Jnivm.win_close",
    "Jnivm.win_symbols",
    "Jnivm.win_references",
    "Jnivm.win_close_answer",
    "Jnivm.win_example"
   ],
   "note": "Proved: the conversion of names (win_name, except for names of 2^31-2 units, win_name_overflow), what dlopen gives (win_open), the memory of handles (win_close) and dlsym through open handles (win_symbols). False: dlclose calls CloseHandle instead of FreeLibrary, so that a library is never released (win_references counts the references after every history), a kernel handle of other code with the same number is closed, and the answer is 1 in that case and 0 although nothing was released otherwise (win_close_answer, win_example). The reference that GetModuleHandleExA adds for the program itself is not given back either, which is harmless. What the functions of Windows do is part of the model."
  },
  {
   "property": "C77",
   "status": "partial",
   "theorems": [
    "Jnivm.release_answers",
    "Jnivm.release_outcome_partial",
    "Jnivm.closed_signature",
    "Jnivm.closed_type",
    "Jnivm.declare_reads",
    "Jnivm.release_tables",
    "Jnivm.release_query_exact",
    "Jnivm.release_stable",
    "Jnivm.releaseProgram_answers",
    "Jnivm.release_query_differs",
    "Jnivm.release_unclosed",
    "Jnivm.release_simple_name"
   ],
   "note": "Proved for all programs the default build answers (release_answers), and for all outcomes if every L in a signature is followed by a ; (release_outcome_partial; closed_signature: all well-formed ones). False otherwise: Declare then reads out of bounds, in the default build only (release_unclosed). Lookups that may not create find more in the default build (release_query_differs), so they are not among the operations of release_answers; what they find is release_query_exact and query_exact (C14). Calls of methods are not operations of these programs; they depend on the tables, which are the same (release_tables)."
  },
  {
   "property": "C78",
   "status": "partial",
   "theorems": [
    "Jnivm.assignable_types",
    "Jnivm.assignable_types_total",
    "Jnivm.superclass_types",
    "Jnivm.super_types",
    "Jnivm.order_irrelevant",
    "Jnivm.all_registered",
    "Jnivm.all_registered_iff",
    "Jnivm.bases_first_same",
    "Jnivm.asserts_agree",
    "Jnivm.asserts_same",
    "Jnivm.method_lookup_asserts",
    "Jnivm.constructor_lookup_asserts",
    "Jnivm.field_lookup_asserts",
    "Jnivm.assignable_asserts",
    "Jnivm.superclass_asserts",
    "Jnivm.object_top_partial",
    "Jnivm.rootless_not_object",
    "Jnivm.made_up_not_object",
    "Jnivm.string_not_object"
   ],
   "note": "The hierarchy and the two builds are proved in general. False: that every class is assignable to java/lang/Object. The classes of a new VM except WeakReference and Global, classes that extend them and classes that FindClass made up are not (string_not_object, rootless_not_object, made_up_not_object) and have no superclass; it holds for a class if every type above its own has a base type (object_top_partial). Constructors are constructor_lookup_asserts."
  },
  {
   "property": "C79",
   "status": "proved",
   "theorems": [
    "Jnivm.jni_classes",
    "Jnivm.find_class_refers",
    "Jnivm.class_refs_same",
    "Jnivm.call_by_name",
    "Jnivm.instance_by_name",
    "Jnivm.instance_null",
    "Jnivm.any_reference",
    "Jnivm.named_call_heap",
    "Jnivm.no_class_bad_cast",
    "Jnivm.dangling_class",
    "Jnivm.superclass_null",
    "Jnivm.class_address_forever",
    "Jnivm.class_ref_until_released",
    "Jnivm.global_class_ref",
    "Jnivm.jni_program",
    "Jnivm.jni_release_answers",
    "Jnivm.superclass_takes_local"
   ],
   "note": "Also proved: what happens with arguments that are no classes. Finding outside of the property: GetSuperclass returns a class without a local reference, so deleting what it returned deletes a reference of another call (superclass_takes_local); harmless because classes are never released (class_address_forever)."
  },
  {
   "property": "C80",
   "status": "proved",
   "theorems": [
    "Jnivm.nested_by_calls",
    "Jnivm.functions_act_by_calls",
    "Jnivm.calls_act_by_calls",
    "Jnivm.nested_locals",
    "Jnivm.nested_reachable",
    "Jnivm.functions_well_behaved",
    "Jnivm.nested_depth",
    "Jnivm.nested_others",
    "Jnivm.nested_class_refs",
    "Jnivm.nested_return",
    "Jnivm.nested_throw",
    "Jnivm.nested_varargs",
    "Jnivm.nested_get",
    "Jnivm.nested_set",
    "Jnivm.nested_registered",
    "Jnivm.nested_try",
    "Jnivm.nested_detached",
    "Jnivm.nested_recursion"
   ],
   "note": "Other threads do not run in between (their calls between two calls of the code would be calls of the history). Code and functions use the VM only; state of their own is not modelled, so a function answers the same arguments in the same way."
  },
  {
   "property": "C81",
   "status": "proved",
   "theorems": [
    "Jnivm.thread_alone",
    "Jnivm.enterSet_null",
    "Jnivm.threads_by_calls",
    "Jnivm.threads_reachable",
    "Jnivm.threads_others",
    "Jnivm.threads_class_refs",
    "Jnivm.threads_locals",
    "Jnivm.threads_ended",
    "Jnivm.threads_fair_end",
    "Jnivm.threads_hook_lasts",
    "Jnivm.threads_recursion",
    "Jnivm.threads_recursion_ends",
    "Jnivm.threads_rehook_race"
   ],
   "note": "Proved for steps that are done in one go: a JNI call; what a call of a method, an access of a field or Method::invoke does before the function is entered; what is done with an exception. Interleavings within such a step are not part of the property; there the code takes locks only for some of the tables (C36, C54 and C55 say which). A depth to which calls are followed is given, as for C80; fairness then ends every code. Hooking again while a recursion runs changes it (threads_rehook_race), as it should."
  },
  {
   "property": "C82",
   "status": "proved",
   "theorems": [
    "Jnivm.sync_enter_unlocked",
    "Jnivm.sync_calls_end",
    "Jnivm.sync_deadlock_monitors",
    "Jnivm.sync_deadlock_iff",
    "Jnivm.sync_undefined_iff",
    "Jnivm.sync_ordered_complete",
    "Jnivm.sync_is_monitor",
    "Jnivm.sync_attach_deadlock",
    "Jnivm.sync_detach_deadlock"
   ],
   "note": "The calls of the library are those of C54 with its conditions (acyclic hierarchies; user code under the VM mutex uses neither mutexes nor monitors); the exception named in the statement is proved by sync_attach_deadlock and sync_detach_deadlock, for every object, class lookup and rest of the program. Objects are numbers; sync_is_monitor links the steps to MonitorEnter and MonitorExit of C37. User code that the library runs without a mutex, such as hooked methods, is part of the program of the thread."
  },
  {
   "property": "C83",
   "status": "proved",
   "theorems": [
    "Jnivm.lookup_repeat",
    "Jnivm.warm_stays",
    "Jnivm.warm_up",
    "Jnivm.warm_runs",
    "Jnivm.warm_race_free",
    "Jnivm.warmed_race_free",
    "Jnivm.cold_lookup_races",
    "Jnivm.rebinding_cools",
    "Jnivm.program_race_free",
    "Jnivm.program_hierarchy",
    "Jnivm.bases_first_acyclic",
    "Jnivm.shared_name_cycle"
   ],
   "note": "The conditions on the hierarchy hold for every program that gives each type one name of its own, base types first (program_race_free); two types under one name can break them (shared_name_cycle). The exceptions named in the statement are proved by cold_lookup_races (for every state, class and pair of lookups) and rebinding_cools. What a lookup locks, reads and writes is taken from the state at the start; since nobody writes the tables it reads (second part of warm_race_free), they are the same whenever it runs. VM::GetEnv is allowed beside lookups on attached threads if no thread attaches or detaches. Installing hooks and making objects of classes that do not exist are not among the calls; they write (C55)."
  },
  {
   "property": "C84",
   "status": "proved",
   "theorems": [
    "Jnivm.native_wrapper_calls",
    "Jnivm.invoke_wrapper_calls",
    "Jnivm.wrappers_complete",
    "Jnivm.wrapper_implementation",
    "Jnivm.wrapper_never_variadic"
   ],
   "note": "The lists of member functions are transcribed by a script that expands the macros of jni.h; the theorems hold for every table, every state and all arguments. How the V entries read a va_list is C07 and C08."
  },
  {
   "property": "C85",
   "status": "partial",
   "theorems": [
    "Jnivm.trace_call",
    "Jnivm.trace_static",
    "Jnivm.trace_unknown_virtual_partial",
    "Jnivm.trace_unknown_nonvirtual_partial",
    "Jnivm.trace_varargs",
    "Jnivm.trace_get_partial",
    "Jnivm.trace_set_partial",
    "Jnivm.trace_leaves",
    "Jnivm.trace_reachable",
    "Jnivm.trace_lookup",
    "Jnivm.trace_adds_locals",
    "Jnivm.trace_null_makes_class",
    "Jnivm.trace_cleared",
    "Jnivm.trace_bad_class",
    "Jnivm.trace_null_lookup"
   ],
   "note": "Proved for calls of methods that have an implementation, for all static calls and for lookups in a class. For the other calls and for fields the result is the same but the traced build has asked for the class of the object, which leaves a local reference (trace_adds_locals; nothing else, trace_leaves). False otherwise: a null object makes a class named Invalid (trace_null_makes_class), a cleared weak reference is dereferenced (trace_cleared), a class argument that is no class lets bad_cast escape (trace_bad_class), and a lookup in a null class gives printf a null pointer (trace_null_lookup). Null names and signatures are not considered."
  },
  {
   "property": "C86",
   "status": "partial",
   "theorems": [
    "Jnivm.new_object",
    "Jnivm.new_object_throws",
    "Jnivm.new_object_program",
    "Jnivm.new_object_get_class",
    "Jnivm.new_object_distinct",
    "Jnivm.new_object_varargs",
    "Jnivm.new_object_unhooked",
    "Jnivm.new_object_other_class",
    "Jnivm.alloc_object_null"
   ],
   "note": "Proved for hooked constructors: functions that make an object of a C++ type bound to the class, or throw. False: a constructor that is not hooked and a null id give null without an exception (new_object_unhooked), and NewObject does not check that the constructor belongs to the class (new_object_other_class). AllocObject is not implemented (alloc_object_null)."
  },
  {
   "property": "C87",
   "status": "partial",
   "theorems": [
    "Jnivm.vm_attach",
    "Jnivm.vm_daemon",
    "Jnivm.get_env_partial",
    "Jnivm.get_env_attaches",
    "Jnivm.get_env_version",
    "Jnivm.get_version",
    "Jnivm.vm_detach",
    "Jnivm.destroy_nothing",
    "Jnivm.vm_env_stable",
    "Jnivm.vm_detach_renews",
    "Jnivm.get_java_vm",
    "Jnivm.attach_second_vm"
   ],
   "note": "Proved for attaching, detaching and for GetEnv of attached threads with a supported version, over all histories. False: GetEnv attaches a thread that is not attached and returns JNI_OK (get_env_attaches), and accepts every version (get_env_version). In fake-jni a thread of one VM cannot be attached to another one: an exception leaves the C function and a null entry stays (attach_second_vm). DestroyJavaVM does nothing (destroy_nothing)."
  },
  {
   "property": "C88",
   "status": "partial",
   "theorems": [
    "Jnivm.jni_is_member_history",
    "Jnivm.hook_program_partial",
    "Jnivm.static_program",
    "Jnivm.construct_program",
    "Jnivm.virtual_program_partial",
    "Jnivm.inherited_program_partial",
    "Jnivm.super_program_partial",
    "Jnivm.varargs_program_partial",
    "Jnivm.field_hook_program",
    "Jnivm.get_program",
    "Jnivm.set_program",
    "Jnivm.inherited_get_program",
    "Jnivm.inherited_set_program",
    "Jnivm.register_program_partial",
    "Jnivm.native_program_partial",
    "Jnivm.hook_after_native_ineffective",
    "Jnivm.register_stale"
   ],
   "note": "Proved in full for static functions, constructors and for getters and setters of fields of classes and objects, also of objects of subclasses. For instance methods (virtual_program_partial: the object is of the class that was hooked; inherited_program_partial: of a class below it, where no class before it in the search has such a method; super_program_partial: non-virtual calls, not for member pointers, C23) it is proved unless a native method of that name and signature was registered before, when it is false (hook_after_native_ineffective). Which function such a call runs in general is C22. When the function throws the thread must still be attached. For native functions it is proved if the class had no native of that name and signature; a second registration has no effect (register_stale)."
  },
  {
   "property": "C89",
   "status": "proved",
   "theorems": [
    "Jnivm.check_catches",
    "Jnivm.call_catches",
    "Jnivm.catch_program",
    "Jnivm.catch_virtual_program_partial",
    "Jnivm.passed_caught",
    "Jnivm.caught_rethrown"
   ],
   "note": "call_catches is for any call whose function is known (Handled, which C22 to C24 give for all forms); catch_program is the whole program for static functions, catch_virtual_program_partial the one for instance methods (not covered there: a native method registered before under that name and signature, for which hook_after_native_ineffective shows that the hook has no effect); passed_caught is for exceptions from any depth below. A function that throws must leave the thread attached."
  },
  {
   "property": "C90",
   "status": "proved",
   "theorems": [
    "Jnivm.global_hands_over",
    "Jnivm.weak_hands_over",
    "Jnivm.array_hands_over"
   ],
   "note": "For histories of JNI calls (JniReachable); accesses of different threads happen one call after the other, what happens at the same time is C81."
  }
 ]
}