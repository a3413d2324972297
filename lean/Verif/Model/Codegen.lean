import Verif.Model.Members
/-!
The code generator that dumps all known classes as C++: src/jnivm/internal/codegen/*.cpp.
`fake` is `JNIVM_FAKE_JNI_SYNTAX`.

The generators recurse over the tree of namespaces and classes; `depth` bounds the recursion and
`Res.diverges` is returned if it is not enough.
-/
namespace Jnivm

/-- The types without `[` and `L`, src/jnivm/internal/codegen/parseJNIType.cpp:8-67. -/
def letterType (fake : Bool) : Char → Str
  | 'V' => "void".toList
  | 'Z' => if fake then "FakeJni::JBoolean".toList else "jboolean".toList
  | 'B' => if fake then "FakeJni::JByte".toList else "jbyte".toList
  | 'S' => if fake then "FakeJni::JShort".toList else "jshort".toList
  | 'C' => if fake then "FakeJni::JChar".toList else "jchar".toList
  | 'I' => if fake then "FakeJni::JInt".toList else "jint".toList
  | 'J' => if fake then "FakeJni::JLong".toList else "jlong".toList
  | 'F' => if fake then "FakeJni::JFloat".toList else "jfloat".toList
  | 'D' => if fake then "FakeJni::JDouble".toList else "jdouble".toList
  | _ => []

/-- `type.rfind("std::shared_ptr<", 0) == 0 && type[type.length() - 1] == '>' ?
type.substr(16, type.length() - 17) : type`, parseJNIType.cpp:71. -/
def unwrapShared (t : Str) : Str :=
  if "std::shared_ptr<".toList.isPrefixOf t && t.getLast? == some '>' then (t.drop 16).take (t.length - 17) else t

/-- The arrays of one letter in the fake-jni syntax, parseJNIType.cpp:74-101; `t` is the type so far. -/
def letterArray (t : Str) : Char → Str
  | 'Z' => "std::shared_ptr<FakeJni::JBooleanArray>".toList
  | 'B' => "std::shared_ptr<FakeJni::JByteArray>".toList
  | 'S' => "std::shared_ptr<FakeJni::JShortArray>".toList
  | 'C' => "std::shared_ptr<FakeJni::JCharArray>".toList
  | 'I' => "std::shared_ptr<FakeJni::JIntArray>".toList
  | 'J' => "std::shared_ptr<FakeJni::JLongArray>".toList
  | 'F' => "std::shared_ptr<FakeJni::JFloatArray>".toList
  | 'D' => "std::shared_ptr<FakeJni::JDoubleArray>".toList
  | _ => t

/-- `std::regex_replace(name, std::regex("(/|\\$)"), "::")`, parseJNIType.cpp:121, class.cpp:80, 82. -/
def scopeName (name : Str) : Str :=
  name.flatMap fun c => if c = '/' ∨ c = '$' then [':', ':'] else [c]

/-- The type of a class, parseJNIType.cpp:107-124. -/
def classType (fake : Bool) (name : Str) : Str :=
  if fake && name == "java/lang/String".toList then "std::shared_ptr<FakeJni::JString>".toList
  else if fake && name == "java/lang/Object".toList then "std::shared_ptr<FakeJni::JObject>".toList
  else if fake && name == "java/lang/Throwable".toList then "std::shared_ptr<FakeJni::JThrowable>".toList
  else if fake && name == "java/lang/Class".toList then "std::shared_ptr<FakeJni::JClass>".toList
  else if fake && name == "java/lang/ref/WeakReference".toList then "std::shared_ptr<FakeJni::JWeak>".toList
  else "std::shared_ptr<jnivm::".toList ++ scopeName name ++ ">".toList

/-- `ParseJNIType(cur, end, type)`, src/jnivm/internal/codegen/parseJNIType.cpp:6-129: the position of the
last character read and the type.  All callers pass an empty `type`. -/
def parseJNIType (fake : Bool) (s : Str) (cur : Nat) : Res (Nat × Str) :=
  match _h : chAt s cur with
  | .ok c =>
    if c = '[' then
      match parseJNIType fake s (cur + 1) with
      | .ok (n, t) =>
        if !fake then .ok (n, "std::shared_ptr<jnivm::Array<".toList ++ unwrapShared t ++ ">>".toList)
        else if n - cur = 1 then (chAt s n).bind fun d => .ok (n, letterArray t d)
        else .ok (n, "std::shared_ptr<FakeJni::JArray<".toList ++ unwrapShared t ++ ">>".toList)
      | .throws e => .throws e
      | .ub u => .ub u
      | .diverges => .diverges
    else if c = 'L' then
      .ok (findFrom s (cur + 1) ';', classType fake ((s.drop (cur + 1)).take (findFrom s (cur + 1) ';' - (cur + 1))))
    else .ok (cur, letterType fake c)
  | .throws e => .throws e
  | .ub u => .ub u
  | .diverges => .diverges
termination_by s.length + 1 - cur
decreasing_by
  all_goals
    have := chAt_le _h
    omega

theorem parseJNIType_ge (fake : Bool) (s : Str) (cur : Nat) :
    ∀ r, parseJNIType fake s cur = .ok r → cur ≤ r.1 := by
  fun_induction parseJNIType fake s cur <;> intro r' h'
  all_goals try (cases h'; done)
  case case1 hr _ _ ih =>
    cases h'
    have := ih _ hr
    simp only at this ⊢
    omega
  case case2 hr _ _ _ ih =>
    obtain ⟨d, _, h2⟩ := Res.bind_eq_ok.1 h'
    cases h2
    have := ih _ hr
    simp only at this ⊢
    omega
  case case3 hr _ _ _ ih =>
    cases h'
    have := ih _ hr
    simp only at this ⊢
    omega
  case case7 cur _ _ =>
    cases h'
    have := findFrom_ge s (cur + 1) ';'
    simp only
    omega
  case case8 =>
    cases h'
    simp

/-- The loop over the signature, src/jnivm/internal/codegen/method.cpp:13-34, 66-87, 119-140: the types of
the parameters and of the result. -/
def scanLoop (fake : Bool) (s : Str) (cur : Nat) (inarg : Bool) (params : List Str) (ret : Str) :
    Res (List Str × Str) :=
  if cur = s.length then .ok (params, ret)
  else
    match _h : chAt s cur with
    | .ok c =>
      if c = '(' then scanLoop fake s (cur + 1) true params ret
      else if c = ')' then scanLoop fake s (cur + 1) false params ret
      else
        match _hp : parseJNIType fake s cur with
        | .ok (n, t) =>
          if t = [] then scanLoop fake s (n + 1) inarg params ret
          else if inarg then scanLoop fake s (n + 1) inarg (params ++ [t]) ret
          else scanLoop fake s (n + 1) inarg params t
        | .throws e => .throws e
        | .ub u => .ub u
        | .diverges => .diverges
    | .throws e => .throws e
    | .ub u => .ub u
    | .diverges => .diverges
termination_by s.length + 1 - cur
decreasing_by
  all_goals
    have := chAt_le _h
    try have := parseJNIType_ge _ _ _ _ _hp
    try simp only at *
    omega

/-- The types in a signature. -/
def scanSig (fake : Bool) (sig : Str) : Res (List Str × Str) := scanLoop fake sig 0 false [] []

/-- `for (size_t i = 0; i < parameters.size(); i++)`, one text for each parameter and its index. -/
def perParam (f : Nat → Str → Str) (params : List Str) : Str := (params.mapIdx f).flatten

/-- `name == "<init>"` -/
def isInit (name : Str) : Bool := name == "<init>".toList

/-- `Method::GenerateHeader`, src/jnivm/internal/codegen/method.cpp:7-58. -/
def methodHeader (fake : Bool) (m : MethodRec) (cname : Str) : Res Str :=
  if m.native.isSome then .ok []
  else (scanSig fake m.signature).bind fun (ps, ret) => .ok (
    (if isInit m.name then cname
      else (if m.static then "static ".toList else []) ++ ret ++ " ".toList ++ m.name) ++
    "(".toList ++
    (if !fake then "jnivm::ENV* env".toList ++ (if m.static then ", jnivm::Class* cl".toList else []) else []) ++
    perParam (fun i p => (if i ≠ 0 || !fake then ", ".toList else []) ++ p) ps ++
    ");".toList)

/-- `Method::GenerateStubs`, src/jnivm/internal/codegen/method.cpp:60-111.  The decimal digits of `i` are
`std::ostream << size_t`. -/
def methodStubs (fake : Bool) (m : MethodRec) (scope cname : Str) : Res Str :=
  if m.native.isSome then .ok []
  else (scanSig fake m.signature).bind fun (ps, ret) => .ok (
    (if isInit m.name then scope ++ "::".toList ++ cname
      else ret ++ " ".toList ++ scope ++ "::".toList ++ m.name) ++
    "(".toList ++
    (if !fake then "jnivm::ENV *".toList ++ (if m.static then ", jnivm::Class* cl".toList else []) else []) ++
    perParam (fun i p => (if i ≠ 0 || !fake then ", ".toList else []) ++ p ++ " arg".toList ++ (Nat.repr i).toList) ps ++
    ") {\n    ".toList ++
    (if ret ≠ "void".toList && !isInit m.name then "return {};".toList else []) ++
    "\n}\n\n".toList)

/-- `Method::GenerateJNIBinding`, src/jnivm/internal/codegen/method.cpp:113-180. -/
def methodBinding (fake : Bool) (m : MethodRec) (scope cname : Str) : Res Str :=
  if m.native.isSome then .ok []
  else (scanSig fake m.signature).bind fun (ps, _) => .ok (
    if !fake then
      "c->Hook(env, \"".toList ++ m.name ++ "\", ".toList ++
      (if isInit m.name then
        "[](jnivm::ENV *env, jnivm::Class* cl".toList ++
        perParam (fun i p => ", ".toList ++ p ++ " arg".toList ++ (Nat.repr i).toList) ps ++
        ") {   return std::make_shared<".toList ++ scope ++ ">(env, cl".toList ++
        perParam (fun i _ => ", arg".toList ++ (Nat.repr i).toList) ps ++
        ");}".toList
      else "&".toList ++ scope ++ "::".toList ++ m.name) ++
      ");\n".toList
    else if isInit m.name then
      "{FakeJni::Constructor<".toList ++ cname ++ perParam (fun _ p => ", ".toList ++ p) ps ++ ">{}},\n".toList
    else
      "{FakeJni::Function<&".toList ++ cname ++ "::".toList ++ m.name ++ ">{}, \"".toList ++ m.name ++
      "\", FakeJni::JMethodID::PUBLIC".toList ++
      (if m.static then " | FakeJni::JMethodID::STATIC".toList else []) ++ " },\n".toList)

/-- `Field::GenerateHeader`, src/jnivm/internal/codegen/field.cpp:7-16. -/
def fieldHeader (fake : Bool) (f : FieldRec) : Res Str :=
  (parseJNIType fake f.type 0).bind fun (_, t) =>
    .ok ((if f.static then "static ".toList else []) ++ t ++ " ".toList ++ f.name ++ ";".toList)

/-- `Field::GenerateStubs`, src/jnivm/internal/codegen/field.cpp:18-25. -/
def fieldStubs (fake : Bool) (f : FieldRec) (scope : Str) : Res Str :=
  if !f.static then .ok []
  else (parseJNIType fake f.type 0).bind fun (_, t) =>
    .ok (t ++ " ".toList ++ scope ++ "::".toList ++ f.name ++ " = {};\n\n".toList)

/-- `Field::GenerateJNIBinding`, src/jnivm/internal/codegen/field.cpp:27-43. -/
def fieldBinding (fake : Bool) (f : FieldRec) (scope cname : Str) : Str :=
  if !fake then
    "c->Hook(env, \"".toList ++ f.name ++ "\", &".toList ++ scope ++ "::".toList ++ f.name ++ ");\n".toList
  else
    "{FakeJni::Field<&".toList ++ cname ++ "::".toList ++ f.name ++ ">{}, \"".toList ++ f.name ++
    "\", FakeJni::JFieldID::PUBLIC".toList ++
    (if f.static then " | FakeJni::JFieldID::STATIC".toList else []) ++ " },\n".toList

/-- The classes that are not dumped, src/jnivm/internal/codegen/class.cpp:8. -/
def blacklisted : List Str :=
  ["java/lang/Object".toList, "java/lang/String".toList, "java/lang/Class".toList, "java/nio/ByteBuffer".toList,
   "java/lang/Throwable".toList, "java/lang/reflect/Method".toList, "java/lang/reflect/Field".toList,
   "java/lang/ref/WeakReference".toList, "internal/lang/Global".toList]

/-- `std::regex_replace(sub, std::regex("(^|\n)([^\n]+)"), "$1    $2")`: each line that is not empty is
indented; `start` says that a line starts. -/
def indent : Bool → Str → Str
  | _, [] => []
  | start, c :: t =>
    if c = '\n' then c :: indent true t
    else (if start then "    ".toList else []) ++ c :: indent false t

/-- `if(!sub.empty()) { ss << indented sub; ss << "\n"; }` -/
def indentLine (sub : Str) : Str := if sub = [] then [] else indent true sub ++ "\n".toList

/-- `for (auto &x : l) ss << f(x);` -/
def catMap {α : Type} (f : α → Res Str) : List α → Res Str
  | [] => .ok []
  | x :: xs => (f x).bind fun a => (catMap f xs).bind fun b => .ok (a ++ b)

/-- `scope += scope.empty() ? name : "::" + name` -/
def addScope (scope name : Str) : Str := scope ++ if scope = [] then name else "::".toList ++ name

/-- Access to a class through a `shared_ptr`. -/
def withClass (w : World) (c : Nat) (f : ClassNode → Res Str) : Res Str :=
  match w.reg.cls[c]? with
  | none => .ub .dangling
  | some cd => if cd.nativeprefix ∈ blacklisted then .ok [] else f cd

/-- `Class::GeneratePreDeclaration`, src/jnivm/internal/codegen/class.cpp:52-57. -/
def classPre (w : World) (c : Nat) : Res Str :=
  withClass w c fun cd => .ok ("class ".toList ++ cd.name ++ ";".toList)

/-- The part of `Class::GenerateHeader` before the inner classes, class.cpp:12-44. -/
def classText (fake : Bool) (w : World) (scope : Str) (c : Nat) (cd : ClassNode) : Res Str :=
  (catMap (fun k => (classPre w k).bind fun s => .ok (indentLine s)) cd.classes).bind fun pre =>
  (catMap (fun f => (fieldHeader fake f).bind fun s => .ok (indentLine s)) (w.mem c).fields).bind fun fs =>
  (catMap (fun m => (methodHeader fake m cd.name).bind fun s => .ok (indentLine s)) (w.mem c).methods).bind fun ms =>
  .ok ("class ".toList ++ scope ++ " : ".toList ++
    (if !fake then "public jnivm::Object".toList else "public FakeJni::JObject".toList) ++ " {\npublic:\n".toList ++
    (if fake then "    DEFINE_CLASS_NAME(\"".toList ++ cd.nativeprefix ++ "\")\n".toList else []) ++
    pre ++ fs ++ ms ++ "};\n\n".toList)

/-- `Class::GenerateHeader`, src/jnivm/internal/codegen/class.cpp:10-50. -/
def classHeader (fake : Bool) (w : World) : Nat → Str → Nat → Res Str
  | 0, _, _ => .diverges
  | depth + 1, scope, c => withClass w c fun cd =>
    (classText fake w (addScope scope cd.name) c cd).bind fun own =>
    (catMap (classHeader fake w depth (addScope scope cd.name)) cd.classes).bind fun inner => .ok (own ++ inner)

/-- The part of `Class::GenerateStubs` behind the inner classes, class.cpp:66-71. -/
def stubText (fake : Bool) (w : World) (scope : Str) (c : Nat) (cd : ClassNode) : Res Str :=
  (catMap (fun f => fieldStubs fake f scope) (w.mem c).fields).bind fun fs =>
  (catMap (fun m => methodStubs fake m scope cd.name) (w.mem c).methods).bind fun ms => .ok (fs ++ ms)

/-- `Class::GenerateStubs`, src/jnivm/internal/codegen/class.cpp:59-73. -/
def classStubs (fake : Bool) (w : World) : Nat → Str → Nat → Res Str
  | 0, _, _ => .diverges
  | depth + 1, scope, c => withClass w c fun cd =>
    (catMap (classStubs fake w depth (addScope scope cd.name)) cd.classes).bind fun inner =>
    (stubText fake w (addScope scope cd.name) c cd).bind fun own => .ok (inner ++ own)

/-- The line for one class in `Class::GenerateJNIPreDeclaration`, class.cpp:78-83. -/
def registerText (fake : Bool) (cd : ClassNode) : Str :=
  if !fake then
    "env->GetClass<jnivm::".toList ++ scopeName cd.nativeprefix ++ ">(\"".toList ++ cd.nativeprefix ++ "\");\n".toList
  else "vm->registerClass<jnivm::".toList ++ scopeName cd.nativeprefix ++ ">();\n".toList

/-- `Class::GenerateJNIPreDeclaration`, src/jnivm/internal/codegen/class.cpp:75-88. -/
def classRegister (fake : Bool) (w : World) : Nat → Nat → Res Str
  | 0, _ => .diverges
  | depth + 1, c => withClass w c fun cd =>
    (catMap (classRegister fake w depth) cd.classes).bind fun inner => .ok (registerText fake cd ++ inner)

/-- `Class::GenerateJNIBinding`, src/jnivm/internal/codegen/class.cpp:90-121. -/
def classBinding (fake : Bool) (w : World) : Nat → Str → Nat → Res Str
  | 0, _, _ => .diverges
  | depth + 1, scope, c => withClass w c fun cd =>
    let scope := addScope scope cd.name
    if !fake then
      (catMap (classBinding fake w depth scope) cd.classes).bind fun inner =>
      (catMap (fun m => methodBinding fake m scope cd.name) (w.mem c).methods).bind fun ms =>
      .ok ("{\nauto c = env->GetClass(\"".toList ++ cd.nativeprefix ++ "\");\n".toList ++ inner ++
        ((w.mem c).fields.map fun f => fieldBinding fake f scope cd.name).flatten ++ ms ++ "}\n".toList)
    else
      (catMap (fun m => methodBinding fake m scope cd.name) (w.mem c).methods).bind fun ms =>
      (catMap (classBinding fake w depth scope) cd.classes).bind fun inner =>
      .ok ("BEGIN_NATIVE_DESCRIPTOR(".toList ++ scope ++ ")\n".toList ++
        ((w.mem c).fields.map fun f => fieldBinding fake f scope cd.name).flatten ++ ms ++
        "END_NATIVE_DESCRIPTOR\n".toList ++ inner)

/-- Access to a namespace. -/
def withNs (w : World) (n : Nat) (f : NsNode → Res Str) : Res Str :=
  match w.reg.ns[n]? with
  | none => .ub .dangling
  | some nd => f nd

/-- `if (name.length()) scope += …`, src/jnivm/internal/codegen/namespace.cpp:9-11. -/
def nsScope (scope name : Str) : Str := if name = [] then scope else addScope scope name

/-- `if(!sub.empty()) { ss << sub; if(sub[sub.length() - 1] != '\n') ss << "\n"; }` -/
def withNewline (sub : Str) : Str :=
  if sub = [] then [] else sub ++ if sub.getLast? ≠ some '\n' then "\n".toList else []

/-- `Namespace::GenerateHeader`, src/jnivm/internal/codegen/namespace.cpp:7-29. -/
def nsHeader (fake : Bool) (w : World) : Nat → Str → Nat → Res Str
  | 0, _, _ => .diverges
  | depth + 1, scope, n => withNs w n fun nd =>
    (catMap (fun c => (classHeader fake w depth (nsScope scope nd.name) c).bind fun s => .ok (withNewline s))
      nd.classes).bind fun cs =>
    (catMap (fun k => (nsHeader fake w depth (nsScope scope nd.name) k).bind fun s => .ok (withNewline s))
      nd.namespaces).bind fun ns => .ok (cs ++ ns)

/-- One step of the loops of `Namespace::GeneratePreDeclaration`, namespace.cpp:35-62. -/
def preStep (name : Str) (acc : Str × Bool) (sub : Str) : Str × Bool :=
  if sub = [] then acc
  else
    (acc.1 ++ (if acc.2 then (if name = [] then [] else "namespace ".toList ++ name ++ " {\n".toList) else "\n".toList) ++
      (if name = [] then sub else indent true sub), false)

/-- `for (auto &x : l)` over texts that are generated one by one. -/
def preLoop (name : Str) : Str × Bool → List (Res Str) → Res (Str × Bool)
  | acc, [] => .ok acc
  | acc, x :: xs => x.bind fun sub => preLoop name (preStep name acc sub) xs

/-- `Namespace::GeneratePreDeclaration`, src/jnivm/internal/codegen/namespace.cpp:31-67. -/
def nsPre (w : World) : Nat → Nat → Res Str
  | 0, _ => .diverges
  | depth + 1, n => withNs w n fun nd =>
    (preLoop nd.name ([], true) (nd.classes.map (classPre w) ++ nd.namespaces.map (nsPre w depth))).bind fun acc =>
    .ok (acc.1 ++ if !acc.2 && nd.name ≠ [] then "\n}".toList else [])

/-- `Namespace::GenerateStubs`, src/jnivm/internal/codegen/namespace.cpp:69-81. -/
def nsStubs (fake : Bool) (w : World) : Nat → Str → Nat → Res Str
  | 0, _, _ => .diverges
  | depth + 1, scope, n => withNs w n fun nd =>
    (catMap (classStubs fake w depth (nsScope scope nd.name)) nd.classes).bind fun cs =>
    (catMap (nsStubs fake w depth (nsScope scope nd.name)) nd.namespaces).bind fun ns => .ok (cs ++ ns)

/-- `Namespace::GenerateJNIPreDeclaration`, src/jnivm/internal/codegen/namespace.cpp:83-95. -/
def nsRegister (fake : Bool) (w : World) : Nat → Nat → Res Str
  | 0, _ => .diverges
  | depth + 1, n => withNs w n fun nd =>
    (catMap (classRegister fake w depth) nd.classes).bind fun cs =>
    (catMap (nsRegister fake w depth) nd.namespaces).bind fun ns => .ok (cs ++ ns)

/-- `Namespace::GenerateJNIBinding`, src/jnivm/internal/codegen/namespace.cpp:97-109. -/
def nsBinding (fake : Bool) (w : World) : Nat → Str → Nat → Res Str
  | 0, _, _ => .diverges
  | depth + 1, scope, n => withNs w n fun nd =>
    (catMap (classBinding fake w depth (nsScope scope nd.name)) nd.classes).bind fun cs =>
    (catMap (nsBinding fake w depth (nsScope scope nd.name)) nd.namespaces).bind fun ns => .ok (cs ++ ns)

/-- `VM::GenerateClassDump`, src/jnivm/internal/codegen/vm.cpp:5-47: the text written to the file. -/
def World.classDump (fake : Bool) (w : World) (depth : Nat) : Res Str :=
  (nsPre w depth 0).bind fun pre =>
  (nsHeader fake w depth [] 0).bind fun header =>
  (nsStubs fake w depth [] 0).bind fun stubs =>
  if !fake then
    (nsRegister fake w depth 0).bind fun reg =>
    (nsBinding fake w depth [] 0).bind fun binding =>
    .ok ("#include <jnivm.h>\n".toList ++ pre ++ "\n".toList ++ header ++ stubs ++
      "void InitJNIBinding(jnivm::ENV* env) {\n".toList ++ reg ++ binding ++ "\n}".toList)
  else
    (nsBinding fake w depth [] 0).bind fun binding =>
    (nsRegister fake w depth 0).bind fun reg =>
    .ok ("#include <fake-jni/fake-jni.h>\n".toList ++ pre ++ "\n".toList ++ header ++ stubs ++
      binding ++ "\nvoid InitJNIBinding(FakeJni::Jvm* vm) {\n".toList ++ reg ++ "\n}".toList)

end Jnivm
