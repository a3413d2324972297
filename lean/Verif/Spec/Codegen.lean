import Verif.Spec.Names
/-!
The C++ a class dump has to contain: the C++ type of each Java type, and declarations, definitions and
bindings of methods with all parameters in order.  Independent of the model.
-/
namespace Spec

/-- A Java class name as a C++ scope: `::` for `/` and `$`. -/
def cppName : List Char → List Char
  | [] => []
  | c :: t => (if c = '/' ∨ c = '$' then "::".toList else [c]) ++ cppName t

/-- The C++ name of a primitive type. -/
def cppPrim (fake : Bool) (p : Prim) : List Char :=
  match fake, p with
  | false, .boolean => "jboolean".toList
  | false, .byte => "jbyte".toList
  | false, .char => "jchar".toList
  | false, .short => "jshort".toList
  | false, .int => "jint".toList
  | false, .long => "jlong".toList
  | false, .float => "jfloat".toList
  | false, .double => "jdouble".toList
  | true, .boolean => "FakeJni::JBoolean".toList
  | true, .byte => "FakeJni::JByte".toList
  | true, .char => "FakeJni::JChar".toList
  | true, .short => "FakeJni::JShort".toList
  | true, .int => "FakeJni::JInt".toList
  | true, .long => "FakeJni::JLong".toList
  | true, .float => "FakeJni::JFloat".toList
  | true, .double => "FakeJni::JDouble".toList

/-- The C++ name of a class; some have names of their own in the fake-jni syntax. -/
def cppClass (fake : Bool) (n : List Char) : List Char :=
  if fake then
    if n = "java/lang/String".toList then "FakeJni::JString".toList
    else if n = "java/lang/Object".toList then "FakeJni::JObject".toList
    else if n = "java/lang/Throwable".toList then "FakeJni::JThrowable".toList
    else if n = "java/lang/Class".toList then "FakeJni::JClass".toList
    else if n = "java/lang/ref/WeakReference".toList then "FakeJni::JWeak".toList
    else "jnivm::".toList ++ cppName n
  else "jnivm::".toList ++ cppName n

/-- The C++ type of the object (or value) itself. -/
def cppBare (fake : Bool) : Ty → List Char
  | .prim p => cppPrim fake p
  | .cls n => cppClass fake n
  | .arr (.prim p) =>
    if fake then cppPrim fake p ++ "Array".toList else "jnivm::Array<".toList ++ cppPrim fake p ++ ">".toList
  | .arr t => (if fake then "FakeJni::JArray<".toList else "jnivm::Array<".toList) ++ cppBare fake t ++ ">".toList

/-- The C++ type of a parameter, field or result: objects are held by `std::shared_ptr`. -/
def cppType (fake : Bool) : Ty → List Char
  | .prim p => cppPrim fake p
  | t => "std::shared_ptr<".toList ++ cppBare fake t ++ ">".toList

/-- The C++ type of a result. -/
def cppRet (fake : Bool) : Option Ty → List Char
  | none => "void".toList
  | some t => cppType fake t

/-- A list with separating commas. -/
def commas : List (List Char) → List Char
  | [] => []
  | [x] => x
  | x :: y :: l => x ++ ", ".toList ++ commas (y :: l)

/-- The name of parameter `i`. -/
def argName (i : Nat) : List Char := "arg".toList ++ (Nat.repr i).toList

/-- The parameters of a definition, named `arg0`, `arg1`, …. -/
def namedFrom (fake : Bool) : Nat → List Ty → List (List Char)
  | _, [] => []
  | i, t :: ts => (cppType fake t ++ " ".toList ++ argName i) :: namedFrom fake (i + 1) ts

/-- The names `arg0`, `arg1`, … of so many parameters. -/
def namesFrom : Nat → Nat → List (List Char)
  | _, 0 => []
  | i, k + 1 => argName i :: namesFrom (i + 1) k

/-- Parameters in front of the Java parameters; `env` is how the environment is written. -/
def implicit (fake static : Bool) (env : List Char) : List (List Char) :=
  if fake then [] else if static then [env, "jnivm::Class* cl".toList] else [env]

/-- Declaration of a method inside its class `cname`. -/
def declaration (fake static : Bool) (name cname : List Char) (ts : List Ty) (ret : Option Ty) : List Char :=
  (if name = "<init>".toList then cname
    else (if static then "static ".toList else []) ++ cppRet fake ret ++ " ".toList ++ name) ++
  "(".toList ++ commas (implicit fake static "jnivm::ENV* env".toList ++ ts.map (cppType fake)) ++ ");".toList

/-- Definition of a method of the class with C++ name `scope` and simple name `cname`. -/
def definition (fake static : Bool) (name scope cname : List Char) (ts : List Ty) (ret : Option Ty) : List Char :=
  (if name = "<init>".toList then scope ++ "::".toList ++ cname
    else cppRet fake ret ++ " ".toList ++ scope ++ "::".toList ++ name) ++
  "(".toList ++ commas (implicit fake static "jnivm::ENV *".toList ++ namedFrom fake 0 ts) ++ ") {\n    ".toList ++
  (if name = "<init>".toList ∨ ret = none then [] else "return {};".toList) ++ "\n}\n\n".toList

/-- Binding of a constructor: a function that forwards all its arguments. -/
def constructorBinding (scope : List Char) (ts : List Ty) : List Char :=
  "c->Hook(env, \"<init>\", [](".toList ++
  commas ("jnivm::ENV *env".toList :: "jnivm::Class* cl".toList :: namedFrom false 0 ts) ++
  ") {   return std::make_shared<".toList ++ scope ++ ">(".toList ++
  commas ("env".toList :: "cl".toList :: namesFrom 0 ts.length) ++ ");});\n".toList

/-- Binding of any other method. -/
def methodHook (scope name : List Char) : List Char :=
  "c->Hook(env, \"".toList ++ name ++ "\", &".toList ++ scope ++ "::".toList ++ name ++ ");\n".toList

/-- Binding of a constructor in the fake-jni syntax. -/
def fakeConstructor (cname : List Char) (ts : List Ty) : List Char :=
  "{FakeJni::Constructor<".toList ++ commas (cname :: ts.map (cppType true)) ++ ">{}},\n".toList

/-- Binding of any other method in the fake-jni syntax. -/
def fakeFunction (static : Bool) (cname name : List Char) : List Char :=
  "{FakeJni::Function<&".toList ++ cname ++ "::".toList ++ name ++ ">{}, \"".toList ++ name ++
  "\", FakeJni::JMethodID::PUBLIC".toList ++
  (if static then " | FakeJni::JMethodID::STATIC".toList else []) ++ " },\n".toList

/-- A text for a class name that repeats no `/` and does not start with one. -/
def squeeze : Bool → List Char → List Char
  | _, [] => []
  | slash, c :: t => if c = '/' ∧ slash = true then squeeze true t else c :: squeeze (c = '/') t

/-- Like `cppName`, but a `$` in the package part stays. -/
def cppPath : List Char → List Char
  | [] => []
  | c :: t => (if c = '/' ∨ (c = '$' ∧ '/' ∉ t) then "::".toList else [c]) ++ cppPath t

/-- The C++ scope in which class `n` is dumped. -/
def cppScope (n : List Char) : List Char := "jnivm::".toList ++ cppPath (squeeze true n)

/-- No empty package and no `$` in a package. -/
def PlainName (n : List Char) : Prop :=
  ∀ a b, n = a ++ '/' :: b → a ≠ [] ∧ a.getLast? ≠ some '/' ∧ '$' ∉ a

/-- The text ends inside an array type or inside the name of a class. -/
inductive ScanState where
  | outside | array | name
deriving DecidableEq, Repr

def cutOff : ScanState → List Char → Bool
  | .outside, [] => false
  | _, [] => true
  | .name, c :: t => if c = ';' then cutOff .outside t else cutOff .name t
  | _, c :: t => if c = '[' then cutOff .array t else if c = 'L' then cutOff .name t else cutOff .outside t

/-- Indented lines. -/
def bodyLines (l : List (List Char)) : List Char := l.flatMap fun x => "    ".toList ++ x ++ "\n".toList

/-- The declaration of class `n` with the lines of its body. -/
def classDeclaration (fake : Bool) (scope n : List Char) (body : List (List Char)) : List Char :=
  "class ".toList ++ scope ++
  (if fake then " : public FakeJni::JObject {\npublic:\n    DEFINE_CLASS_NAME(\"".toList ++ n ++ "\")\n".toList
    else " : public jnivm::Object {\npublic:\n".toList) ++
  bodyLines body ++ "};\n\n".toList

/-- Declaration of an inner class in its outer class. -/
def innerDeclaration (k : List Char) : List Char := "class ".toList ++ k ++ ";".toList

/-- Declaration of a field. -/
def fieldDeclaration (fake static : Bool) (name : List Char) (t : Ty) : List Char :=
  (if static then "static ".toList else []) ++ cppType fake t ++ " ".toList ++ name ++ ";".toList

/-- Definition of a field: only static ones have one. -/
def fieldDefinition (fake static : Bool) (scope name : List Char) (t : Ty) : List Char :=
  if static then cppType fake t ++ " ".toList ++ scope ++ "::".toList ++ name ++ " = {};\n\n".toList else []

/-- Binding of a field in the fake-jni syntax. -/
def fakeField (static : Bool) (cname name : List Char) : List Char :=
  "{FakeJni::Field<&".toList ++ cname ++ "::".toList ++ name ++ ">{}, \"".toList ++ name ++
  "\", FakeJni::JFieldID::PUBLIC".toList ++
  (if static then " | FakeJni::JFieldID::STATIC".toList else []) ++ " },\n".toList

/-- Registration of class `n`. -/
def registration (fake : Bool) (n : List Char) : List Char :=
  if fake then "vm->registerClass<jnivm::".toList ++ cppName n ++ ">();\n".toList
  else "env->GetClass<jnivm::".toList ++ cppName n ++ ">(\"".toList ++ n ++ "\");\n".toList

/-- `true` opens a block for an entry and `false` closes the innermost open one; `st` are the open ones. -/
def Balanced {α : Type} : List α → List (Bool × α) → Prop
  | [], [] => True
  | _ :: _, [] => False
  | st, (true, x) :: l => Balanced (x :: st) l
  | [], (false, _) :: _ => False
  | x :: st, (false, y) :: l => x = y ∧ Balanced st l

/-- The classes that are never dumped: those the library itself implements. -/
def builtin : List (List Char) :=
  ["java/lang/Object".toList, "java/lang/String".toList, "java/lang/Class".toList, "java/nio/ByteBuffer".toList,
   "java/lang/Throwable".toList, "java/lang/reflect/Method".toList, "java/lang/reflect/Field".toList,
   "java/lang/ref/WeakReference".toList, "internal/lang/Global".toList]

/-- The classes that have to be dumped: no array and not inside a built-in class. -/
def Dumped (n : List Char) : Prop :=
  n.head? ≠ some '[' ∧ ∀ m, Encloses m n → m ∉ builtin

/-- A line of the forward declarations: the start of a namespace, a class, the end of the innermost namespace. -/
inductive PreLine where
  | opens (name : List Char)
  | declares (name : List Char)
  | closes
deriving DecidableEq, Repr

/-- Four blanks for each open namespace. -/
def indentBy (depth : Nat) (line : List Char) : List Char := List.replicate (4 * depth) ' ' ++ line

/-- The lines as texts; `depth` is the number of open namespaces. -/
def preLines : Nat → List PreLine → List (List Char)
  | _, [] => []
  | depth, .opens n :: l => indentBy depth ("namespace ".toList ++ n ++ " {".toList) :: preLines (depth + 1) l
  | depth, .declares n :: l => indentBy depth ("class ".toList ++ n ++ ";".toList) :: preLines depth l
  | depth, .closes :: l => indentBy (depth - 1) "}".toList :: preLines (depth - 1) l

/-- Lines with newlines between them. -/
def joinLines : List (List Char) → List Char
  | [] => []
  | [x] => x
  | x :: y :: l => x ++ '\n' :: joinLines (y :: l)

/-- What the lines declare, each class with the namespaces around it, outermost first, and the namespaces that
stay open; `st` are the open namespaces. -/
def track : List (List Char) → List PreLine → Option (List (List Char) × List (List (List Char) × List Char))
  | st, [] => some (st, [])
  | st, .opens n :: l => track (st ++ [n]) l
  | st, .declares n :: l => (track st l).map fun r => (r.1, (st, n) :: r.2)
  | st, .closes :: l => if st = [] then none else track st.dropLast l

/-- The namespaces that the lines open, each with those around it. -/
def opened : List (List Char) → List PreLine → List (List (List Char))
  | _, [] => []
  | st, .opens n :: l => (st ++ [n]) :: opened (st ++ [n]) l
  | st, .declares _ :: l => opened st l
  | st, .closes :: l => opened st.dropLast l

/-- The class `s` in the packages `ps`. -/
def inPackages (ps : List (List Char)) (s : List Char) : List Char := ps.flatMap (· ++ "/".toList) ++ s

end Spec
