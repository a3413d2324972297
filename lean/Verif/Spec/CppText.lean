import Verif.Spec.Codegen
import Verif.Spec.Registration
/-!
Reading the C++ text of a class dump: the members declared in a class and the lines that bind them to the VM.
A text that does not compile has no reading.
-/
namespace Spec
open Jnivm

/-- The text before and the text behind the first `ch`. -/
def splitFirst (ch : Char) : List Char → Option (List Char × List Char)
  | [] => none
  | c :: t => if c = ch then some ([], t) else (splitFirst ch t).map fun r => (c :: r.1, r.2)

/-- What is left of a text that starts with `pre`. -/
def after : List Char → List Char → Option (List Char)
  | [], s => some s
  | _ :: _, [] => none
  | p :: pre, c :: s => if p = c then after pre s else none

/-- What is left of a text that ends with `post`. -/
def before (post s : List Char) : Option (List Char) := (after post.reverse s.reverse).map List.reverse

/-- The text between `pre` and `post`. -/
def between (pre post s : List Char) : Option (List Char) := (after pre s).bind (before post)

/-- The parts between commas; a blank behind a comma is not part of the text. -/
def commaParts : List Char → List (List Char)
  | [] => [[]]
  | ',' :: ' ' :: t => [] :: commaParts t
  | c :: t => match commaParts t with
    | [] => [[c]]
    | p :: ps => (c :: p) :: ps

/-- The items of a list with commas. -/
def items (s : List Char) : List (List Char) := if s = [] then [] else commaParts s

/-- All results, if there is one for each. -/
def readAllOf {α β : Type} (f : α → Option β) : List α → Option (List β)
  | [] => some []
  | x :: xs => (f x).bind fun y => (readAllOf f xs).map (y :: ·)

/-- A letter, a digit or `_`. -/
def wordChar (c : Char) : Bool := c.isAlphanum || c == '_'

/-- The words a C++ program cannot use as names. -/
def keywords : List (List Char) :=
  ["alignas", "alignof", "and", "and_eq", "asm", "auto", "bitand", "bitor", "bool", "break", "case", "catch", "char",
   "char16_t", "char32_t", "class", "compl", "const", "constexpr", "const_cast", "continue", "decltype", "default",
   "delete", "do", "double", "dynamic_cast", "else", "enum", "explicit", "export", "extern", "false", "float", "for",
   "friend", "goto", "if", "inline", "int", "long", "mutable", "namespace", "new", "noexcept", "not", "not_eq",
   "nullptr", "operator", "or", "or_eq", "private", "protected", "public", "register", "reinterpret_cast", "return",
   "short", "signed", "sizeof", "static", "static_assert", "static_cast", "struct", "switch", "template", "this",
   "thread_local", "throw", "true", "try", "typedef", "typeid", "typename", "union", "unsigned", "using", "virtual",
   "void", "volatile", "wchar_t", "while", "xor", "xor_eq"].map String.toList

/-- A C++ identifier. -/
def isIdent (s : List Char) : Bool :=
  match s with
  | [] => false
  | c :: t => !c.isDigit && (c :: t).all wordChar && !keywords.contains (c :: t)

/-- The primitive types of jni.h and their names in fake-jni, include/fake-jni/fake-jni.h:20-27. -/
def cppPrims : List (List Char × Prim) :=
  [("jboolean".toList, .boolean), ("jbyte".toList, .byte), ("jchar".toList, .char), ("jshort".toList, .short),
   ("jint".toList, .int), ("jlong".toList, .long), ("jfloat".toList, .float), ("jdouble".toList, .double),
   ("FakeJni::JBoolean".toList, .boolean), ("FakeJni::JByte".toList, .byte), ("FakeJni::JChar".toList, .char),
   ("FakeJni::JShort".toList, .short), ("FakeJni::JInt".toList, .int), ("FakeJni::JLong".toList, .long),
   ("FakeJni::JFloat".toList, .float), ("FakeJni::JDouble".toList, .double)]

/-- The arrays with a name of their own, include/fake-jni/fake-jni.h:28-35. -/
def cppArrays : List (List Char × Prim) :=
  [("FakeJni::JBooleanArray".toList, .boolean), ("FakeJni::JByteArray".toList, .byte),
   ("FakeJni::JCharArray".toList, .char), ("FakeJni::JShortArray".toList, .short), ("FakeJni::JIntArray".toList, .int),
   ("FakeJni::JLongArray".toList, .long), ("FakeJni::JFloatArray".toList, .float),
   ("FakeJni::JDoubleArray".toList, .double)]

/-- What a program declares: its classes by their qualified names, and the environment. -/
structure CppNames where
  cls : List Char → Option Nat
  env : Nat

/-- The type of an object or value.  `jnivm::Array` and `FakeJni::JArray` are the array template.  A text cannot
have more types inside each other than characters. -/
def readBare (N : CppNames) : Nat → List Char → Option CppClass
  | 0, _ => none
  | k + 1, s =>
    match cppPrims.lookup s, cppArrays.lookup s with
    | some p, _ => some (.prim p)
    | none, some p => some (.arr (.prim p))
    | none, none =>
      match between "jnivm::Array<".toList ">".toList s, between "FakeJni::JArray<".toList ">".toList s with
      | some i, _ => (readBare N k i).map .arr
      | none, some i => (readBare N k i).map .arr
      | none, none => (N.cls s).map .cls

/-- The type of a parameter or result. -/
def readType (N : CppNames) (s : List Char) : Option CppTy :=
  if s = "void".toList then some .void
  else match between "std::shared_ptr<".toList ">".toList s, before "*".toList s with
    | some i, _ => (readBare N (i.length + 1) i).map (.data .shared)
    | none, some i => if i = "jnivm::ENV".toList then some (.env N.env) else (N.cls i).map fun t => .data .pointer (.cls t)
    | none, none => (readBare N (s.length + 1) s).map (.data .value)

/-- A parameter and its name, which may be missing.  `T *x` is `T* x`. -/
def readParam (N : CppNames) (s : List Char) : Option (CppTy × List Char) :=
  match splitFirst ' ' s with
  | none => (readType N s).map fun t => (t, [])
  | some (t, '*' :: x) => (readType N (t ++ "*".toList)).map fun t => (t, x)
  | some (t, x) => (readType N t).map fun t => (t, x)

/-- A class name of words. -/
def WordName (n : List Char) : Prop := ∀ c ∈ n, wordChar c = true ∨ c = '/' ∨ c = '$'

/-- The program declares the classes of a type under their C++ names; `num n` is the C++ class of class `n`. -/
def Known (fake : Bool) (N : CppNames) (num : List Char → Nat) (t : Ty) : Prop :=
  ∀ n ∈ t.classNames, WordName n ∧ N.cls (cppClass fake n) = some (num n)

instance (n : List Char) : Decidable (WordName n) := inferInstanceAs (Decidable (∀ c ∈ n, _))

instance (fake : Bool) (N : CppNames) (num : List Char → Nat) (t : Ty) : Decidable (Known fake N num t) :=
  inferInstanceAs (Decidable (∀ n ∈ t.classNames, WordName n ∧ N.cls (cppClass fake n) = some (num n)))

/-- The classes that the library declares, include/jnivm/javatypes.h:9-31. -/
def aliases : List (List Char) :=
  ["jnivm::java::lang::Array", "jnivm::java::lang::Object", "jnivm::java::lang::String", "jnivm::java::lang::Class",
   "jnivm::java::lang::Throwable", "jnivm::java::lang::reflect::Method", "jnivm::java::lang::reflect::Field",
   "jnivm::java::nio::ByteBuffer", "jnivm::internal::lang::Global", "jnivm::internal::lang::Weak"].map String.toList

/-- What a line inside a class declares: an inner class, a constructor, or a function or variable. -/
inductive CppMember where
  | inner (name : List Char)
  | ctor (params : List CppTy)
  | named (name : List Char) (f : CppFn)
deriving DecidableEq, Repr

/-- `T x` as type and name. -/
def readTyped (N : CppNames) (s : List Char) : Option (CppTy × List Char) :=
  (splitFirst ' ' s).bind fun (t, x) => if isIdent x then (readType N t).map fun t => (t, x) else none

/-- A line inside class `cname`.  Only the class itself can have a member of that name. -/
def readMember (N : CppNames) (cname line : List Char) : Option CppMember :=
  match between "class ".toList ";".toList line with
  | some k => some (.inner k)
  | none =>
    match splitFirst '(' line with
    | some (head, rest) => (between [] ");".toList rest).bind fun ps =>
      (readAllOf (readParam N) (items ps)).bind fun ps =>
      if head = cname then some (.ctor (ps.map (·.1)))
      else match after "static ".toList head with
        | some d => (readTyped N d).bind fun (r, x) =>
          if x = cname then none else some (.named x ⟨.plain, r, ps.map (·.1)⟩)
        | none => (readTyped N head).bind fun (r, x) =>
          if x = cname then none else some (.named x ⟨.member, r, ps.map (·.1)⟩)
    | none => (between [] ";".toList line).bind fun decl =>
      match after "static ".toList decl with
      | some d => (readTyped N d).bind fun (r, x) => if x = cname then none else some (.named x ⟨.variable, r, []⟩)
      | none => (readTyped N decl).bind fun (r, x) => if x = cname then none else some (.named x ⟨.dataMember, r, []⟩)

/-- The member of that name, if there is just one: otherwise `&C::x` is an error. -/
def memberNamed (ms : List CppMember) (x : List Char) : Option CppFn :=
  match ms.filterMap fun m => match m with
    | .named y f => if y = x then some f else none
    | _ => none with
  | [f] => some f
  | _ => none

/-- A class in the program: its C++ type, its qualified and its simple name, its members. -/
structure CppDecl where
  type : Nat
  scope : List Char
  cname : List Char
  members : List CppMember

/-- `c->Hook(env, "x", &C::x)` as an entry of a descriptor: static unless it is a member of the objects. -/
def hookEntry (f : CppFn) (name : List Char) (fn : Nat → Nat) : DescEntry :=
  .named f name (some (if f.kind.isInstance then publicFlag else publicFlag ||| staticFlag)) fn

/-- `[](T.. x) {   return std::make_shared<C>(x..);}`: the class has to have that constructor, and the arguments
are the parameters in the same order. -/
def readLambda (N : CppNames) (D : CppDecl) (s : List Char) : Option (List CppTy) :=
  (between "[](".toList ";}".toList s).bind fun s =>
  (splitFirst ')' s).bind fun (ps, body) =>
  (readAllOf (readParam N) (items ps)).bind fun ps =>
  (after (" {   return std::make_shared<".toList ++ D.scope ++ ">".toList) body).bind fun args =>
  (between "(".toList ")".toList args).bind fun args =>
  if items args = ps.map (·.2) ∧ (ps.map (·.2)).Nodup ∧ .ctor (ps.map (·.1)) ∈ D.members then some (ps.map (·.1)) else none

/-- A line of a block in which `c` is the class; the function it binds has the wrappers `fn`. -/
def readHook (N : CppNames) (D : CppDecl) (fn : Nat → Nat) (line : List Char) : Option DescEntry :=
  (between "c->Hook(env, \"".toList ");\n".toList line).bind fun s =>
  (splitFirst '"' s).bind fun (name, s) =>
  (after ", ".toList s).bind fun s =>
  match after ("&".toList ++ D.scope ++ "::".toList) s with
  | some x => (memberNamed D.members x).map fun f => hookEntry f name fn
  | none => (readLambda N D s).map fun ps => hookEntry ⟨.plain, .data .shared (.cls D.type), ps⟩ name fn

/-- The flags of a line of a descriptor. -/
def readFlags (kind s : List Char) : Option (BitVec 32) :=
  if s = kind ++ "::PUBLIC".toList then some publicFlag
  else if s = kind ++ "::PUBLIC | ".toList ++ kind ++ "::STATIC".toList then some (publicFlag ||| staticFlag)
  else none

/-- `C::x>{}, "name", flags` as an entry. -/
def readNamed (D : CppDecl) (fn : Nat → Nat) (kind s : List Char) : Option DescEntry :=
  (after (D.cname ++ "::".toList) s).bind fun s =>
  (splitFirst '>' s).bind fun (x, s) =>
  (after "{}, \"".toList s).bind fun s =>
  (splitFirst '"' s).bind fun (name, s) =>
  (between ", ".toList " ".toList s).bind fun flags =>
  (readFlags kind flags).bind fun flags =>
  (memberNamed D.members x).map fun f => .named f name (some flags) fn

/-- A line of a descriptor.  `Function` and `Field` are the same template, include/fake-jni/fake-jni.h:157-164. -/
def readEntry (N : CppNames) (D : CppDecl) (fn : Nat → Nat) (line : List Char) : Option DescEntry :=
  (between "{FakeJni::".toList "},\n".toList line).bind fun s =>
  match after "Function<&".toList s, after "Field<&".toList s with
  | some s, _ => readNamed D fn "FakeJni::JMethodID".toList s
  | none, some s => readNamed D fn "FakeJni::JFieldID".toList s
  | none, none =>
    (between "Constructor<".toList ">{}".toList s).bind fun s =>
    match items s with
    | [] => none
    | c :: ps => if c = D.cname then (readAllOf (fun p => (readType N p)) ps).bind fun ps =>
        if .ctor ps ∈ D.members then some (.ctor D.type ps fn) else none
      else none

/-- The class `scope` of a program: its declarations and the lines that bind its members.  `fn line` are the
wrappers of the function bound by that line. -/
def readClass (fake : Bool) (N : CppNames) (scope cname : List Char) (body lines : List (List Char))
    (fn : List Char → Nat → Nat) : Option (List DescEntry) :=
  (N.cls scope).bind fun type =>
  (readAllOf (readMember N cname) body).bind fun ms =>
  readAllOf (fun line => if fake then readEntry N ⟨type, scope, cname, ms⟩ (fn line) line
    else readHook N ⟨type, scope, cname, ms⟩ (fn line) line) lines

/-- A line that registers a class: the C++ type, and the name unless the class declares it. -/
def readRegister (fake : Bool) (N : CppNames) (line : List Char) : Option (Nat × Option (List Char)) :=
  if fake then (between "vm->registerClass<".toList ">();\n".toList line).bind fun s => (N.cls s).map fun t => (t, none)
  else (after "env->GetClass<".toList line).bind fun s =>
    (splitFirst '>' s).bind fun (s, rest) => (between "(\"".toList "\");\n".toList rest).bind fun n =>
    (N.cls s).map fun t => (t, some n)

/-! ### Running the bindings -/

/-- `env->GetClass<C>("name")` for each class. -/
def bindTypes (w : World) (L : List DescClass) : World := L.foldl (fun w d => (w.bindType d.type d.name d.bases).1) w

/-- `auto c = env->GetClass("name")` and the lines of the block. -/
def runBlock (ci : CppInfo) (w : World) (d : DescClass) : Res World :=
  match findClass false w.reg d.name with
  | (_, none) => .ub .nullDeref
  | (reg, some c) => (makeAll false d.entries).bind fun rs => World.registerAll ci { w with reg := reg } c rs

/-- The blocks in the order in which they close. -/
def runBlocks (ci : CppInfo) : World → List DescClass → Res World
  | w, [] => .ok w
  | w, d :: ds => (runBlock ci w d).bind fun w => runBlocks ci w ds

/-- `vm->registerClass<C>()` for each class. -/
def runRegisters (compat : Bool) (ci : CppInfo) : World → List DescClass → Res World
  | w, [] => .ok w
  | w, d :: ds => (w.registerClass compat ci d).bind fun (w, _) => runRegisters compat ci w ds

/-- `InitJNIBinding` in both syntaxes.  `post` are the classes in the order in which their blocks close. -/
def initBinding (fake compat : Bool) (ci : CppInfo) (w : World) (L post : List DescClass) : Res World :=
  if fake then runRegisters compat ci w L else runBlocks ci (bindTypes w L) post

/-! ### What the members promise -/

/-- A field is read and written. -/
def fieldPromises (static : Bool) (name : List Char) (t : Ty) (fn : Nat → Nat) : List Promise :=
  [⟨.get, static, name, t.render, fn 0⟩, ⟨.set, static, name, t.render, fn 0⟩]

/-- A method is called.  Without the fake-jni syntax it has the environment as its first parameter, and static
methods the class as second one; these can be called with the class as an argument too. -/
def methodPromises (fake static : Bool) (name : List Char) (ts : List Ty) (ret : Option Ty) (fn : Nat → Nat) : List Promise :=
  if fake then [⟨.call, static, name, renderSig ts ret, fn 0⟩]
  else if static then [⟨.call, true, name, renderSig (.cls "java/lang/Class".toList :: ts) ret, fn 1⟩,
    ⟨.call, true, name, renderSig ts ret, fn 2⟩]
  else [⟨.call, false, name, renderSig ts ret, fn 1⟩]

end Spec
