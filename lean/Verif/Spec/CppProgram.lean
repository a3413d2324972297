import Verif.Spec.CppText
/-!
Reading the text of a class dump as a whole C++ program: names are declared before they are used, classes are
declared before they are complete, what is declared is defined once, and `InitJNIBinding` is run line by line.
A text that does not compile or link has no reading.
-/
namespace Spec
open Jnivm

/-- The lines of a text. -/
def textLines : List Char → List (List Char)
  | [] => [[]]
  | c :: t => if c = '\n' then [] :: textLines t else
    match textLines t with
    | [] => [[c]]
    | l :: ls => (c :: l) :: ls

/-- A line without the blanks in front. -/
def stripBlanks : List Char → List Char
  | ' ' :: t => stripBlanks t
  | l => l

/-- The parts of a class name: packages, outer classes, simple name. -/
def nameParts : List Char → List (List Char)
  | [] => [[]]
  | c :: t => if c = '/' ∨ c = '$' then [] :: nameParts t else
    match nameParts t with
    | [] => [[c]]
    | p :: ps => (c :: p) :: ps

/-- Names with `::` between them. -/
def joinScope : List (List Char) → List Char
  | [] => []
  | [x] => x
  | x :: y :: l => x ++ "::".toList ++ joinScope (y :: l)

/-- `S::x` as `S` and `x`. -/
def splitScope (q : List Char) : Option (List Char × List Char) :=
  (splitFirst ':' q.reverse).bind fun (x, s) =>
    (after ":".toList s).map fun s => (s.reverse, x.reverse)

/-- The last name in `S::x`. -/
def lastName (q : List Char) : List Char :=
  match splitScope q with
  | some (_, x) => x
  | none => q

/-- Where a line is. -/
inductive CppPlace where
  /-- between declarations -/
  | top
  /-- behind the first line of a class -/
  | heading (scope : List Char)
  /-- inside a class, with its Java name and the members so far -/
  | body (scope : List Char) (java : Option (List Char)) (ms : List CppMember)
  /-- behind the first line of a function -/
  | func (scope : List Char) (m : CppMember)
  /-- behind the second line of a function -/
  | funcEnd (scope : List Char) (m : CppMember)
  /-- inside a descriptor, with the entries so far -/
  | desc (D : CppDecl) (es : List DescEntry)
  /-- inside `InitJNIBinding` -/
  | init
  /-- inside of it, behind the start of a block -/
  | opening
  | finished

/-- A line of `InitJNIBinding`. -/
inductive InitLine where
  /-- `env->GetClass<T>("name")` or `vm->registerClass<T>()` -/
  | register (type : Nat) (java : Option (List Char))
  /-- `{ auto c = env->GetClass("name")` -/
  | opens (java : List Char)
  /-- `c->Hook(..)` -/
  | hook (e : DescEntry)
  | closes

/-- What was read so far: open namespaces, all namespaces, declared classes, complete classes with the Java names
they declare, definitions, descriptors, the number of open blocks, and the lines of `InitJNIBinding`. -/
structure CppText where
  place : CppPlace
  spaces : List (List Char)
  packages : List (List Char)
  names : List (List Char)
  classes : List (CppDecl × Option (List Char))
  defs : List (List Char × CppMember)
  descs : List (List Char × List DescEntry)
  depth : Nat
  init : List InitLine

/-- How a text is read: its syntax, the classes and the namespaces of the library, the numbers of the types it
declares, and the functions that the lines of a class bind. -/
structure CppReader where
  fake : Bool
  base : CppNames
  spaces : List (List Char)
  fresh : List Char → Nat
  fn : List Char → List Char → Nat → Nat

/-- Before the first line. -/
def CppText.start (R : CppReader) : CppText := ⟨.top, [], R.spaces, [], [], [], [], 0, []⟩

/-- The names that the generated text looks up without a scope. -/
def scopelessNames : List (List Char) :=
  ["jnivm", "std", "FakeJni", "jboolean", "jbyte", "jchar", "jshort", "jint", "jlong", "jfloat", "jdouble"].map String.toList

variable (R : CppReader)

/-- The names at this point. -/
def CppText.known (t : CppText) : CppNames :=
  ⟨fun s => if s ∈ t.names then some (R.fresh s) else R.base.cls s, R.base.env⟩

/-- A complete class. -/
def CppText.complete (t : CppText) (scope : List Char) : Option CppDecl :=
  (t.classes.find? fun d => d.1.scope == scope).map (·.1)

/-- `namespace k {`.  A namespace cannot have the name of a class, and must not hide what the text looks up. -/
def CppText.openSpace (t : CppText) (k : List Char) : Option CppText :=
  let q := joinScope (t.spaces ++ [k])
  if isIdent k = true ∧ (k ∉ scopelessNames ∨ q = "jnivm".toList) ∧ q ∉ t.names ∧ R.base.cls q = none then
    some { t with spaces := t.spaces ++ [k], packages := t.packages ++ [q] }
  else none

/-- Declaration of the class `q` with simple name `k`.  It must not hide what the text looks up. -/
def CppText.declare (t : CppText) (q k : List Char) : Option CppText :=
  if isIdent k = true ∧ k ∉ scopelessNames ∧ q ∉ t.packages ∧ R.base.cls q = none then
    some { t with names := t.names ++ [q] } else none

/-- The base class of all generated classes. -/
def baseClause (fake : Bool) : List Char :=
  if fake then ": public FakeJni::JObject {".toList else ": public jnivm::Object {".toList

/-- `class S : public B {`. -/
def CppText.startClass (t : CppText) (s : List Char) : Option CppText :=
  (splitFirst ' ' s).bind fun (scope, rest) =>
    if rest = baseClause R.fake ∧ scope ∈ t.names ∧ scope ∉ t.classes.map (·.1.scope) then
      some { t with place := .heading scope }
    else none

/-- Names the generated classes have anyway, include/jnivm/object.h:21-32, include/fake-jni/fake-jni.h:253-263:
they cannot have members of that name.  The first eight are the types that the text looks up without a scope. -/
def reservedNames (fake : Bool) : List (List Char) :=
  ((if fake then [] else ["jboolean", "jbyte", "jchar", "jshort", "jint", "jlong", "jfloat", "jdouble"]) ++
    ["ArrayBaseType", "GetBaseClasses", "getClassInternal"] ++
    if fake then ["getClassName", "registerClass", "getDescriptor"] else []).map String.toList

/-- Inner classes and members have different names, and no member is declared twice. -/
def membersApart (ms : List CppMember) : Bool :=
  decide ms.Nodup && ms.all fun m => match m with
    | .inner k => ms.all fun n => match n with
      | .named x _ => x != k
      | _ => true
    | _ => true

/-- A line inside the class `scope`. -/
def CppText.readBody (t : CppText) (scope : List Char) (java : Option (List Char)) (ms : List CppMember)
    (l : List Char) : Option CppText :=
  if l = "};".toList then
    if membersApart ms = true ∧ (R.fake = true → java.isSome = true) then
      some { t with place := .top, classes := t.classes ++ [(⟨R.fresh scope, scope, lastName scope, ms⟩, java)] }
    else none
  else match between "DEFINE_CLASS_NAME(\"".toList "\")".toList l with
  | some n => if R.fake = true ∧ java = none ∧ ms = [] then some { t with place := .body scope (some n) [] } else none
  | none => (readMember (t.known R) (lastName scope) l).bind fun m =>
    match m with
    | .inner k => (t.declare R (scope ++ "::".toList ++ k) k).map fun t => { t with place := .body scope java (ms ++ [m]) }
    | .named x _ => if x ∈ reservedNames R.fake then none else some { t with place := .body scope java (ms ++ [m]) }
    | .ctor _ => some { t with place := .body scope java (ms ++ [m]) }

/-- `T S::x` as the definition of a static variable that the class `S` declares. -/
def CppText.readVariable (t : CppText) (s : List Char) : Option (List Char × CppMember) :=
  (splitFirst ' ' s).bind fun (ty, q) =>
  (readType (t.known R) ty).bind fun r =>
  (splitScope q).bind fun (scope, x) =>
  (t.complete scope).bind fun D =>
  if .named x ⟨.variable, r, []⟩ ∈ D.members then some (scope, .named x ⟨.variable, r, []⟩) else none

/-- `T S::x(..)` or `S::C(..)` as the start of the definition of a function that the class `S` declares.  The names
of its parameters are distinct. -/
def CppText.readFunction (t : CppText) (s : List Char) : Option (List Char × CppMember) :=
  (splitFirst '(' s).bind fun (head, rest) =>
  (before ")".toList rest).bind fun ps =>
  (readAllOf (readParam (t.known R)) (items ps)).bind fun ps =>
  if ((ps.map (·.2)).filter (· ≠ [])).Nodup then
    match splitFirst ' ' head with
    | none => (splitScope head).bind fun (scope, x) =>
      (t.complete scope).bind fun D =>
      if x = D.cname ∧ .ctor (ps.map (·.1)) ∈ D.members then some (scope, .ctor (ps.map (·.1))) else none
    | some (ty, q) => (readType (t.known R) ty).bind fun r =>
      (splitScope q).bind fun (scope, x) =>
      (t.complete scope).bind fun D =>
      if .named x ⟨.plain, r, ps.map (·.1)⟩ ∈ D.members then some (scope, .named x ⟨.plain, r, ps.map (·.1)⟩)
      else if .named x ⟨.member, r, ps.map (·.1)⟩ ∈ D.members then some (scope, .named x ⟨.member, r, ps.map (·.1)⟩)
      else none
  else none

/-- The first line of `InitJNIBinding`. -/
def initHeading (fake : Bool) : List Char :=
  if fake then "void InitJNIBinding(FakeJni::Jvm* vm) {".toList else "void InitJNIBinding(jnivm::ENV* env) {".toList

/-- A definition, or the start of a descriptor or of `InitJNIBinding`. -/
def CppText.readDefinition (t : CppText) (l : List Char) : Option CppText :=
  if l = initHeading R.fake then some { t with place := .init }
  else match between "BEGIN_NATIVE_DESCRIPTOR(".toList ")".toList l with
  | some scope => (t.complete scope).bind fun D =>
    if R.fake = true ∧ scope ∉ t.descs.map (·.1) then some { t with place := .desc D [] } else none
  | none => match before " = {};".toList l with
    | some s => (t.readVariable R s).bind fun d => if d ∈ t.defs then none else some { t with defs := t.defs ++ [d] }
    | none => (before " {".toList l).bind fun s => (t.readFunction R s).bind fun d =>
      if d ∈ t.defs then none else some { t with place := .func d.1 d.2 }

/-- A line between declarations.  Classes are completed, and functions defined, outside of all namespaces. -/
def CppText.readTop (t : CppText) (l : List Char) : Option CppText :=
  if l = [] then some t
  else if l = "}".toList then if t.spaces = [] then none else some { t with spaces := t.spaces.dropLast }
  else match after "#include <".toList l with
  | some _ => if t.spaces = [] then some t else none
  | none => match between "namespace ".toList " {".toList l with
    | some k => t.openSpace R k
    | none => match between "class ".toList ";".toList l with
      | some k => t.declare R (joinScope (t.spaces ++ [k])) k
      | none => if t.spaces = [] then
          match after "class ".toList l with
          | some s => t.startClass R s
          | none => t.readDefinition R l
        else none

/-- The function returns something. -/
def CppMember.returns : CppMember → Bool
  | .named _ f => f.ret != .void
  | _ => false

/-- The class whose member or constructor a line `c->Hook(..)` names. -/
def hookScope (line : List Char) : Option (List Char) :=
  (after "c->Hook(env, \"".toList line).bind fun s =>
  (splitFirst '"' s).bind fun (_, s) =>
  (after ", ".toList s).bind fun s =>
  match after "&".toList s with
  | some q => (before ");".toList q).bind fun q => (splitScope q).map (·.1)
  | none => (splitFirst ')' s).bind fun (_, s) =>
    (after " {   return std::make_shared<".toList s).bind fun s => (splitFirst '>' s).map (·.1)

/-- A line of `InitJNIBinding`. -/
def CppText.readInit (t : CppText) (l : List Char) : Option CppText :=
  if l = [] then some t
  else if l = "}".toList then
    if t.depth = 0 then some { t with place := .finished }
    else some { t with depth := t.depth - 1, init := t.init ++ [.closes] }
  else if l = "{".toList then some { t with place := .opening }
  else match readRegister R.fake (t.known R) (l ++ "\n".toList) with
  | some (k, n) => if k ∈ t.classes.map (·.1.type) then some { t with init := t.init ++ [.register k n] } else none
  | none => if t.depth = 0 then none else
    (hookScope l).bind fun scope =>
    (t.complete scope).bind fun D =>
    (readHook (t.known R) D (R.fn scope (l ++ "\n".toList)) (l ++ "\n".toList)).map fun e =>
      { t with init := t.init ++ [.hook e] }

/-- One line. -/
def CppText.readLine (t : CppText) (l : List Char) : Option CppText :=
  match t.place with
  | .top => t.readTop R l
  | .heading scope => if l = "public:".toList then some { t with place := .body scope none [] } else none
  | .body scope java ms => t.readBody R scope java ms l
  | .func scope m =>
    if l = (if m.returns then "return {};".toList else []) then some { t with place := .funcEnd scope m } else none
  | .funcEnd scope m =>
    if l = "}".toList then some { t with place := .top, defs := t.defs ++ [(scope, m)] } else none
  | .desc D es =>
    if l = "END_NATIVE_DESCRIPTOR".toList then some { t with place := .top, descs := t.descs ++ [(D.scope, es)] }
    else (readEntry (t.known R) D (R.fn D.scope (l ++ "\n".toList)) (l ++ "\n".toList)).map fun e =>
      { t with place := .desc D (es ++ [e]) }
  | .init => t.readInit R l
  | .opening => (between "auto c = env->GetClass(\"".toList "\");".toList l).map fun n =>
      { t with place := .init, depth := t.depth + 1, init := t.init ++ [.opens n] }
  | .finished => if l = [] then some t else none

/-- All lines, one after the other. -/
def CppText.readLines : CppText → List (List Char) → Option CppText
  | t, [] => some t
  | t, l :: ls => (t.readLine R (stripBlanks l)).bind fun t => t.readLines ls

/-- A member that has to be defined outside of its class. -/
def CppMember.needsDefinition : CppMember → Bool
  | .inner _ => false
  | .ctor _ => true
  | .named _ f => f.kind != .dataMember

/-- All that is declared is defined, and in the fake-jni syntax all classes have a descriptor. -/
def CppText.linked (t : CppText) : Bool :=
  (match t.place with | .finished => true | _ => false) &&
  t.classes.all fun d => d.1.members.all (fun m => !m.needsDefinition || t.defs.contains (d.1.scope, m)) &&
    (!R.fake || (t.descs.map (·.1)).contains d.1.scope)

/-- The program. -/
def readProgram (text : List Char) : Option CppText :=
  ((CppText.start R).readLines R (textLines text)).bind fun t => if t.linked R = true then some t else none

/-! ### Running `InitJNIBinding` -/

/-- The class with this type as `registerClass` sees it. -/
def CppText.registered (t : CppText) (ci : CppInfo) (bases : Nat → List (Option Nat)) (k : Nat) : Option DescClass :=
  (t.classes.find? fun d => d.1.type == k).bind fun d =>
  (t.descs.find? fun e => e.1 == d.1.scope).bind fun e =>
  d.2.map fun n => ⟨ci.id (.cls k), n, bases k, true, e.2⟩

/-- The lines of `InitJNIBinding`, with the classes `c` of the open blocks.  `bases k` are the base classes that
`GetBaseClasses` of type `k` gives. -/
def CppText.runInit (t : CppText) (compat : Bool) (ci : CppInfo) (bases : Nat → List (Option Nat)) :
    World → List (Option Nat) → List InitLine → Res World
  | w, _, [] => .ok w
  | w, st, .register k (some n) :: l => t.runInit compat ci bases (w.bindType (ci.id (.cls k)) n (bases k)).1 st l
  | w, st, .register k none :: l =>
    match t.registered ci bases k with
    | some d => (w.registerClass compat ci d).bind fun (w, _) => t.runInit compat ci bases w st l
    | none => .ub .dangling
  | w, st, .opens n :: l =>
    match findClass false w.reg n with
    | (reg, c) => t.runInit compat ci bases { w with reg := reg } (c :: st) l
  | w, some c :: st, .hook e :: l => (makeAll false [e]).bind fun rs => (w.registerAll ci c rs).bind fun w =>
      t.runInit compat ci bases w (some c :: st) l
  | _, _, .hook _ :: _ => .ub .nullDeref
  | w, st, .closes :: l => t.runInit compat ci bases w st.tail l

/-- `InitJNIBinding`. -/
def CppText.run (t : CppText) (compat : Bool) (ci : CppInfo) (bases : Nat → List (Option Nat)) (w : World) : Res World :=
  t.runInit compat ci bases w [] t.init

end Spec
