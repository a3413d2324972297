import Verif.Model.Strings
import Verif.Model.Sig
import Verif.Model.Arrays
/-!
The project's own tests, replayed on the model: what src/tests/Tests.cpp asserts about strings, signatures and
primitive arrays.  These are tests of the model, not properties; they show that it computes what the tests of the
project expect.
-/
namespace Jnivm
open Spec

/-- The bytes of a text of ASCII characters. -/
def ascii (s : String) : Bytes := s.toList.map fun c => BitVec.ofNat 8 c.toNat
/-- The UTF-16 units of a text of characters below U+10000. -/
def utf16 (s : String) : List JChar := s.toList.map fun c => BitVec.ofNat 16 c.toNat

/-- TEST(JNIVM, Strings), src/tests/Tests.cpp:71-97. -/
example : getStringUTFLength (some (newStringUTF (some (ascii "Hello World" ++ [0])))) = .ok 11 ∧
    getStringUTFChars (some (newStringUTF (some (ascii "Hello World" ++ [0])))) = ascii "Hello World" ++ [0] ∧
    getStringLength (some (newStringUTF (some (ascii "Hello World" ++ [0])))) = .ok 11 ∧
    getStringRegion (some (newStringUTF (some (ascii "Hello World" ++ [0])))) 1 9 = .ok (utf16 "ello Worl") := by
  decide +kernel

/-- TEST(JNIVM, Strings2), src/tests/Tests.cpp:99-110. -/
example : ((newString (utf16 "Hello World" ++ [0]) 11).bind fun s => getStringLength (some s)) = .ok 11 ∧
    ((newString (utf16 "Hello World" ++ [0]) 11).bind fun s => getStringRegion (some s) 1 9) =
      .ok (utf16 "ello Worl") := by
  decide +kernel

/-- TEST(JNIVM, ModifiedUtf8Null), src/tests/Tests.cpp:112-122. -/
example : ((newString (utf16 "String with " ++ [0] ++ utf16 " Nullbyte" ++ [0]) 23).bind fun s =>
    getStringUTFRegion (some s) 12 1) = .ok [0xc0, 0x80, 0] := by
  decide +kernel

/-- TEST(JNIVM, jValuesfromValistPrimitives), src/tests/Tests.cpp:174-185. -/
example : jvaluesFromValist (fun _ => 0) "(ZIJIZBSLjava/lang/String;)Z".toList
    [.int 1, .int 2147483647, .long 4611686018427387903, .int (-2147483648), .int 0, .int 12, .int 34,
      .obj 0x24455464] =
    .ok ([1, 2147483647, 4611686018427387903, 2147483648, 0, 12, 34, 0x24455464], []) := by
  decide +kernel

/-- TEST(JNIVM, skipJNITypeTest), src/tests/Tests.cpp:189-203. -/
example : [0, 23, 41, 42, 43, 45].map
    (skipJNIType "[[[[[Ljava/lang/string;Ljava/lang/object;ZI[CJ".toList) =
    [.ok 23, .ok 41, .ok 42, .ok 43, .ok 45, .ok 46] := by
  decide +kernel

/-- TEST(JNIVM, StringUtil), src/tests/Tests.cpp:1139-1173: "ä". -/
example : utfToJCharLength [0xc3, 0xa4] 0 = .ok 2 ∧ jcharToUTFLength 0xe4 = 2 ∧
    utfToJChar [0xc3, 0xa4] 0 = .ok (0xe4, 2) ∧ jcharToUTF 0xe4 5 = .ok [0xc3, 0xa4] := by
  decide +kernel

/-- The same with U+0DA6. -/
example : utfToJCharLength [0xe0, 0xb6, 0xa6] 0 = .ok 3 ∧ jcharToUTFLength 0xda6 = 3 ∧
    utfToJChar [0xe0, 0xb6, 0xa6] 0 = .ok (0xda6, 3) ∧ jcharToUTF 0xda6 5 = .ok [0xe0, 0xb6, 0xa6] := by
  decide +kernel

/-- The same with U+1F9F2, four bytes in UTF-8 and two units in UTF-16. -/
example : utfToJCharLength [0xf0, 0x9f, 0xa7, 0xb2] 0 = .throws .utfDataFormat ∧
    utfToJChar [0xf0, 0x9f, 0xa7, 0xb2] 0 = .throws .utfDataFormat ∧
    jcharToUTFLength 0xd83e = 3 ∧ jcharToUTFLength 0xddf2 = 3 ∧
    ((jcharToUTF 0xd83e 5).bind fun b => utfToJCharLength b 0) = .ok 3 ∧
    ((jcharToUTF 0xd83e 5).bind fun b => utfToJChar b 0) = .ok (0xd83e, 3) ∧
    ((jcharToUTF 0xddf2 5).bind fun b => utfToJCharLength b 0) = .ok 3 ∧
    ((jcharToUTF 0xddf2 5).bind fun b => utfToJChar b 0) = .ok (0xddf2, 3) := by
  decide +kernel

/-- One `SetBooleanArrayRegion` or `GetBooleanArrayRegion` per element; block 0 is the buffer `el`. -/
def eachElement (op : Int → ArrayOp) : List ArrayOp := (List.range 100).map fun (i : Nat) => op (i : Int)

/-- The element read by `GetBooleanArrayRegion(arr, i, 1, &el)`. -/
def Arrays.element (s : Arrays) (i : Nat) : Res (List MemByte) :=
  (s.getRegion .boolean (some 0) i 1 (some ⟨0, 0⟩)).bind fun s => s.mem.load (some ⟨0, 0⟩) 1

/-- TEST(JNIVM, jbooleanArray), src/tests/Tests.cpp:140-161, whatever `el` holds at first. -/
example : (((Arrays.initial 7).run [.malloc [7], .newArray .boolean 100]).bind fun s =>
      .ok (s.getLength (some 0), (List.range 100).map s.element)) =
      .ok (.ok 100, List.replicate 100 (.ok [0])) ∧
    (((Arrays.initial 7).run ([.malloc [7], .newArray .boolean 100, .write (some ⟨0, 0⟩) [1]] ++
      eachElement fun i => .setRegion .boolean (some 0) i 1 (some ⟨0, 0⟩))).bind fun s =>
      (s.mem.store (some ⟨0, 0⟩) [0]).bind fun m =>
        .ok ((List.range 100).map ({ s with mem := m }).element)) =
      .ok (List.replicate 100 (.ok [1])) := by
  decide +kernel

end Jnivm
