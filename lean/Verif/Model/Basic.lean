/-!
Outcomes shared by all parts of the model.

C++ code may return a value, throw a C++ exception, run into undefined behaviour or
recurse without bound.  The four cases are kept apart so that no theorem can hold
because an unsafe access was given a default value.
-/
namespace Jnivm

/-- C++ exceptions thrown by the modelled code (the `what()` text is abbreviated). -/
inductive Exn where
  /-- `std::runtime_error("UtfDataFormatError")`, src/jnivm/internal/stringUtil.cpp:8,16,22,25,29,44 -/
  | utfDataFormat
  /-- `std::runtime_error("End of String")`, src/jnivm/internal/stringUtil.cpp:63 -/
  | endOfString
  /-- `std::runtime_error("String to long, to fit in jsize")`, src/jnivm/internal/string.cpp:28,60 -/
  | stringTooLong
  /-- `std::invalid_argument` for a signature, src/jnivm/internal/jValuesfromValist.cpp:13,57 -/
  | invalidSignature
  /-- failed reference cast, include/jnivm/jnitypes.h:319-357 -/
  | badCast
  /-- `std::runtime_error("No such Method!")` and relatives, include/jnivm/method.h:37-78 -/
  | noSuchMethod
  /-- ambiguous `MethodProxy` conversion, include/jnivm/method.h:37-78 -/
  | ambiguous
  /-- a handle of the wrong kind, include/jnivm/methodhandlebase.h -/
  | mismatchedHandle
  /-- `std::runtime_error("Calling member function pointer non virtual is not supported in c++")`,
  include/jnivm/wrap.h:69-71, 204-206 -/
  | notSupported
  /-- `std::runtime_error` with a text not listed here -/
  | runtimeError
  /-- `std::length_error` of a standard container -/
  | lengthError
  /-- `std::bad_alloc` -/
  | badAlloc
  /-- `std::runtime_error("Class Type Exception")`, include/jnivm/array.h:231,251 -/
  | classType
  /-- `std::runtime_error(message)` of `ThrowNew`, src/jnivm/vm.cpp:89 -/
  | message (text : List Char)
  /-- any other exception, in particular one thrown by user code -/
  | user (n : Nat)
deriving DecidableEq, Repr, Inhabited

/-- Kinds of undefined behaviour. -/
inductive UB where
  | outOfBounds | nullDeref | dangling | badVaArg | signedOverflow | notOwner | dataRace | overlap
  | relock | typePun
deriving DecidableEq, Repr, Inhabited

/-- Result of running a piece of C++ code. -/
inductive Res (α : Type u) where
  | ok (a : α)
  | throws (e : Exn)
  | ub (u : UB)
  | diverges
deriving DecidableEq, Repr

namespace Res

/-- Sequencing: later code runs only after a normal return. -/
def bind {α β : Type} : Res α → (α → Res β) → Res β
  | ok a, f => f a
  | throws e, _ => throws e
  | ub u, _ => ub u
  | diverges, _ => diverges

instance : Monad Res where
  pure := ok
  bind := bind

@[simp] theorem pure_eq {α : Type} (a : α) : (pure a : Res α) = ok a := rfl
@[simp] theorem ok_bind {α β : Type} (a : α) (f : α → Res β) : (ok a >>= f) = f a := rfl
theorem bind_ok {α β : Type} (a : α) (f : α → Res β) : (ok a).bind f = f a := rfl
@[simp] theorem throws_bind {α β : Type} (e : Exn) (f : α → Res β) :
    ((throws e : Res α) >>= f) = throws e := rfl
@[simp] theorem ub_bind {α β : Type} (u : UB) (f : α → Res β) :
    ((ub u : Res α) >>= f) = ub u := rfl
@[simp] theorem diverges_bind {α β : Type} (f : α → Res β) :
    ((diverges : Res α) >>= f) = diverges := rfl

/-- The call neither has undefined behaviour nor recurses forever. -/
def Safe {α : Type} : Res α → Prop
  | ok _ => True
  | throws _ => True
  | ub _ => False
  | diverges => False

@[simp] theorem safe_ok {α : Type} (a : α) : Safe (ok a) := trivial
@[simp] theorem safe_throws {α : Type} (e : Exn) : Safe (throws e : Res α) := trivial
@[simp] theorem not_safe_ub {α : Type} (u : UB) : ¬ Safe (ub u : Res α) := id
@[simp] theorem not_safe_diverges {α : Type} : ¬ Safe (diverges : Res α) := id

instance {α : Type} (r : Res α) : Decidable (Safe r) := by
  cases r <;> simp only [Safe] <;> infer_instance

theorem bind_eq_ok {α β : Type} {x : Res α} {f : α → Res β} {b : β} :
    (x >>= f) = ok b ↔ ∃ a, x = ok a ∧ f a = ok b := by
  cases x <;> simp

theorem safe_bind {α β : Type} {x : Res α} {f : α → Res β} (hx : Safe x)
    (hf : ∀ a, x = ok a → Safe (f a)) : Safe (x >>= f) := by
  cases x with
  | ok a => exact hf a rfl
  | throws e => trivial
  | ub u => exact hx
  | diverges => exact hx

end Res
end Jnivm
