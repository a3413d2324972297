import Verif.Model.Heap
/-!
`ThrowNew` and `ExceptionDescribe`, src/jnivm/vm.cpp:87-111.

A C string is given by the characters in its memory; what a function reads of it ends at the first NUL.
-/
namespace Jnivm

/-- What a function that takes a `const char*` reads. -/
def cText (text : Str) : Str := text.takeWhile fun c => c != Char.ofNat 0

namespace Heap

/-- `ThrowNew`, src/jnivm/vm.cpp:87-96: the class `c` is not looked at; a null message is read by the
constructor of `std::runtime_error`. -/
def throwNew (h : Heap) (t : Nat) (_c : Option Nat) (message : Option Str) : Res (Heap × Int) :=
  match message with
  | none => .ub .nullDeref
  | some m => ((HeapOp.raise (.message (cText m))).run h t).bind fun x => .ok (x.1, 0)

/-- `ExceptionDescribe`, src/jnivm/vm.cpp:100-111: what it prints (none: nothing).  `what` gives the text
of `what()` for the exceptions that derive from `std::exception`.  Nothing is changed. -/
def describe (what : Exn → Option Str) (h : Heap) (t : Nat) : Res (Heap × Option Str) :=
  (h.env t).bind fun e =>
    match e.pending with
    | none => .ok (h, some "No pending Exception".toList)
    | some x =>
      match h.objs x with
      | none => .ub .dangling
      | some o =>
        match o.kind with
        | .throwable (some ex) =>
          match what ex with
          | some text => .ok (h, some ("Exception with Message `".toList ++ cText text ++ "` was thrown".toList))
          | none => .ok (h, none)
        | .throwable none => .ub .nullDeref
        | _ => .ub .typePun

end Heap

/-- `what()` of the exception that `ThrowNew` makes is the message; `others` gives the texts of all others. -/
def Exn.what (others : Exn → Option Str) : Exn → Option Str
  | .message m => some m
  | e => others e

end Jnivm
