import Verif.Fmt.MemWorld
import Verif.Fmt.Ops

/-!
# Model of the reports of system errors (include/efp/fmt/format-inl.h)
-/

namespace Efp
namespace Fmt

/-- `noexcept`: an exception that would leave the function ends the program, here `ub` -/
def Run.noexcept {σ : Type} : Run σ → Run σ
  | .threw _ => .ub
  | r => r

/-- `format_to` with an `appender`, core.h 3158-3184: the operations go to the buffer itself.  The operations before a
format error are not run. -/
def formatToBuffer (fails : Nat → Nat → Bool) (fmt : Str) (l : List (Option Str × Arg)) (b : Buf Mem) : Run (Buf Mem) :=
  match vformatToOps fmt (makeArgs l) with
  | .ok ops => runOps (Mem.kind fails) ops b
  | .err _ => .threw b
  | .ub => .ub

/-- `error_code_size`, format-inl.h 53-60: `sizeof(SEP)` is 3 and `sizeof(ERROR_STR)` is 7 -/
def errorCodeSize (code : Int) : Res Nat := do
  let abs := (code % 2 ^ 32).toNat
  let abs := if code < 0 then (2 ^ 32 - abs) % 2 ^ 32 else abs
  let n ← countDigits 32 abs
  .ok (3 + 7 - 2 + (if code < 0 then 1 else 0) + n)

/-- `format_error_code`, format-inl.h 44-66.  The two literals have some address, here 1. -/
def formatErrorCode (fails : Nat → Nat → Bool) (code : Int) (message : Str) (b : Buf Mem) : Run (Buf Mem) :=
  Run.noexcept <| (b.tryResize (Mem.kind fails) 0).andThen fun b =>
    match errorCodeSize code with
    | .ok size =>
      (if message.length ≤ wrapSub inlineSize size then
        formatToBuffer fails "{}{}".toList [(none, .string message), (none, .cstring 1 ": ".toList)] b
      else .ok b).andThen fun b =>
        (formatToBuffer fails "{}{}".toList [(none, .cstring 1 "error ".toList), (none, .int code)] b).andThen fun b =>
          if b.size ≤ inlineSize then .ok b else .ub
    | _ => .ub

/-- `format_system_error`, format-inl.h 1424-1433.  `what` is the text of the `std::system_error`, or `none` if its
construction throws; `write`, format.h 3994-3999 and 4034-4040, pushes its bytes one by one, core.h 831-836, as the
iterator is no `appender`. -/
def formatSystemError (fails : Nat → Nat → Bool) (what : Option Str) (code : Int) (message : Str) (b : Buf Mem) :
    Run (Buf Mem) :=
  match what with
  | none => formatErrorCode fails code message b
  | some t =>
    match pushAll (Mem.kind fails) t b with
    | .ok b => .ok b
    | .threw b => formatErrorCode fails code message b
    | .ub => .ub

/-- the two calls on `stderr`, format-inl.h 72-73; `takes` is the number of bytes it still takes.  `fwrite` of one item
of no bytes returns 0. -/
def writeStderr (takes : Nat) (t : Str) : Str :=
  if t.length = 0 ∨ takes < t.length then t.take takes else t ++ ['\n'].take (takes - t.length)

/-- `report_system_error`, format-inl.h 1435-1437, by `report_error`, format-inl.h 68-74, in a program with the given
buffers: the bytes that go to `stderr`.  The local buffer is destroyed in the end.  `none` is undefined behaviour or the
end of the program. -/
def reportSystemError (fails : Nat → Nat → Bool) (w : MW) (i : Nat) (what : Option Str) (code : Int) (message : Str)
    (takes : Nat) : Option (MW × Str) :=
  match w.create i with
  | .ok w1 =>
    match (w1.on i (formatSystemError fails what code message)).noexcept with
    | .ok w2 =>
      match (w2.text i).bind (·.mapM id), w2.destroy i with
      | some t, .ok w3 => some (w3, writeStderr takes t)
      | _, _ => none
    | _ => none
  | _ => none

end Fmt
end Efp
