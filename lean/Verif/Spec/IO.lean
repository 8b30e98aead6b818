import Verif.IO

/-!
# Specification vocabulary for files
-/

namespace Efp
namespace Spec

open Io

/-- the bytes a stream will still deliver: those after the position, up to the place of an input error -/
def remaining (s : Stream) : List Nat :=
  ((match s.bad with
    | none => s.bytes
    | some e => s.bytes.take e).drop s.pos)

/-- lines, each followed by a newline -/
def linesText (L : List (List Nat)) : List Nat := L.flatMap (· ++ [10])

/-- `L` are the lines of `text`: none contains a newline, and with a newline after each they give `text`, with a
newline added if `text` does not end with one -/
def LinesOf (L : List (List Nat)) (text : List Nat) : Prop :=
  (∀ l ∈ L, 10 ∉ l) ∧ linesText L = if text = [] ∨ text.getLast? = some 10 then text else text ++ [10]

/-- What a client knows about its `File` variables: gone, open, or without a file -/
inductive Status where
  | gone
  | holding
  | empty
  deriving DecidableEq, Repr

/-- The effect of an operation on the variables, for the operations the ownership theorem covers: no move assignment
to a variable that holds a file, no failing `close`, no `write`, and no use of a variable that is gone. -/
def fileStep (st : List Status) : Op → Option (List Status)
  | .open_ _ ok => some (st ++ [if ok then .holding else .gone])
  | .move src =>
    match st[src]? with
    | some .holding => some (st.set src .empty ++ [.holding])
    | some .empty => some (st ++ [.empty])
    | _ => none
  | .assign dst src =>
    match st[dst]?, st[src]? with
    | some .empty, some .holding => some ((st.set dst .holding).set src .empty)
    | some .empty, some .empty => some st
    | _, _ => none
  | .close x ok =>
    match st[x]? with
    | some .holding => if ok then some (st.set x .empty) else none
    | some .empty => some st
    | _ => none
  | .write _ _ _ => none
  | .writeStr _ _ _ => none
  | .destroy x =>
    match st[x]? with
    | some .holding => some (st.set x .gone)
    | some .empty => some (st.set x .gone)
    | _ => none

/-- a program all of whose operations are covered, from variables `st` -/
def fileRun : List Op → List Status → Option (List Status)
  | [], st => some st
  | op :: ops, st => (fileStep st op).bind (fileRun ops)

end Spec
end Efp
