import Verif.Spec.Lists
import Verif.String

/-!
# Specification of strings: lists of characters
-/

namespace Efp
namespace Spec

open Str

/-- the characters of a C string: up to the first NUL -/
def cChars (buf : List Nat) : List Nat := buf.takeWhile (· ≠ 0)

/-- the arguments of a constructor are valid: C strings are terminated, counted arrays long enough -/
def initOk : Str.Init → Prop
  | .cstr buf => 0 ∈ buf
  | .count buf n => n ≤ buf.length
  | _ => True

/-- the same for the arguments of an operation -/
def sopOk : SOp → Prop
  | .appendC buf | .assignC buf | .insertC _ buf => 0 ∈ buf
  | .insertCN _ buf n => n ≤ buf.length
  | _ => True

/-- what a constructor makes -/
def strInit : Str.Init → List Nat
  | .default => []
  | .cstr buf => cChars buf
  | .count buf n => buf.take n
  | .fill n c => List.replicate n c

/-- effect of one operation; `none` means that it has to throw -/
def strStep : SOp → List Nat → Option (List Nat)
  | .base op, l => vecStep op l
  | .appendC buf, l => some (l ++ cChars buf)
  | .appendN n c, l => some (l ++ List.replicate n c)
  | .assignC buf, _ => some (cChars buf)
  | .assignN n c, _ => some (List.replicate n c)
  | .insertC pos buf, l => if pos ≤ l.length then some (l.take pos ++ cChars buf ++ l.drop pos) else none
  | .insertCN pos buf n, l => if pos ≤ l.length then some (l.take pos ++ buf.take n ++ l.drop pos) else none
  | .plus w, l => some (l ++ w)

/-- a history on lists: final list, and for each call whether it throws -/
def strRun : List SOp → List Nat → List Nat × List Bool
  | [], l => (l, [])
  | op :: ops, l =>
    match strStep op l with
    | some l' => let r := strRun ops l'; (r.1, false :: r.2)
    | none => let r := strRun ops l; (r.1, true :: r.2)

/-- `s` is a string some valid client session produces, `l` its characters -/
def StrReachable (s : Str) (l : List Nat) : Prop :=
  ∃ init ops evs, initOk init ∧ (∀ op ∈ ops, sopOk op) ∧ Str.session init ops = .ok (s, evs) ∧ s.contents = .ok l

/-- operations after which a NUL still fits: all but `insert(pos, cstr)` -/
def keepsSpare : SOp → Bool
  | .insertC _ _ => false
  | _ => true

/-- lexicographic order -/
def lex : List Nat → List Nat → Ordering
  | [], [] => .eq
  | [], _ :: _ => .lt
  | _ :: _, [] => .gt
  | a :: as, b :: bs => if a < b then .lt else if b < a then .gt else lex as bs

end Spec
end Efp
