import Verif.StringShared
import Verif.Spec.String

/-!
# Specification: what the `const` calls on a string return
-/

namespace Efp
namespace Spec

open StrShared (Call Res)

/-- what a call returns on a string with the characters `l` -/
def constRes (l : List Nat) : Call → Res
  | .size => .num l.length
  | .get i => .num (l.getD i 0)
  | .at_ i => match l[i]? with
    | some c => .num c
    | none => .threw
  | .front => .num (l.headD 0)
  | .back => .num (l.getLastD 0)
  | .eqC w => .bool (l == w)
  | .substr pos len | .copy len pos => if pos > l.length then .threw else .chars ((l.drop pos).take len)
  | .all => .chars l
  | .cStr => .chars (cChars l)

/-- what a client has to ensure: unchecked calls only with a character there -/
def constOk (l : List Nat) : Call → Prop
  | .get i => i < l.length
  | .front | .back => l ≠ []
  | _ => True

end Spec
end Efp
