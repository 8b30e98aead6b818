import Verif.Spec.Fmt

/-!
# Specification of the reports of system errors
-/

namespace Efp
namespace Spec
namespace Fmt

open Efp.Fmt (Str)

/-- the report that needs no memory: the message, unless the line would be longer than 500 bytes, and the error code -/
def errorLine (message : Str) (code : Int) : Str :=
  let short := "error ".toList ++ showIntDefault code
  let full := message ++ ": ".toList ++ short
  if full.length ≤ 500 then full else short

end Fmt
end Spec
end Efp
