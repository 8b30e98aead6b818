import Verif.PreludeUnwind
import Verif.Spec.Prelude

/-!
# Specification vocabulary: nothing is lost when client code throws
-/

namespace Efp
namespace Prelude

variable {β ω : Type}

/-- every block was freed and every resource-owning object destroyed, once -/
def Balanced (k : Kind) (l : Ledger) : Prop := l.alloc = l.freed ∧ (k = .managed → l.made = l.gone)

/-- What the caller sees, against the list computation `spec`.  If that gives `bs`, the call returns an object with
exactly these elements, which can be destroyed and then has lost nothing.  If client code throws, the exception
reaches the caller in the same world, the partly built object was destroyed, and it has lost nothing.  If client
code is undefined, so is the call. -/
def Safe (k : Kind) (o : Built β ω) (spec : Out ω (List β)) : Prop :=
  match spec with
  | .ok bs w => ∃ r, o = .value r w ∧ r.contents = .ok bs ∧ ∃ t, Res.dtor k r = .ok () t ∧ Balanced k t.led
  | .thrown w => ∃ led, o = .threw led w ∧ Balanced k led
  | .ub u => o = .undefined u

end Prelude
end Efp
