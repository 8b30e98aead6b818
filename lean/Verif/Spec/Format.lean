/-!
# Specification of formatted sequences
-/

namespace Efp
namespace Spec

/-- `[`, the texts separated by `, `, `]` (character codes) -/
def listText (texts : List (List Nat)) : List Nat := [91] ++ [44, 32].intercalate texts ++ [93]

/-- the text does not contain `, ` -/
def noSep (t : List Nat) : Prop := ¬ [44, 32] <:+: t

instance (t : List Nat) : Decidable (noSep t) := inferInstanceAs (Decidable (¬ _))

end Spec
end Efp
