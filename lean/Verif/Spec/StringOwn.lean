import Verif.Spec.String

/-!
# Specification: what `insert` puts in place of its own text

Only list operations.  `l` is the text before the call, and `insert` is told to put the `n` characters starting at
`off` in front of position `pos`.
-/

namespace Efp
namespace Spec

/-- the `n` characters a client expects to be inserted -/
def piece (l : List Nat) (off n : Nat) : List Nat := (l.drop off).take n

/-- the `n` characters that are inserted: a source in front of `pos` is read over and over in steps of `pos - off`;
a source behind `pos` is read after the tail has moved up by `n`, so that what lies behind `pos + n` is the text from
`pos` on -/
def inserted (l : List Nat) (pos off n : Nat) : List Nat :=
  (List.range n).map fun i =>
    if off < pos then l.getD (off + i % (pos - off)) 0
    else if off + i < pos + n then l.getD (off + i) 0
    else l.getD (off + i - n) 0

end Spec
end Efp
