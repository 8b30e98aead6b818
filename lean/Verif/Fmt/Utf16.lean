import Verif.Fmt.Unicode

/-!
# Model of the converters between UTF-8, UTF-16 and UTF-32 (include/efp/fmt/format.h 1530-1640, format-inl.h 1408-1422)

The loops are in `Verif.Fmt.Unicode`; here are the classes around them.  A unit is a natural number; the buffers grow as
in `Verif.Fmt.Buffer`, which is not repeated here.
-/

namespace Efp
namespace Fmt

/-- the buffer of a `utf8_to_utf16`, format-inl.h 1408-1422: the units and the terminating zero of line 1421 -/
def utf8ToUtf16Buffer (s : Str) : Res (List Nat) := do
  let b ← utf8ToUtf16 s
  .ok (b ++ [0])

/-- the buffer of a `to_utf8` of 4-byte units, format.h 1566-1573 and 1594-1600: the bytes and the terminating zero of
line 1598, or the exception of line 1572.  The error policy is not consulted. -/
def toUtf8Buffer32 (us : List Nat) : Res Str :=
  match toUtf8of32 us with
  | some t => .ok (t ++ [Char.ofNat 0])
  | none => .err "invalid utf32"

/-- the buffer of a `to_utf8` of 2-byte units, format.h 1566-1573 and 1594-1600, as `toUtf8Buffer32` -/
def toUtf8Buffer16 (replace : Bool) (us : List Nat) : Res Str :=
  match toUtf8of16 replace us with
  | some t => .ok (t ++ [Char.ofNat 0])
  | none => .err "invalid utf16"

/-- `size()` of the converters, format.h 1542-1544 and 1579-1581 -/
def bufSize {α : Type} (buf : List α) : Nat := buf.length - 1

/-- `str()` and the conversion to a view of the converters, format.h 1538-1540, 1550-1552, 1575-1577 and 1587-1589 -/
def bufStr {α : Type} (buf : List α) : List α := buf.take (bufSize buf)

end Fmt
end Efp
