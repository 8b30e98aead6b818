import Verif.Spec.FmtGrammar

/-!
# Specification: UTF-16
-/

namespace Efp
namespace Spec
namespace Fmt

/-- the UTF-16 units of a character: one below 2¹⁶, and a pair of surrogates otherwise -/
def units16 (c : Char) : List Nat :=
  if c.toNat < 0x10000 then [c.toNat]
  else [0xd800 + (c.toNat - 0x10000) / 0x400, 0xdc00 + (c.toNat - 0x10000) % 0x400]

/-- the UTF-16 encoding of a text -/
def utf16 (cs : List Char) : List Nat := cs.flatMap units16

/-- the UTF-32 encoding of a text -/
def utf32 (cs : List Char) : List Nat := cs.map Char.toNat

/-- the characters of a row of UTF-16 units, from left to right; a unit where no character begins is `none` -/
inductive Reads16 : List Nat → List (Option Char) → Prop
  | nil : Reads16 [] []
  | char (c : Char) (us : List Nat) (ps : List (Option Char)) : Reads16 us ps → Reads16 (units16 c ++ us) (some c :: ps)
  | stray (u : Nat) (us : List Nat) (ps : List (Option Char)) (h : ∀ c, ¬ units16 c <+: u :: us) :
      Reads16 us ps → Reads16 (u :: us) (none :: ps)

/-- the replacement character -/
def replacement : Char := Char.ofNat 0xfffd

end Fmt
end Spec
end Efp
