import Verif.Fmt.Unicode

/-!
# Model of the escaping of characters and strings (`?` presentation) of the bundled formatting library
-/

namespace Efp
namespace Fmt

/-- `singletons0`, format-inl.h 1548-1555 -/
def singletons0 : List (Nat × Nat) :=
  [(0x00, 1), (0x03, 5), (0x05, 6), (0x06, 3), (0x07, 6), (0x08, 8), (0x09, 17), (0x0a, 28), (0x0b, 25), (0x0c, 20),
   (0x0d, 16), (0x0e, 13), (0x0f, 4), (0x10, 3), (0x12, 18), (0x13, 9), (0x16, 1), (0x17, 5), (0x18, 2), (0x19, 3),
   (0x1a, 7), (0x1c, 2), (0x1d, 1), (0x1f, 22), (0x20, 3), (0x2b, 3), (0x2c, 2), (0x2d, 11), (0x2e, 1), (0x30, 3),
   (0x31, 2), (0x32, 1), (0xa7, 2), (0xa9, 2), (0xaa, 4), (0xab, 8), (0xfa, 2), (0xfb, 5), (0xfd, 4), (0xfe, 3),
   (0xff, 9)]

/-- `singletons0_lower`, format-inl.h 1556-1577 -/
def singletons0Lower : List Nat :=
  [0xad, 0x78, 0x79, 0x8b, 0x8d, 0xa2, 0x30, 0x57, 0x58, 0x8b, 0x8c, 0x90, 0x1c, 0x1d, 0xdd, 0x0e, 0x0f, 0x4b, 0x4c,
   0xfb, 0xfc, 0x2e, 0x2f, 0x3f, 0x5c, 0x5d, 0x5f, 0xb5, 0xe2, 0x84, 0x8d, 0x8e, 0x91, 0x92, 0xa9, 0xb1, 0xba, 0xbb,
   0xc5, 0xc6, 0xc9, 0xca, 0xde, 0xe4, 0xe5, 0xff, 0x00, 0x04, 0x11, 0x12, 0x29, 0x31, 0x34, 0x37, 0x3a, 0x3b, 0x3d,
   0x49, 0x4a, 0x5d, 0x84, 0x8e, 0x92, 0xa9, 0xb1, 0xb4, 0xba, 0xbb, 0xc6, 0xca, 0xce, 0xcf, 0xe4, 0xe5, 0x00, 0x04,
   0x0d, 0x0e, 0x11, 0x12, 0x29, 0x31, 0x34, 0x3a, 0x3b, 0x45, 0x46, 0x49, 0x4a, 0x5e, 0x64, 0x65, 0x84, 0x91, 0x9b,
   0x9d, 0xc9, 0xce, 0xcf, 0x0d, 0x11, 0x29, 0x45, 0x49, 0x57, 0x64, 0x65, 0x8d, 0x91, 0xa9, 0xb4, 0xba, 0xbb, 0xc5,
   0xc9, 0xdf, 0xe4, 0xe5, 0xf0, 0x0d, 0x11, 0x45, 0x49, 0x64, 0x65, 0x80, 0x84, 0xb2, 0xbc, 0xbe, 0xbf, 0xd5, 0xd7,
   0xf0, 0xf1, 0x83, 0x85, 0x8b, 0xa4, 0xa6, 0xbe, 0xbf, 0xc5, 0xc7, 0xce, 0xcf, 0xda, 0xdb, 0x48, 0x98, 0xbd, 0xcd,
   0xc6, 0xce, 0xcf, 0x49, 0x4e, 0x4f, 0x57, 0x59, 0x5e, 0x5f, 0x89, 0x8e, 0x8f, 0xb1, 0xb6, 0xb7, 0xbf, 0xc1, 0xc6,
   0xc7, 0xd7, 0x11, 0x16, 0x17, 0x5b, 0x5c, 0xf6, 0xf7, 0xfe, 0xff, 0x80, 0x0d, 0x6d, 0x71, 0xde, 0xdf, 0x0e, 0x0f,
   0x1f, 0x6e, 0x6f, 0x1c, 0x1d, 0x5f, 0x7d, 0x7e, 0xae, 0xaf, 0xbb, 0xbc, 0xfa, 0x16, 0x17, 0x1e, 0x1f, 0x46, 0x47,
   0x4e, 0x4f, 0x58, 0x5a, 0x5c, 0x5e, 0x7e, 0x7f, 0xb5, 0xc5, 0xd4, 0xd5, 0xdc, 0xf0, 0xf1, 0xf5, 0x72, 0x73, 0x8f,
   0x74, 0x75, 0x96, 0x2f, 0x5f, 0x26, 0x2e, 0x2f, 0xa7, 0xaf, 0xb7, 0xbf, 0xc7, 0xcf, 0xd7, 0xdf, 0x9a, 0x40, 0x97,
   0x98, 0x30, 0x8f, 0x1f, 0xc0, 0xc1, 0xce, 0xff, 0x4e, 0x4f, 0x5a, 0x5b, 0x07, 0x08, 0x0f, 0x10, 0x27, 0x2f, 0xee,
   0xef, 0x6e, 0x6f, 0x37, 0x3d, 0x3f, 0x42, 0x45, 0x90, 0x91, 0xfe, 0xff, 0x53, 0x67, 0x75, 0xc8, 0xc9, 0xd0, 0xd1,
   0xd8, 0xd9, 0xe7, 0xfe, 0xff]

/-- `singletons1`, format-inl.h 1578-1584 -/
def singletons1 : List (Nat × Nat) :=
  [(0x00, 6), (0x01, 1), (0x03, 1), (0x04, 2), (0x08, 8), (0x09, 2), (0x0a, 5), (0x0b, 2), (0x0e, 4), (0x10, 1),
   (0x11, 2), (0x12, 5), (0x13, 17), (0x14, 1), (0x15, 2), (0x17, 2), (0x19, 13), (0x1c, 5), (0x1d, 8), (0x24, 1),
   (0x6a, 3), (0x6b, 2), (0xbc, 2), (0xd1, 2), (0xd4, 12), (0xd5, 9), (0xd6, 2), (0xd7, 2), (0xda, 1), (0xe0, 5),
   (0xe1, 2), (0xe8, 2), (0xee, 32), (0xf0, 4), (0xf8, 2), (0xf9, 2), (0xfa, 2), (0xfb, 1)]

/-- `singletons1_lower`, format-inl.h 1585-1598 -/
def singletons1Lower : List Nat :=
  [0x0c, 0x27, 0x3b, 0x3e, 0x4e, 0x4f, 0x8f, 0x9e, 0x9e, 0x9f, 0x06, 0x07, 0x09, 0x36, 0x3d, 0x3e, 0x56, 0xf3, 0xd0,
   0xd1, 0x04, 0x14, 0x18, 0x36, 0x37, 0x56, 0x57, 0x7f, 0xaa, 0xae, 0xaf, 0xbd, 0x35, 0xe0, 0x12, 0x87, 0x89, 0x8e,
   0x9e, 0x04, 0x0d, 0x0e, 0x11, 0x12, 0x29, 0x31, 0x34, 0x3a, 0x45, 0x46, 0x49, 0x4a, 0x4e, 0x4f, 0x64, 0x65, 0x5c,
   0xb6, 0xb7, 0x1b, 0x1c, 0x07, 0x08, 0x0a, 0x0b, 0x14, 0x17, 0x36, 0x39, 0x3a, 0xa8, 0xa9, 0xd8, 0xd9, 0x09, 0x37,
   0x90, 0x91, 0xa8, 0x07, 0x0a, 0x3b, 0x3e, 0x66, 0x69, 0x8f, 0x92, 0x6f, 0x5f, 0xee, 0xef, 0x5a, 0x62, 0x9a, 0x9b,
   0x27, 0x28, 0x55, 0x9d, 0xa0, 0xa1, 0xa3, 0xa4, 0xa7, 0xa8, 0xad, 0xba, 0xbc, 0xc4, 0x06, 0x0b, 0x0c, 0x15, 0x1d,
   0x3a, 0x3f, 0x45, 0x51, 0xa6, 0xa7, 0xcc, 0xcd, 0xa0, 0x07, 0x19, 0x1a, 0x22, 0x25, 0x3e, 0x3f, 0xc5, 0xc6, 0x04,
   0x20, 0x23, 0x25, 0x26, 0x28, 0x33, 0x38, 0x3a, 0x48, 0x4a, 0x4c, 0x50, 0x53, 0x55, 0x56, 0x58, 0x5a, 0x5c, 0x5e,
   0x60, 0x63, 0x65, 0x66, 0x6b, 0x73, 0x78, 0x7d, 0x7f, 0x8a, 0xa4, 0xaa, 0xaf, 0xb0, 0xc0, 0xd0, 0xae, 0xaf, 0x79,
   0xcc, 0x6e, 0x6f, 0x93]

/-- `normal0`, format-inl.h 1599-1621 -/
def normal0 : List Nat :=
  [0x00, 0x20, 0x5f, 0x22, 0x82, 0xdf, 0x04, 0x82, 0x44, 0x08, 0x1b, 0x04, 0x06, 0x11, 0x81, 0xac, 0x0e, 0x80, 0xab,
   0x35, 0x28, 0x0b, 0x80, 0xe0, 0x03, 0x19, 0x08, 0x01, 0x04, 0x2f, 0x04, 0x34, 0x04, 0x07, 0x03, 0x01, 0x07, 0x06,
   0x07, 0x11, 0x0a, 0x50, 0x0f, 0x12, 0x07, 0x55, 0x07, 0x03, 0x04, 0x1c, 0x0a, 0x09, 0x03, 0x08, 0x03, 0x07, 0x03,
   0x02, 0x03, 0x03, 0x03, 0x0c, 0x04, 0x05, 0x03, 0x0b, 0x06, 0x01, 0x0e, 0x15, 0x05, 0x3a, 0x03, 0x11, 0x07, 0x06,
   0x05, 0x10, 0x07, 0x57, 0x07, 0x02, 0x07, 0x15, 0x0d, 0x50, 0x04, 0x43, 0x03, 0x2d, 0x03, 0x01, 0x04, 0x11, 0x06,
   0x0f, 0x0c, 0x3a, 0x04, 0x1d, 0x25, 0x5f, 0x20, 0x6d, 0x04, 0x6a, 0x25, 0x80, 0xc8, 0x05, 0x82, 0xb0, 0x03, 0x1a,
   0x06, 0x82, 0xfd, 0x03, 0x59, 0x07, 0x15, 0x0b, 0x17, 0x09, 0x14, 0x0c, 0x14, 0x0c, 0x6a, 0x06, 0x0a, 0x06, 0x1a,
   0x06, 0x59, 0x07, 0x2b, 0x05, 0x46, 0x0a, 0x2c, 0x04, 0x0c, 0x04, 0x01, 0x03, 0x31, 0x0b, 0x2c, 0x04, 0x1a, 0x06,
   0x0b, 0x03, 0x80, 0xac, 0x06, 0x0a, 0x06, 0x21, 0x3f, 0x4c, 0x04, 0x2d, 0x03, 0x74, 0x08, 0x3c, 0x03, 0x0f, 0x03,
   0x3c, 0x07, 0x38, 0x08, 0x2b, 0x05, 0x82, 0xff, 0x11, 0x18, 0x08, 0x2f, 0x11, 0x2d, 0x03, 0x20, 0x10, 0x21, 0x0f,
   0x80, 0x8c, 0x04, 0x82, 0x97, 0x19, 0x0b, 0x15, 0x88, 0x94, 0x05, 0x2f, 0x05, 0x3b, 0x07, 0x02, 0x0e, 0x18, 0x09,
   0x80, 0xb3, 0x2d, 0x74, 0x0c, 0x80, 0xd6, 0x1a, 0x0c, 0x05, 0x80, 0xff, 0x05, 0x80, 0xdf, 0x0c, 0xee, 0x0d, 0x03,
   0x84, 0x8d, 0x03, 0x37, 0x09, 0x81, 0x5c, 0x14, 0x80, 0xb8, 0x08, 0x80, 0xcb, 0x2a, 0x38, 0x03, 0x0a, 0x06, 0x38,
   0x08, 0x46, 0x08, 0x0c, 0x06, 0x74, 0x0b, 0x1e, 0x03, 0x5a, 0x04, 0x59, 0x09, 0x80, 0x83, 0x18, 0x1c, 0x0a, 0x16,
   0x09, 0x4c, 0x04, 0x80, 0x8a, 0x06, 0xab, 0xa4, 0x0c, 0x17, 0x04, 0x31, 0xa1, 0x04, 0x81, 0xda, 0x26, 0x07, 0x0c,
   0x05, 0x05, 0x80, 0xa5, 0x11, 0x81, 0x6d, 0x10, 0x78, 0x28, 0x2a, 0x06, 0x4c, 0x04, 0x80, 0x8d, 0x04, 0x80, 0xbe,
   0x03, 0x1b, 0x03, 0x0f, 0x0d]

/-- `normal1`, format-inl.h 1622-1651 -/
def normal1 : List Nat :=
  [0x5e, 0x22, 0x7b, 0x05, 0x03, 0x04, 0x2d, 0x03, 0x66, 0x03, 0x01, 0x2f, 0x2e, 0x80, 0x82, 0x1d, 0x03, 0x31, 0x0f,
   0x1c, 0x04, 0x24, 0x09, 0x1e, 0x05, 0x2b, 0x05, 0x44, 0x04, 0x0e, 0x2a, 0x80, 0xaa, 0x06, 0x24, 0x04, 0x24, 0x04,
   0x28, 0x08, 0x34, 0x0b, 0x01, 0x80, 0x90, 0x81, 0x37, 0x09, 0x16, 0x0a, 0x08, 0x80, 0x98, 0x39, 0x03, 0x63, 0x08,
   0x09, 0x30, 0x16, 0x05, 0x21, 0x03, 0x1b, 0x05, 0x01, 0x40, 0x38, 0x04, 0x4b, 0x05, 0x2f, 0x04, 0x0a, 0x07, 0x09,
   0x07, 0x40, 0x20, 0x27, 0x04, 0x0c, 0x09, 0x36, 0x03, 0x3a, 0x05, 0x1a, 0x07, 0x04, 0x0c, 0x07, 0x50, 0x49, 0x37,
   0x33, 0x0d, 0x33, 0x07, 0x2e, 0x08, 0x0a, 0x81, 0x26, 0x52, 0x4e, 0x28, 0x08, 0x2a, 0x56, 0x1c, 0x14, 0x17, 0x09,
   0x4e, 0x04, 0x1e, 0x0f, 0x43, 0x0e, 0x19, 0x07, 0x0a, 0x06, 0x48, 0x08, 0x27, 0x09, 0x75, 0x0b, 0x3f, 0x41, 0x2a,
   0x06, 0x3b, 0x05, 0x0a, 0x06, 0x51, 0x06, 0x01, 0x05, 0x10, 0x03, 0x05, 0x80, 0x8b, 0x62, 0x1e, 0x48, 0x08, 0x0a,
   0x80, 0xa6, 0x5e, 0x22, 0x45, 0x0b, 0x0a, 0x06, 0x0d, 0x13, 0x39, 0x07, 0x0a, 0x36, 0x2c, 0x04, 0x10, 0x80, 0xc0,
   0x3c, 0x64, 0x53, 0x0c, 0x48, 0x09, 0x0a, 0x46, 0x45, 0x1b, 0x48, 0x08, 0x53, 0x1d, 0x39, 0x81, 0x07, 0x46, 0x0a,
   0x1d, 0x03, 0x47, 0x49, 0x37, 0x03, 0x0e, 0x08, 0x0a, 0x06, 0x39, 0x07, 0x0a, 0x81, 0x36, 0x19, 0x80, 0xb7, 0x01,
   0x0f, 0x32, 0x0d, 0x83, 0x9b, 0x66, 0x75, 0x0b, 0x80, 0xc4, 0x8a, 0xbc, 0x84, 0x2f, 0x8f, 0xd1, 0x82, 0x47, 0xa1,
   0xb9, 0x82, 0x39, 0x07, 0x2a, 0x04, 0x02, 0x60, 0x26, 0x0a, 0x46, 0x0a, 0x28, 0x05, 0x13, 0x82, 0xb0, 0x5b, 0x65,
   0x4b, 0x04, 0x39, 0x07, 0x11, 0x40, 0x05, 0x0b, 0x02, 0x0e, 0x97, 0xf8, 0x08, 0x84, 0xd6, 0x2a, 0x09, 0xa2, 0xf7,
   0x81, 0x1f, 0x31, 0x03, 0x11, 0x04, 0x08, 0x81, 0x8c, 0x89, 0x04, 0x6b, 0x05, 0x0d, 0x03, 0x09, 0x07, 0x10, 0x93,
   0x60, 0x80, 0xf6, 0x0a, 0x73, 0x08, 0x6e, 0x17, 0x46, 0x80, 0x9a, 0x14, 0x0c, 0x57, 0x09, 0x19, 0x80, 0x87, 0x81,
   0x47, 0x03, 0x85, 0x42, 0x0f, 0x15, 0x85, 0x50, 0x2b, 0x80, 0xd5, 0x2d, 0x03, 0x1a, 0x04, 0x02, 0x81, 0x70, 0x3a,
   0x05, 0x01, 0x85, 0x00, 0x80, 0xd7, 0x29, 0x4c, 0x04, 0x0a, 0x04, 0x02, 0x83, 0x11, 0x44, 0x4c, 0x3d, 0x80, 0xc2,
   0x3c, 0x06, 0x01, 0x04, 0x55, 0x05, 0x1b, 0x34, 0x02, 0x81, 0x0e, 0x2c, 0x04, 0x64, 0x0c, 0x56, 0x0a, 0x80, 0xae,
   0x38, 0x1d, 0x0d, 0x2c, 0x04, 0x09, 0x07, 0x02, 0x0e, 0x06, 0x80, 0x9a, 0x83, 0xd8, 0x08, 0x0d, 0x03, 0x0d, 0x03,
   0x74, 0x0c, 0x59, 0x07, 0x0c, 0x14, 0x0c, 0x04, 0x38, 0x08, 0x0a, 0x06, 0x28, 0x08, 0x22, 0x4e, 0x81, 0x54, 0x0c,
   0x15, 0x03, 0x03, 0x05, 0x07, 0x09, 0x19, 0x07, 0x07, 0x09, 0x03, 0x0d, 0x07, 0x29, 0x80, 0xcb, 0x25, 0x0a, 0x84,
   0x06]

/-- the loop over the singletons of `is_printable`, format-inl.h 1518-1531: whether `x` is one of them.  `lowers` is
`singleton_lowers + lower_start`. -/
def singletonLoop (x : Nat) : List (Nat × Nat) → (lowers : List Nat) → Bool
  | [], _ => false
  | (upper, count) :: r, lowers =>
    if x >>> 8 < upper then false
    else if x >>> 8 = upper ∧ x &&& 0xff ∈ lowers.take count then true
    else singletonLoop x r (lowers.drop count)

/-- the loop over the runs of `is_printable`, format-inl.h 1535-1542 -/
def normalLoop (x : Int) (current : Bool) : List Nat → Bool
  | [] => current
  | v :: r =>
    if v &&& 0x80 ≠ 0 then
      match r with
      | [] => current
      | w :: r' =>
        if x - ((v &&& 0x7f) <<< 8 ||| w : Nat) < 0 then current
        else normalLoop (x - ((v &&& 0x7f) <<< 8 ||| w : Nat)) (!current) r'
    else if x - v < 0 then current
    else normalLoop (x - v) (!current) r

/-- `is_printable` over tables, format-inl.h 1509-1544 -/
def isPrintable16 (x : Nat) (singletons : List (Nat × Nat)) (lowers normal : List Nat) : Bool :=
  if singletonLoop x singletons lowers then false else normalLoop x true normal

/-- `is_printable`, format-inl.h 1547-1690 -/
def isPrintable (cp : Nat) : Bool :=
  if cp < 0x10000 then isPrintable16 (cp % 2 ^ 16) singletons0 singletons0Lower normal0
  else if cp < 0x20000 then isPrintable16 (cp % 2 ^ 16) singletons1 singletons1Lower normal1
  else if 0x2a6de ≤ cp ∧ cp < 0x2a700 then false
  else if 0x2b735 ≤ cp ∧ cp < 0x2b740 then false
  else if 0x2b81e ≤ cp ∧ cp < 0x2b820 then false
  else if 0x2cea2 ≤ cp ∧ cp < 0x2ceb0 then false
  else if 0x2ebe1 ≤ cp ∧ cp < 0x2f800 then false
  else if 0x2fa1e ≤ cp ∧ cp < 0x30000 then false
  else if 0x3134b ≤ cp ∧ cp < 0xe0100 then false
  else if 0xe01f0 ≤ cp ∧ cp < 0x110000 then false
  else decide (cp < 0x110000)

/-- `needs_escape`, format.h 1988-1990 -/
def needsEscape (cp : Nat) : Bool :=
  decide (cp < 0x20) || cp == 0x7f || cp == '"'.toNat || cp == '\\'.toNat || !isPrintable cp

/-- the digit of `format_uint`, format.h 1509-1512 -/
def uintDigit (bits : Nat) (upper : Bool) (digit : Nat) : Char :=
  if bits < 4 then Char.ofNat (48 + digit)
  else (if upper then "0123456789ABCDEF" else "0123456789abcdef").toList.getD digit '?'

/-- the loop of `format_uint`, format.h 1508-1513: `room` bytes of the buffer are left before `buffer`, `acc` is what
has been written after it.  The bytes left at the end and the text are returned; a write before the buffer is
`ub`. -/
def formatUintLoop (bits : Nat) (upper : Bool) : (room value : Nat) → (acc : Str) → Res (Nat × Str)
  | 0, _, _ => .ub
  | room + 1, value, acc =>
    if value >>> bits ≠ 0 then
      formatUintLoop bits upper room (value >>> bits) (uintDigit bits upper (value &&& (1 <<< bits - 1)) :: acc)
    else .ok (room, uintDigit bits upper (value &&& (1 <<< bits - 1)) :: acc)

/-- `write_codepoint`, format.h 2061-2068 -/
def writeCodepoint (width : Nat) (pre : Char) (cp : Nat) : Res Str := do
  let (room, text) ← formatUintLoop 4 false width cp []
  .ok ('\\' :: pre :: (List.replicate room '0' ++ text))

/-- the loop over the bytes of an escape that is no code point, format.h 2103-2106 -/
def writeBytesEscaped : Str → Res Str
  | [] => .ok []
  | c :: r => do
    let a ← writeCodepoint 2 'x' (c.toNat &&& 0xff)
    let b ← writeBytesEscaped r
    .ok (a ++ b)

/-- `write_escaped_cp`, format.h 2071-2111: `piece` is the text from `escape.begin` to `escape.end` -/
def writeEscapedCp (cp : Nat) (piece : Str) : Res Str :=
  if cp = '\n'.toNat then .ok ['\\', 'n']
  else if cp = '\r'.toNat then .ok ['\\', 'r']
  else if cp = '\t'.toNat then .ok ['\\', 't']
  else if cp = '"'.toNat ∨ cp = '\''.toNat ∨ cp = '\\'.toNat then .ok ['\\', Char.ofNat cp]
  else if cp < 0x100 then writeCodepoint 2 'x' cp
  else if cp < 0x10000 then writeCodepoint 4 'u' cp
  else if cp < 0x110000 then writeCodepoint 8 'U' cp
  else writeBytesEscaped piece

/-- `find_escape`, format.h 2017-2032: the offset, the text and the code point of the first escape -/
def findEscape (s : Str) : Res (Option (Nat × Str × Nat)) :=
  forEachCodepoint (fun cp off piece r => if needsEscape cp then (false, some (off, piece, cp)) else (true, r)) s none

/-- the loop of `write_escaped_string`, format.h 2117-2124, from `begin_`; `fuel` bounds the number of turns -/
def escapedLoop : (fuel : Nat) → (begin_ : Str) → Res Str
  | 0, _ => .ub
  | fuel + 1, begin_ => do
    match ← findEscape begin_ with
    | none => .ok begin_
    | some (off, piece, cp) =>
      let e ← writeEscapedCp cp piece
      if begin_.drop (off + piece.length) = [] then .ok (begin_.take off ++ e)
      else do
        let r ← escapedLoop fuel (begin_.drop (off + piece.length))
        .ok (begin_.take off ++ e ++ r)

/-- `write_escaped_string`, format.h 2114-2127 -/
def writeEscapedString (s : Str) : Res Str := do
  let body ← escapedLoop (s.length + 1) s
  .ok ('"' :: body ++ ['"'])

/-- `static_cast<uint32_t>(v)` for a `char`, which is signed on the platforms modelled -/
def charToU32 (v : Char) : Nat := if v.toNat < 128 then v.toNat else v.toNat + (2 ^ 32 - 256)

/-- `write_escaped_char`, format.h 2130-2144 -/
def writeEscapedChar (v : Char) : Res Str :=
  if (needsEscape (charToU32 v) = true ∧ v ≠ '"') ∨ v = '\'' then do
    let e ← writeEscapedCp (charToU32 v) [v]
    .ok ('\'' :: e ++ ['\''])
  else .ok ['\'', v, '\'']

end Fmt
end Efp
