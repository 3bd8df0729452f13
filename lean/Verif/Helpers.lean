import Verif.Hex

/-!
# Helper functions

`include/session/util.hpp`, `src/fields.cpp`.
-/

namespace Verif

/-- `string_iequal` (include/session/util.hpp:69-75): `std::equal` of two ranges.  `std::tolower` in the C locale. -/
def stringIequal : Bytes → Bytes → Bool
  | [], [] => true
  | a :: s, b :: t => lowerC a == lowerC b && stringIequal s t
  | _, _ => false

/-- `starts_with` (include/session/util.hpp:77-80) -/
def startsWith (s p : Bytes) : Bool := decide (s.length ≥ p.length) && s.drop p.length == p

/-- `end_with` (include/session/util.hpp:82-84) -/
def endWith (s p : Bytes) : Bool := decide (s.length ≥ p.length) && s.drop (s.length - p.length) == p

/-- `SessionID::hex` (src/fields.cpp:9-15): the byte 5 itself, then the key in hex -/
def sessionIdHex (pubkey : Bytes) : Bytes := 5 :: toHex pubkey

end Verif
