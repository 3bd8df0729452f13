import Verif.Encodings
import Verif.Contacts

/-!
# The C interface of the onion-request builder

`onion_request_builder_*` (src/onionreq/builder.cpp:178-272, include/session/onionreq/builder.h) and `onion_request_decrypt`
(src/onionreq/response_parser.cpp:51-113).  An argument of type `const char*` or `const unsigned char*` is modelled by the bytes
from there to the end of the caller's buffer; reading past the end is undefined behaviour.  Null pointers (asserted against) and
failing `malloc` are not modelled.
-/

namespace Verif

/-- The `switch` over `ENCRYPT_TYPE` (src/onionreq/builder.cpp:191-201, src/onionreq/response_parser.cpp:66-77) -/
def cEncType (n : Nat) : Out EncType := if n = 0 then .ok .aesGcm else if n = 1 then .ok .xchacha20 else .err .foreign

/-- `from_hex({ptr, 64})` of a key of 32 bytes -/
def cHexKey (buf : Bytes) : Out Bytes := if buf.length < 64 then .ub else keyFromHex 32 (buf.take 64)

/-- A string made from a pointer to a NUL-terminated one -/
def cText (buf : Bytes) : Out Bytes := if 0 ∈ buf then .ok (cStr buf) else .ub

/-- The functions that configure a builder -/
inductive CCall where
  | encType (n : Nat)
  | snode (ed x : Bytes)
  | server (host target protocol : Bytes) (port : Nat) (x : Bytes)
  | hop (ed x : Bytes)
deriving DecidableEq, Repr

/-- One call (src/onionreq/builder.cpp:187-242).  An error is an exception that leaves the C function; the builder is then
unchanged, since the arguments are converted before it is touched.  `port` is a `uint16_t`. -/
def CCall.run (b : Builder) : CCall → Out Builder
  | .encType n => do .ok (b.setEncType (← cEncType n))
  | .snode ed x => do
    let e ← cHexKey ed
    let k ← cHexKey x
    .ok (b.setSnode e k)
  | .server host target protocol port x => do
    let h ← cText host
    let t ← cText target
    let p ← cText protocol
    let k ← cHexKey x
    .ok (b.setServer h t p (some port) k)
  | .hop ed x => do
    let e ← cHexKey ed
    let k ← cHexKey x
    .ok (b.addHop e k)

/-- A builder made by `onion_request_builder_init` (src/onionreq/builder.cpp:180-185) after some calls, which ends at the first
exception -/
def cRun (calls : List CCall) : Out Builder := calls.foldlM CCall.run Builder.new

section
variable (P : OPrims)

/-- `onion_request_builder_build` (src/onionreq/builder.cpp:244-272): the caller's builder afterwards (the work is done on a copy
of it), and, if true is returned, the request, public and secret key written -/
def cBuild (b : Builder) (rnd : Nat → Bytes × Bytes) (payload : Bytes) : Builder × Out (Option (Bytes × Bytes × Bytes)) :=
  let (b', r) := b.build P rnd payload
  (b, match r with
    | .ok req => match b'.finalPair with
      | some (pk, sk) => .ok (some (req, pk, sk))
      | none => .ok none
    | .err _ => .ok none
    | .hang => .hang
    | .ub => .ub)

/-- `onion_request_decrypt` (src/onionreq/response_parser.cpp:51-113), given 32 bytes for each key: the plaintext if true is
returned -/
def cOnionDecrypt (ct : Bytes) (n : Nat) (dest pk sk : Bytes) : Out (Option Bytes) :=
  if dest.length < 32 ∨ pk.length < 32 ∨ sk.length < 32 then .ub
  else match cEncType n with
    | .ok t => match (Hop.mk (sk.take 32) (pk.take 32) false).decrypt P t ct (dest.take 32) with
      | .ok m => .ok (some m)
      | .err _ => match t with
        | .xchacha20 => match (Hop.mk (sk.take 32) (pk.take 32) false).decrypt P .aesGcm ct (dest.take 32) with
          | .ok m => .ok (some m)
          | .err _ => .ok none
          | .hang => .hang
          | .ub => .ub
        | .aesGcm => .ok none
      | .hang => .hang
      | .ub => .ub
    | .err _ => .ok none
    | .hang => .hang
    | .ub => .ub

end
end Verif
