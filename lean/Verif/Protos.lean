import Verif.SessionEncrypt

/-!
# The protobuf envelope

Models src/config/protos.cpp with the protobuf wire format (the generated proto/*.pb.cc on top of the
protobuf library) for the messages it uses: `Content`, `SharedConfigMessage`, `Envelope`,
`WebSocketRequestMessage`, `WebSocketMessage`.
-/

namespace Verif

/-! ### The wire format -/

/-- A number as varint, in at most `f` bytes -/
def varintF : Nat → Nat → Bytes
  | 0, _ => []
  | f + 1, n => if n < 128 then [UInt8.ofNat n] else UInt8.ofNat (n % 128 + 128) :: varintF f (n / 128)

/-- `WriteVarint64` -/
def varint (n : Nat) : Bytes := varintF 10 n

/-- Reading a varint of at most `f` bytes: the value (before truncation) and the rest -/
def readVarint : Nat → Bytes → Option (Nat × Bytes)
  | 0, _ => none
  | _ + 1, [] => none
  | f + 1, b :: t =>
    if b < 128 then some (b.toNat, t)
    else match readVarint f t with
      | some (v, r) => some (b.toNat - 128 + 128 * v, r)
      | none => none

/-- A field value: varint (wire type 0) or length-delimited (wire type 2); fixed-size fields and groups
occur in none of the messages and are skipped. -/
inductive PVal where
  | int (n : Nat)
  | len (b : Bytes)
  | skipped
deriving DecidableEq, Repr

/-- The length of a length-delimited field: less than 2 GiB (`ReadSize`) -/
def readSize (b : Bytes) : Option (Nat × Bytes) := match readVarint 5 b with
  | some (n, r) => if n < 2 ^ 31 - 16 then some (n, r) else none
  | none => none

/-- Skipping the fields of a group of number `num` up to its end (`UnknownFieldParse`); the protobuf
library's limit of 100 for the nesting is not modelled. -/
def skipGroup (num : Nat) : Nat → Bytes → Option Bytes
  | 0, _ => none
  | f + 1, b => match readVarint 5 b with
    | none => none
    | some (tag, r) =>
      let n := tag % 2 ^ 32 / 8
      if n = 0 then none
      else match tag % 8 with
        | 0 => match readVarint 10 r with
          | some (_, r) => skipGroup num f r
          | none => none
        | 1 => if 8 ≤ r.length then skipGroup num f (r.drop 8) else none
        | 2 => match readSize r with
          | some (l, r) => if l ≤ r.length then skipGroup num f (r.drop l) else none
          | none => none
        | 3 => match skipGroup n f r with
          | some r => skipGroup num f r
          | none => none
        | 4 => if n = num then some r else none
        | 5 => if 4 ≤ r.length then skipGroup num f (r.drop 4) else none
        | _ => none

/-- One field: number, value, rest.  Tag 0, field number 0, an end of group and the wire types 6 and 7
are errors. -/
def readField (b : Bytes) : Option ((Nat × PVal) × Bytes) := match readVarint 5 b with
  | none => none
  | some (tag, r) =>
    let n := tag % 2 ^ 32 / 8
    if n = 0 then none
    else match tag % 8 with
      | 0 => match readVarint 10 r with
        | some (v, r) => some ((n, .int (v % 2 ^ 64)), r)
        | none => none
      | 1 => if 8 ≤ r.length then some ((n, .skipped), r.drop 8) else none
      | 2 => match readSize r with
        | some (l, r) => if l ≤ r.length then some ((n, .len (r.take l)), r.drop l) else none
        | none => none
      | 3 => match skipGroup n r.length r with
        | some r => some ((n, .skipped), r)
        | none => none
      | 5 => if 4 ≤ r.length then some ((n, .skipped), r.drop 4) else none
      | _ => none

/-- The fields of a message, with fuel for their number -/
def readFieldsF : Nat → Bytes → Option (List (Nat × PVal))
  | _, [] => some []
  | 0, _ :: _ => none
  | f + 1, b => match readField b with
    | none => none
    | some (x, r) => match readFieldsF f r with
      | some l => some (x :: l)
      | none => none

/-- The fields of a message (`_InternalParse`) -/
def readFields (b : Bytes) : Option (List (Nat × PVal)) := readFieldsF b.length b

/-- The value of an integer field: the last one with that number; for an enum only the values that are
declared count (others go to the unknown fields). -/
def pInt (n : Nat) (ok : Nat → Bool) : List (Nat × PVal) → Option Nat
  | [] => none
  | (k, .int v) :: t => match pInt n ok t with
    | some x => some x
    | none => if k = n ∧ ok v = true then some v else none
  | _ :: t => pInt n ok t

/-- The value of a bytes or string field: the last one -/
def pBytes (n : Nat) : List (Nat × PVal) → Option Bytes
  | [] => none
  | (k, .len v) :: t => match pBytes n t with
    | some x => some x
    | none => if k = n then some v else none
  | _ :: t => pBytes n t

/-- All occurrences of a message field -/
def pSubs (n : Nat) : List (Nat × PVal) → List Bytes
  | [] => []
  | (k, .len v) :: t => if k = n then v :: pSubs n t else pSubs n t
  | _ :: t => pSubs n t

/-- The fields of a message field: occurrences are merged, that is their fields are concatenated. -/
def readSubs : List Bytes → Option (List (Nat × PVal))
  | [] => some []
  | b :: t => match readFields b, readSubs t with
    | some x, some y => some (x ++ y)
    | _, _ => none

/-- A varint field (fields up to number 15) -/
def fInt (n v : Nat) : Bytes := UInt8.ofNat (8 * n) :: varint v

/-- A length-delimited field (fields up to number 15) -/
def fLen (n : Nat) (b : Bytes) : Bytes := UInt8.ofNat (8 * n + 2) :: (varint b.length ++ b)

/-! ### src/config/protos.cpp -/

/-- `encode_namespace` (src/config/protos.cpp:16-30) with the numbers of
include/session/config/namespaces.hpp:9-12 and proto/SessionProtos.proto:279-284 -/
def nsKind (ns : Int) : Option Nat :=
  if ns = 2 then some 1 else if ns = 3 then some 2 else if ns = 4 then some 3 else if ns = 5 then some 4 else none

/-- A 64-bit integer as the unsigned number that is written for it -/
def int64Bits (i : Int) : Nat := (i % 2 ^ 64).toNat

/-- The serialised `Content` with a `SharedConfigMessage` (src/config/protos.cpp:54-65;
proto/SessionProtos.proto:53-63,278-292) -/
def putContent (kind : Nat) (seqno : Int) (data : Bytes) : Bytes :=
  fLen 11 (fInt 1 kind ++ fInt 2 (int64Bits seqno) ++ fLen 3 data)

/-- The serialised `WebSocketMessage` around an `Envelope` (src/config/protos.cpp:95-118;
proto/SessionProtos.proto:9-24, proto/WebSocketResources.proto) -/
def putEnvelope (content : Bytes) : Bytes :=
  fInt 1 1 ++ fLen 2 (fLen 1 [] ++ fLen 2 [] ++ fLen 3 (fInt 1 6 ++ fInt 5 1 ++ fLen 8 content) ++ fInt 4 0)

/-- `Content::ParseFromArray` and the `SharedConfigMessage` in it: kind and data
(src/config/protos.cpp:165-176).  `other n b` says whether the bytes `b` parse as the message type of
field `n` of `Content` (the other kinds of messages). -/
def getShared (other : Nat → Bytes → Bool) (b : Bytes) : Option (Nat × Bytes) :=
  match readFields b with
  | none => none
  | some fs =>
    if (fs.all fun x => match x with
        | (n, .len v) => !(n ∈ [1, 3, 5, 6, 7, 8, 9, 10]) || other n v
        | _ => true) = false then none
    else if pSubs 11 fs = [] then none
    else match readSubs (pSubs 11 fs) with
      | none => none
      | some ss =>
        match pInt 1 (fun v => decide (1 ≤ v % 2 ^ 32 ∧ v % 2 ^ 32 ≤ 4)) ss, pInt 2 (fun _ => true) ss, pBytes 3 ss with
        | some k, some _, some d => some (k % 2 ^ 32, d)
        | _, _, _ => none

/-- The content of the `Envelope` in a `WebSocketMessage` (src/config/protos.cpp:135-147): `type` must be
REQUEST, the envelope must have a known type and a timestamp; the content is empty by default. -/
def getEnvelope (b : Bytes) : Option Bytes :=
  match readFields b with
  | none => none
  | some fs =>
    match readSubs (pSubs 2 fs), readSubs (pSubs 3 fs) with
    | some req, some _ =>
      if (pInt 1 (fun v => decide (v % 2 ^ 32 ≤ 2)) fs).map (· % 2 ^ 32) ≠ some 1 then none
      else match readFields ((pBytes 3 req).getD []) with
        | none => none
        | some es =>
          match pInt 1 (fun v => decide (v % 2 ^ 32 = 6 ∨ v % 2 ^ 32 = 7)) es, pInt 5 (fun _ => true) es with
          | some _, some _ => some ((pBytes 8 es).getD [])
          | _, _ => none
    | _, _ => none

/-- Removing the padding (src/config/protos.cpp:155-163): a byte 0x80 followed by any number of zeros -/
def unpadEnd (b : Bytes) : Option Bytes := match b.reverse.dropWhile (· == 0) with
  | 128 :: t => some t.reverse
  | _ => none

variable {G : Type} [AddCommGroup G] [DecidableEq G] (C : ECurve G)

/-- `wrap_config` (src/config/protos.cpp:34-119).  Messages of 2 GiB, which protobuf does not serialise,
are treated as an error. -/
def ECurve.wrapConfig (sk data : Bytes) (seqno : Int) (ns : Int) : Out Bytes :=
  (C.fullSk sk).bind fun sk => match C.edToX (sk.drop 32) with
    | none => .err .foreign
    | some X => match nsKind ns with
      | none => .err .foreign
      | some kind =>
        if data.length < 2 ^ 30 then
          (C.encryptForDet sk X (putContent kind seqno data ++ [128])).bind fun e => .ok (putEnvelope e)
        else .err .foreign

/-- `unwrap_config` (src/config/protos.cpp:121-177) -/
def ECurve.unwrapConfig (other : Nat → Bytes → Bool) (sk raw : Bytes) (ns : Int) : Out Bytes :=
  (C.fullSk sk).bind fun sk => match getEnvelope raw with
    | none => .err .foreign
    | some content => (C.decryptIncoming sk content).bind fun r =>
      if r.2 ≠ sk.drop 32 then .err .foreign
      else match unpadEnd r.1 with
        | none => .err .foreign
        | some plain => match getShared other plain with
          | none => .err .foreign
          | some (kind, data) => if nsKind ns = some kind then .ok data else .err .foreign

end Verif
