import Verif.BlindingLemmas

/-!
# Group subaccounts

Models `Keys::swarm_make_subaccount`, `swarm_subaccount_token`, `swarm_subaccount_sign` (with binary output) and
`swarm_verify_subaccount` (src/config/groups/keys.cpp:538-832) and `session_id_pk`
(src/config/internal.cpp:27-33), over the abstract curve.
-/

namespace Verif

variable {G : Type} [AddCommGroup G] [DecidableEq G] (C : SCurve G)

/-- `session_id_pk` (src/config/internal.cpp:27-33) -/
def sidPk (sid pre : Bytes) : Out Bytes := if checkId sid pre then .ok (fromHex (sid.drop 2)) else .err .foreign

/-- `subaccount_blind_factor` (src/config/groups/keys.cpp:538-558) with `seed_hash`
(src/config/base.cpp:586-598) -/
def SCurve.subFactor (groupSk groupPk X : Bytes) : Bytes :=
  C.scReduce (C.blake 64 (C.blake 32 (asc ['S', 'e', 's', 's', 'i', 'o', 'n', 'G', 'r', 'o', 'u', 'p', 'S', 'u', 'b', 'a',
    'c', 'c', 'o', 'u', 'n', 't', 'M', 'a', 's', 'k']) (groupSk.take 32)) (5 :: X ++ 3 :: groupPk))

/-- `subacc_flags` (src/config/groups/keys.cpp:563-570): read is 1, write 2, delete 4. -/
def subFlags (write del : Bool) : UInt8 := 1 ||| (if write then 2 else 0) ||| (if del then 4 else 0)

/-- `swarm_make_subaccount` (src/config/groups/keys.cpp:575-628); `none`: not an admin. -/
def SCurve.makeSubaccount (groupSk : Option Bytes) (groupPk sid : Bytes) (write del : Bool) : Out Bytes := match groupSk with
  | none => .err .foreign
  | some c => (sidPk sid (asc ['0', '5'])).bind fun X =>
    let k := C.subFactor c groupPk X
    match C.pointMul k (C.xToEd X) with
    | none => .err .foreign
    | some kT =>
      let head := [3, subFlags write del, 0, 0]
      .ok (head ++ k ++ C.edSign c (head ++ kT))

/-- `swarm_subaccount_token` (src/config/groups/keys.cpp:630-655) -/
def SCurve.subToken (groupSk : Option Bytes) (groupPk sid : Bytes) (write del : Bool) : Out Bytes := match groupSk with
  | none => .err .foreign
  | some c => (sidPk sid (asc ['0', '5'])).bind fun X =>
    match C.pointMul (C.subFactor c groupPk X) (C.xToEd X) with
    | none => .err .foreign
    | some kT => .ok ([3, subFlags write del, 0, 0] ++ kT)

/-- The nonce (src/config/groups/keys.cpp:724-745) -/
def SCurve.subNonce (userSk kT msg : Bytes) : Bytes :=
  C.scReduce (C.blake 64 (asc ['S', 'u', 'b', 'a', 'c', 'c', 'o', 'u', 'n', 't', 'S', 'i', 'g'])
    (C.blake 32 (asc ['S', 'u', 'b', 'a', 'c', 'c', 'o', 'u', 'n', 't', 'S', 'e', 'e', 'd']) (userSk.take 32) ++ kT ++ msg))

/-- The private scalar kt (src/config/groups/keys.cpp:692-702): t = ±s -/
def SCurve.subScalar (userSk k : Bytes) : Bytes :=
  C.scMul k (if sgnBit (userSk.drop 32) then C.scNeg (C.edScalar userSk) else C.edScalar userSk)

/-- `swarm_subaccount_sign` (src/config/groups/keys.cpp:657-782): token, signature of the admin, signature -/
def SCurve.subSign (userSk msg val : Bytes) : Out (Bytes × Bytes × Bytes) :=
  if val.length ≠ 100 then .err .foreign
  else
    let k := (val.drop 4).take 32
    match C.pointMul k (clearTop (userSk.drop 32)) with
    | none => .err .foreign
    | some kT => .ok (val.take 4 ++ kT, val.drop 36, C.schnorr (C.subNonce userSk kT msg) (C.subScalar userSk k) kT msg)

/-- `swarm_verify_subaccount` (src/config/groups/keys.cpp:784-832); the flag 8 is `ANY_PREFIX`. -/
def SCurve.verifySub (groupId userSk val : Bytes) (write del : Bool) : Out Bool :=
  (sidPk groupId (asc ['0', '3'])).bind fun groupPk =>
    if val.length ≠ 100 then .ok false
    else if val.getD 0 0 ≠ 3 ∧ val.getD 1 0 &&& 8 = 0 then .ok false
    else if val.getD 1 0 &&& 1 = 0 then .ok false
    else if write ∧ val.getD 1 0 &&& 2 = 0 then .ok false
    else if del ∧ val.getD 1 0 &&& 4 = 0 then .ok false
    else match C.pointMul ((val.drop 4).take 32) (clearTop (userSk.drop 32)) with
      | none => .err .foreign
      | some kT => .ok (C.edVerify groupPk (val.take 4 ++ kT) (val.drop 36))

end Verif
