import Verif.Blinding

/-!
# Keys, signatures and hashes: the small APIs

Models src/ed25519.cpp, src/curve25519.cpp, src/hash.cpp and the C functions of src/xed25519.cpp and
src/blinding.cpp, over the primitives of `Curve`.
-/

namespace Verif

variable {G : Type} [AddCommGroup G] [DecidableEq G] (C : SCurve G)

/-- `ed25519_key_pair(seed)` (src/ed25519.cpp:31-43): public key, secret key -/
def SCurve.edKeyPair (seed : Bytes) : Out (Bytes × Bytes) :=
  if seed.length ≠ 32 then .err .foreign else .ok (C.baseMul (C.edScalar seed), C.edSk seed)

/-- `seed_for_ed_privkey` (src/ed25519.cpp:45-56) -/
def seedFor (sk : Bytes) : Out Bytes := if sk.length = 32 ∨ sk.length = 64 then .ok (sk.take 32) else .err .foreign

/-- `ed25519::sign` (src/ed25519.cpp:58-75) -/
def SCurve.edSignApi (sk msg : Bytes) : Out Bytes := match C.fullSk sk with
  | .ok sk => .ok (C.edSign sk msg)
  | .err e => .err e
  | .hang => .hang
  | .ub => .ub

/-- `ed25519::verify` (src/ed25519.cpp:77-85) -/
def SCurve.edVerifyApi (sig pk msg : Bytes) : Out Bool :=
  if sig.length ≠ 64 then .err .foreign else if pk.length ≠ 32 then .err .foreign else .ok (C.edVerify pk msg sig)

/-- `to_curve25519_pubkey` (src/curve25519.cpp:21-34) -/
def SCurve.toCurvePk (pk : Bytes) : Out Bytes :=
  if pk.length ≠ 32 then .err .foreign else match C.edToX pk with
    | some x => .ok x
    | none => .err .foreign

/-- `to_curve25519_seckey` (src/curve25519.cpp:36-48) -/
def SCurve.toCurveSk (sk : Bytes) : Out Bytes := if sk.length ≠ 64 then .err .foreign else .ok (C.edScalar sk)

/-- `curve25519_key_pair` (src/curve25519.cpp:13-19): public key, and a secret key array of 64 bytes of which
`crypto_box_keypair` fills the first 32; `rnd` is the private key drawn, `junk` the rest of the array, which is not
initialised. -/
def SCurve.curveKeyPair (rnd junk : Bytes) : Bytes × Bytes := (C.xBase rnd, rnd ++ junk)

/-- `hash::hash` (src/hash.cpp:10-36); a key is given or not -/
def SCurve.hashApi (size : Nat) (msg : Bytes) (key : Option Bytes) : Out Bytes :=
  if size < 16 ∨ 64 < size then .err .foreign
  else match key with
    | some k => if 64 < k.length then .err .foreign else .ok (C.blake size k msg)
    | none => .ok (C.blake size [] msg)

/-! ### The C functions: what they write -/

/-- `memcpy` of `src` to the start of a buffer: undefined behaviour if it does not fit -/
def copyOut (buf src : Bytes) : Out Bytes := if src.length ≤ buf.length then .ok (src ++ buf.drop src.length) else .ub

/-- The frame of the functions with one output: `false` and nothing written if there was an exception -/
def cOut1 (buf : Bytes) (r : Out Bytes) : Out (Bool × Bytes) := match r with
  | .ok b => (copyOut buf b).bind fun o => .ok (true, o)
  | .err _ => .ok (false, buf)
  | .hang => .hang
  | .ub => .ub

/-- With two outputs -/
def cOut2 (buf1 buf2 : Bytes) (r : Out (Bytes × Bytes)) : Out (Bool × Bytes × Bytes) := match r with
  | .ok (a, b) => (copyOut buf1 a).bind fun o1 => (copyOut buf2 b).bind fun o2 => .ok (true, o1, o2)
  | .err _ => .ok (false, buf1, buf2)
  | .hang => .hang
  | .ub => .ub

/-- `session_ed25519_key_pair_seed` (src/ed25519.cpp:105-119); `session_ed25519_key_pair` (src/ed25519.cpp:91-103) is the
same for a random seed -/
def SCurve.cEdKeyPair (seed pkOut skOut : Bytes) : Out (Bool × Bytes × Bytes) := cOut2 pkOut skOut (C.edKeyPair seed)

/-- `session_seed_for_ed_privkey` (src/ed25519.cpp:121-130) -/
def cSeedFor (sk seedOut : Bytes) : Out (Bool × Bytes) := cOut1 seedOut (seedFor sk)

/-- `session_ed25519_sign` (src/ed25519.cpp:132-145) -/
def SCurve.cEdSign (sk msg sigOut : Bytes) : Out (Bool × Bytes) := cOut1 sigOut (C.edSignApi sk msg)

/-- `session_to_curve25519_pubkey` (src/curve25519.cpp:67-76) -/
def SCurve.cToCurvePk (pk out : Bytes) : Out (Bool × Bytes) := cOut1 out (C.toCurvePk pk)

/-- `session_to_curve25519_seckey` (src/curve25519.cpp:78-87) -/
def SCurve.cToCurveSk (sk out : Bytes) : Out (Bool × Bytes) := cOut1 out (C.toCurveSk sk)

/-- `session_curve25519_key_pair` (src/curve25519.cpp:54-65) -/
def SCurve.cCurveKeyPair (rnd junk pkOut skOut : Bytes) : Out (Bool × Bytes × Bytes) :=
  cOut2 pkOut skOut (.ok (C.curveKeyPair rnd junk))

/-- `session_hash` (src/hash.cpp:45-63): an empty key is no key -/
def SCurve.cHash (size : Nat) (msg key out : Bytes) : Out (Bool × Bytes) :=
  cOut1 out (C.hashApi size msg (if key = [] then none else some key))

/-- `session_xed25519_sign` (src/xed25519.cpp:159-172) -/
def SCurve.cXedSign (x msg z out : Bytes) : Out (Bool × Bytes) := cOut1 out (.ok (C.xedSign x msg z))

/-- `session_xed25519_pubkey` (src/xed25519.cpp:182-192) -/
def SCurve.cXedPubkey (x out : Bytes) : Out (Bool × Bytes) := cOut1 out (.ok (C.xToEd x))

/-- Public and secret key of a blinded key pair -/
def pairOf : Out (Bytes × Bytes × Bytes) → Out (Bytes × Bytes)
  | .ok (a, b, _) => .ok (a, b)
  | .err e => .err e
  | .hang => .hang
  | .ub => .ub

/-- `session_blind15_key_pair` (src/blinding.cpp:463-477) -/
def SCurve.cBlind15KeyPair (sk server pkOut skOut : Bytes) : Out (Bool × Bytes × Bytes) := cOut2 pkOut skOut (pairOf (C.keyPair15 sk server))

/-- `session_blind25_key_pair` (src/blinding.cpp:479-493) -/
def SCurve.cBlind25KeyPair (sk server pkOut skOut : Bytes) : Out (Bool × Bytes × Bytes) := cOut2 pkOut skOut (pairOf (C.keyPair25 sk server))

/-- `session_blind15_sign` (src/blinding.cpp:495-510) -/
def SCurve.cBlind15Sign (sk server msg out : Bytes) : Out (Bool × Bytes) := cOut1 out (C.sign15 sk server msg)

/-- `session_blind25_sign` (src/blinding.cpp:512-527) -/
def SCurve.cBlind25Sign (sk server msg out : Bytes) : Out (Bool × Bytes) := cOut1 out (C.sign25 sk server msg)

end Verif
