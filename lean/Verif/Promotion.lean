import Verif.GroupState
import Verif.GroupMsg

/-!
# Becoming an admin

Models `Keys::load_admin_key` (src/config/groups/keys.cpp:212-233) with its effect on all three objects of a group
(`ConfigSig::set_sig_keys`, src/config/base.cpp:536-557).
-/

namespace Verif

/-- `set_sig_keys(secret)` (src/config/base.cpp:536-557) on an object: its messages are signed with that key, and
verified with its public key. -/
def Sys.signing (P : GPrims) (S : Sys) (sk : Bytes) : Sys :=
  { S with env := { S.env with verifier := some (P.verify (P.edPub sk)), signer := some (P.sign sk) } }

/-- `set_sig_pubkey(pubkey)` (src/config/base.cpp:559-568) on an object without keys: what the constructors do for
a member (src/config/base.cpp:352-376). -/
def Sys.verifying (P : GPrims) (S : Sys) (pk : Bytes) : Sys :=
  { S with env := { S.env with verifier := some (P.verify pk), signer := none } }

/-- `load_admin_key(secret, info, members)` (src/config/groups/keys.cpp:212-233): the keys of the three objects
afterwards; nothing else in them changes. -/
def GroupSys.loadAdminKey (U : UPrims) (G : GroupSys) (secret : Bytes) : Out GroupSys :=
  match G.e.loadAdminKey U secret with
  | .ok e =>
    if G.e.admin then .ok G
    else match e.groupSk with
      | some sk => .ok ⟨G.P, e, G.SI.signing U.toGPrims sk, G.SM.signing U.toGPrims sk⟩
      | none => .ok G
  | .err x => .err x
  | .hang => .hang
  | .ub => .ub

/-- The device of a member, as constructed without the group's secret key: all three objects know the group's public
key only. -/
structure GroupSys.MemberDevice (U : UPrims) (G : GroupSys) : Prop where
  p : G.P = U.toGPrims
  k : G.e.groupSk = none
  i : G.SI = G.SI.verifying U.toGPrims G.e.groupPk
  m : G.SM = G.SM.verifying U.toGPrims G.e.groupPk

/-! ### The signing keys of one object -/

/-- `_sign_pk`, `_sign_sk` of `ConfigSig` (include/session/config/base.hpp:58-59): with the first the object has a
verifier, with the second a signer. -/
structure SigKeys where
  pk : Option Bytes := none
  sk : Option Bytes := none
deriving DecidableEq, Repr

/-- The calls that set them -/
inductive SigCall where
  /-- `set_sig_keys(secret)` (src/config/base.cpp:536-557) -/
  | keys (secret : Bytes)
  /-- `set_sig_pubkey(pubkey)` (src/config/base.cpp:559-569) -/
  | pubkey (pk : Bytes)
  /-- `clear_sig_keys()` (src/config/base.cpp:571-576) -/
  | clear
deriving DecidableEq, Repr

/-- One call: the keys afterwards, and whether it throws.  `set_sig_pubkey` leaves the secret key and the signer
as they are. -/
def SigKeys.call (P : GPrims) (k : SigKeys) : SigCall → SigKeys × Bool
  | .keys s => if s.length ≠ 64 then (k, true) else (⟨some (P.edPub s), some s⟩, false)
  | .pubkey p => if p.length ≠ 32 then (k, true) else ({ k with pk := some p }, false)
  | .clear => (⟨none, none⟩, false)

/-- A sequence of such calls (src/config/base.cpp:536-576) -/
def SigKeys.run (P : GPrims) (k : SigKeys) (cs : List SigCall) : SigKeys := cs.foldl (fun k c => (k.call P c).1) k

/-- The callbacks of an object with these keys -/
def SigKeys.env (P : GPrims) (k : SigKeys) (env : Env) : Env :=
  { env with verifier := k.pk.map P.verify, signer := k.sk.map P.sign }

/-- `init_sig_keys(pubkey, secret)` (src/config/base.cpp:365-376), called by the constructor -/
def SigKeys.init (P : GPrims) (pubkey secret : Option Bytes) : Out SigKeys :=
  match secret, pubkey with
  | some s, some p =>
    if s.length < 32 then .err .foreign
    else if p ≠ s.drop 32 then .err .foreign
    else if s.length ≠ 64 then .err .foreign
    else .ok ⟨some (P.edPub s), some s⟩
  | some s, none => if s.length ≠ 64 then .err .foreign else .ok ⟨some (P.edPub s), some s⟩
  | none, some p => if p.length ≠ 32 then .err .foreign else .ok ⟨some p, none⟩
  | none, none => .ok ⟨none, none⟩

end Verif
