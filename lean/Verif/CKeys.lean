import Verif.CErr
import Verif.CMem
import Verif.CCrypt
import Verif.Promotion

/-!
# The group keys through the C interface

src/config/groups/keys.cpp:1372-1541 and 1590-1612: `groups_keys_init`, `groups_keys_size`, `group_keys_get_key`,
`groups_keys_is_admin`, `groups_keys_load_admin_key`, `groups_keys_rekey`, `groups_keys_pending_config`,
`groups_keys_load_message`, `groups_keys_current_hashes`, `groups_keys_needs_rekey`, `groups_keys_needs_dump`,
`groups_keys_dump`, `groups_keys_key_supplement`, `groups_keys_current_generation`.  The texts of exceptions are arguments:
`what` is the text of the exception the call would throw.
-/

namespace Verif

/-- A `config_group_keys` (include/session/config/groups/keys.h) with the `Info` and `Members` objects it is used with: the error
buffer, and whether `last_error` points to it -/
structure CKeys where
  G : GroupSys
  g : GState
  buf : Bytes
  err : Bool

/-- What a C program reads at `last_error` -/
def CKeys.lastError (k : CKeys) : Option Bytes := if k.err then some (cStr k.buf) else none

/-- `set_error` and `return false` (src/config/groups/keys.cpp:1383-1389) -/
def CKeys.fail {R : Type} (k : CKeys) (what : Bytes) : Out (CKeys × Option R) :=
  (keysError k.buf what).bind fun b => .ok ({ k with buf := b, err := true }, none)

/-- `groups_keys_init` (src/config/groups/keys.cpp:1392-1430): the new object, or what is in the caller's error buffer.  `dump` is
the buffer, or a null pointer; the lengths of the three Ed25519 keys are fixed by the interface, so that the constructor's checks
of them succeed. -/
def cKeysInit (G : GroupSys) (info members : Client) (dump : Option Bytes) (buf error what : Bytes) : Out (CKeys ⊕ Bytes) :=
  match (match dump with
    | some (x :: t) => GState.restore G (x :: t) info members
    | _ => .ok ⟨.init, info, members⟩) with
  | .ok g => .ok (.inl ⟨G, g, buf, false⟩)
  | .err _ => (initError error what).bind fun e => .ok (.inr e)
  | .hang => .hang
  | .ub => .ub

/-- `groups_keys_size` (src/config/groups/keys.cpp:1432-1434) -/
def CKeys.size (k : CKeys) : Nat := k.g.keys.size

/-- `group_keys_get_key` (src/config/groups/keys.cpp:1436-1441): the 32 bytes at the returned pointer, or null -/
def CKeys.getKey (k : CKeys) (n : Nat) : Out (Option Bytes) :=
  if n ≥ k.g.keys.groupKeys.length then .ok none else match k.g.keys.groupKeys[n]? with
    | some x => (readN x 32).bind fun x => .ok (some x)
    | none => .ub

/-- `groups_keys_is_admin` (src/config/groups/keys.cpp:1443-1445) -/
def CKeys.isAdmin (k : CKeys) : Bool := k.G.e.admin

/-- `groups_keys_load_admin_key` (src/config/groups/keys.cpp:1447-1462) -/
def CKeys.loadAdmin (U : UPrims) (k : CKeys) (secret what : Bytes) : Out (CKeys × Option Unit) :=
  (readN secret 32).bind fun s => match k.G.loadAdminKey U s with
    | .ok G => .ok ({ k with G := G }, some ())
    | .err _ => k.fail what
    | .hang => .hang
    | .ub => .ub

/-- `groups_keys_rekey` (src/config/groups/keys.cpp:1464-1484) -/
def CKeys.rekey (k : CKeys) (what : Bytes) : Out (CKeys × Option Bytes) := match k.g.rekey k.G with
  | (g, .ok m) => .ok ({ k with g := g }, some m)
  | (g, .err _) => { k with g := g }.fail what
  | (_, .hang) => .hang
  | (_, .ub) => .ub

/-- `groups_keys_pending_config` (src/config/groups/keys.cpp:1486-1495) -/
def CKeys.pending (k : CKeys) : Option Bytes := k.g.keys.pendingConfig?

/-- `groups_keys_load_message` (src/config/groups/keys.cpp:1497-1519): it returns true also if the message brought no key -/
def CKeys.loadMsg (k : CKeys) (hash data : Bytes) (len : Nat) (ts : Int) (what : Bytes) : Out (CKeys × Option Unit) :=
  (readN data len).bind fun d => match k.g.load k.G (cStr hash) d ts with
    | (g, .ok _) => .ok ({ k with g := g }, some ())
    | (g, .err _) => { k with g := g }.fail what
    | (_, .hang) => .hang
    | (_, .ub) => .ub

/-- `groups_keys_current_hashes` (src/config/groups/keys.cpp:1521-1523); `current_hashes()` is an unordered set, `ord` the order in
which it is iterated over. -/
def CKeys.hashes (ord : List Bytes) (b : Blk) : Out Blk := makeStringList ord b

/-- `groups_keys_needs_rekey`, `groups_keys_needs_dump` (src/config/groups/keys.cpp:1525-1531) -/
def CKeys.needsRekey (k : CKeys) : Bool := k.g.keys.needsRekey k.G.e.admin
/-- `groups_keys_needs_dump` (src/config/groups/keys.cpp:1529-1531) -/
def CKeys.needsDump (k : CKeys) : Bool := k.g.keys.needsDump

/-- `groups_keys_dump` (src/config/groups/keys.cpp:1533-1540) -/
def CKeys.dump (m0 : Bool) (k : CKeys) : CKeys × CBuf :=
  ({ k with g := { k.g with keys := k.g.keys.dump.1 } }, toCBuf m0 k.g.keys.dump.2)

/-- `groups_keys_key_supplement` (src/config/groups/keys.cpp:1590-1608) -/
def CKeys.supplement (k : CKeys) (sids : List Bytes) (what : Bytes) : Out (CKeys × Option Bytes) :=
  match k.g.keys.supplement k.G.P k.G.e (sids.map cStr) with
  | .ok m => .ok (k, some m)
  | .err _ => k.fail what
  | .hang => .hang
  | .ub => .ub

/-- `groups_keys_current_generation` (src/config/groups/keys.cpp:1610-1612) and `current_generation`
(include/session/config/groups/keys.hpp:355) -/
def CKeys.generation (k : CKeys) : Int := match k.g.keys.keys.getLast? with
  | some x => toInt32 x.gen
  | none => 0

/-! ### Programs -/

/-- A call of one of the functions that change the object or its `last_error` -/
inductive KCall where
  | loadAdmin (secret what : Bytes)
  | rekey (what : Bytes)
  | loadMsg (hash data : Bytes) (len : Nat) (ts : Int) (what : Bytes)
  | dump
  | supplement (sids : List Bytes) (what : Bytes)

/-- The object after the call, and whether it returned true -/
def CKeys.call (U : UPrims) (k : CKeys) : KCall → Out (CKeys × Bool)
  | .loadAdmin s w => (k.loadAdmin U s w).bind fun r => .ok (r.1, r.2.isSome)
  | .rekey w => (k.rekey w).bind fun r => .ok (r.1, r.2.isSome)
  | .loadMsg h d n t w => (k.loadMsg h d n t w).bind fun r => .ok (r.1, r.2.isSome)
  | .dump => .ok ((k.dump true).1, true)
  | .supplement s w => (k.supplement s w).bind fun r => .ok (r.1, r.2.isSome)

/-- A program that makes calls, whatever they return -/
def CKeys.run (U : UPrims) (k : CKeys) : List KCall → Out CKeys
  | [] => .ok k
  | c :: t => (k.call U c).bind fun r => r.1.run U t

end Verif
