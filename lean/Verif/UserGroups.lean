import Verif.Convo

/-!
# User groups

Models src/config/user_groups.cpp: the groups, legacy groups and communities of a user: reading,
setting, erasing, counting, iterating, and the conversion to and from the C structs.

`crypto_sign_seed_keypair` is the parameter `pub`: the public key of a seed; the secret key of libsodium
is the seed followed by the public key.
-/

namespace Verif

/-- `base_group_info` (include/session/config/user_groups.hpp:85-103) without the name -/
structure GroupBase where
  priority : Int := 0
  joined : Int := 0
  notify : Notify := .defaulted
  mute : Int := 0
  invited : Bool := false
deriving DecidableEq, Repr

/-- The ranges of the C++ integer types (include/session/config/user_groups.hpp:88-93) -/
def GroupBase.inRange (b : GroupBase) : Bool :=
  int32Ok b.priority && int64Ok b.joined && int64Ok b.mute

/-- The load of a `notify_mode` (src/config/user_groups.cpp:133-137): every known value is kept. -/
def Notify.loadAny (i : Int) : Notify :=
  if i = 1 then .all else if i = 2 then .disabled else if i = 3 then .mentions else .defaulted

/-- `base_group_info::load` (src/config/user_groups.cpp:129-142) -/
def GroupBase.load (d : Dict) : GroupBase :=
  { priority := toInt32 ((maybeInt d [43]).getD 0)
    joined := max 0 ((maybeInt d [106]).getD 0)
    notify := Notify.loadAny (toInt32 ((maybeInt d [64]).getD 0))
    mute := (maybeInt d [33]).getD 0
    invited := (maybeInt d [105]).getD 0 != 0 }

/-- `UserGroups::set_base` (src/config/user_groups.cpp:381-388) -/
def GroupBase.fields (b : GroupBase) : List (Bytes × Option Val) :=
  [ ([43], fNonzero b.priority),
    ([106], fPos b.joined),
    ([64], fPos b.notify.num),
    ([33], fPos b.mute),
    ([105], fFlag b.invited) ]

/-! ### Records stored under an id

The pattern of `get_group`/`get_legacy_group`, `set`, `erase` and the iterators. -/

/-- `if (auto* d = field.dict()) load(*d)` -/
def loadAt {R : Type} (L : Dict → R) : Option Val → Option R
  | some (.dict e) => some (L e)
  | _ => none

/-- `get_group`, `get_legacy_group` (src/config/user_groups.cpp:323-351), `Members::get`
(src/config/groups/members.cpp:18-28): the record of an id with the prefix `pre` -/
def Client.getRec {R : Type} (c : Client) (P : List Bytes) (pre : Bytes) (L : Bytes → Dict → R) (id : Bytes) :
    Out (Option R) :=
  (idBytes id pre).bind fun pk => .ok (loadAt (L id) (c.get (P ++ [pk])))

/-- `set(...)` (src/config/user_groups.cpp:390-435, src/config/groups/members.cpp:43-82): write the fields
of the record of an id -/
def Client.setRec (S : Sys) (c : Client) (P : List Bytes) (pre id : Bytes)
    (fs : Bytes → List (Bytes × Option Val)) : Client × Out Unit :=
  match idBytes id pre with
  | .ok pk => c.writeAll S (entries (P ++ [pk]) (fs pk))
  | .err e => (c, .err e)
  | .hang => (c, .hang)
  | .ub => (c, .ub)

/-- `erase(...)` with `erase_impl` (src/config/user_groups.cpp:437-442,459-464,
src/config/groups/members.cpp:109-115) -/
def Client.eraseRec (S : Sys) (c : Client) (P : List Bytes) (pre id : Bytes) : Client × Out Bool :=
  match idBytes id pre with
  | .ok pk => c.eraseImpl S (P ++ [pk])
  | .err e => (c, .err e)
  | .hang => (c, .hang)
  | .ub => (c, .ub)

/-- What an iterator makes of one entry (src/config/user_groups.cpp:531-560): entries that are not a dict
under a 33-byte key with the right first byte are skipped. -/
def recEntry {R : Type} (b : UInt8) (L : Bytes → Dict → R) (x : Bytes × Val) : Option R :=
  if x.1.length = 33 ∧ x.1.head? = some b then loadAt (L (toHex x.1)) (some x.2) else none

/-- Iteration over a table -/
def Client.recs {R : Type} (c : Client) (P : List Bytes) (b : UInt8) (L : Bytes → Dict → R) : List R :=
  (c.table P).filterMap (recEntry b L)

/-! ### Groups -/

/-- `group_info` (include/session/config/user_groups.hpp:208-240) -/
structure Group where
  id : Bytes
  base : GroupBase := {}
  name : Bytes := []
  secret : Bytes := []
  auth : Bytes := []
deriving DecidableEq, Repr

/-- `group_info::setKicked` (src/config/user_groups.cpp:249-252) -/
def Group.setKicked (g : Group) : Group := { g with secret := [], auth := [] }

/-- `group_info::kicked` (src/config/user_groups.cpp:254-256) -/
def Group.kicked (g : Group) : Bool := g.secret.isEmpty && g.auth.isEmpty

/-- The secret key in a record (src/config/user_groups.cpp:238-245).  `id` is compared with the hex of
the public key, in lower case. -/
def loadSecret (pub : Bytes → Bytes) (id : Bytes) (d : Dict) : Bytes :=
  match maybeStr d [75] with
  | some s => if s.length = 32 ∧ id = toHex (3 :: pub s) then s ++ pub s else []
  | none => []

/-- The authentication data in a record (src/config/user_groups.cpp:246-247) -/
def loadAuth (d : Dict) : Bytes :=
  match maybeStr d [115] with
  | some s => if s.length = 100 then s else []
  | none => []

/-- `group_info::load` (src/config/user_groups.cpp:230-248) into a record with the given id -/
def Group.load (pub : Bytes → Bytes) (id : Bytes) (d : Dict) : Group :=
  { id := id
    base := GroupBase.load d
    name := (maybeStr d [110]).getD []
    secret := loadSecret pub id d
    auth := loadAuth d }

/-- The secret key ends with the public key of the group (src/config/user_groups.cpp:422-427) -/
def Group.admin (pk : Bytes) (g : Group) : Bool :=
  g.secret.length == 64 && g.secret.drop 32 == pk.drop 1

/-- What `UserGroups::set(const group_info&)` writes for the binary id `pk`
(src/config/user_groups.cpp:413-435): the authentication data is only touched if there is no secret
key. -/
def Group.fields (pk : Bytes) (g : Group) : List (Bytes × Option Val) :=
  g.base.fields ++ ([110], fStr (g.name.take 100)) ::
    (if g.admin pk then [([75], some (.scalar (.str (g.secret.take 32))))]
     else [([75], some (.scalar (.str []))), ([115], fIf (g.auth.length == 100) (.str g.auth))])

/-- `data["g"]` -/
def pathG : List Bytes := [[103]]

/-- `UserGroups::get_group` (src/config/user_groups.cpp:341-351) -/
def Client.getGroup (pub : Bytes → Bytes) (c : Client) (id : Bytes) : Out (Option Group) :=
  c.getRec pathG pre03 (Group.load pub) id

/-- `UserGroups::get_or_construct_group` (src/config/user_groups.cpp:353-358) -/
def Client.groupOr (pub : Bytes → Bytes) (c : Client) (id : Bytes) : Out Group :=
  (c.getGroup pub id).bind fun g => .ok (g.getD { id := id })

/-- `UserGroups::create_group` (src/config/user_groups.cpp:360-373) with the random seed as a
parameter -/
def newGroup (pub : Bytes → Bytes) (seed : Bytes) : Group :=
  { id := toHex (3 :: pub seed), secret := seed ++ pub seed }

/-- `UserGroups::set(const group_info&)` (src/config/user_groups.cpp:413-435) -/
def Client.setGroup (S : Sys) (c : Client) (g : Group) : Client × Out Unit :=
  c.setRec S pathG pre03 g.id fun pk => g.fields pk

/-- `UserGroups::erase_group`, `erase(const group_info&)` (src/config/user_groups.cpp:459-461,474-476) -/
def Client.eraseGroup (S : Sys) (c : Client) (id : Bytes) : Client × Out Bool :=
  c.eraseRec S pathG pre03 id

/-- `UserGroups::size_groups` (src/config/user_groups.cpp:501-505) -/
def Client.groupsSize (c : Client) : Nat := (c.table pathG).length

/-- Iteration from `begin_groups()` (src/config/user_groups.cpp:511-574) -/
def Client.groups (pub : Bytes → Bytes) (c : Client) : List Group := c.recs pathG 3 (Group.load pub)

/-! ### Legacy groups -/

/-- The `std::map` of members: hex id, is admin (include/session/config/user_groups.hpp:190-191) -/
abbrev Members := List (Bytes × Bool)

/-- `legacy_group_info` (include/session/config/user_groups.hpp:106-205) -/
structure Legacy where
  id : Bytes
  base : GroupBase := {}
  name : Bytes := []
  encPub : Bytes := []
  encSec : Bytes := []
  timer : Int := 0
  members : Members := []
deriving DecidableEq, Repr

/-- `legacy_group_info::insert` (src/config/user_groups.cpp:191-201) and `ugroups_legacy_member_add`
(src/config/user_groups.cpp:809-827, which returns false for an invalid id) on the members -/
def insertMember (m : Members) (id : Bytes) (admin : Bool) : Out (Members × Bool) :=
  if checkId id pre05 then
    (if mget id m = some admin then .ok (m, false) else .ok (mput id admin m, true))
  else .err .foreign

/-- `legacy_group_info::erase` (src/config/user_groups.cpp:203-205), `ugroups_legacy_member_remove`
(src/config/user_groups.cpp:829-832) -/
def eraseMember (m : Members) (id : Bytes) : Members × Bool := (mdel id m, (mget id m).isSome)

/-- `legacy_group_info::counts` (src/config/user_groups.cpp:183-189): admins, others -/
def memberCounts (m : Members) : Nat × Nat :=
  (m.countP fun x => x.2, m.countP fun x => !x.2)

/-- A session id in a set of members (src/config/user_groups.cpp:171-173): 33 bytes, the first 5 -/
def memberId : Scalar → Option Bytes
  | .str s => if s.length = 33 ∧ s.head? = some 5 then some (toHex s) else none
  | .int _ => none

/-- `std::map::emplace`: an existing entry is kept -/
def emplace (m : Members) (id : Bytes) (admin : Bool) : Members :=
  if (mget id m).isSome then m else mput id admin m

/-- One of the loops of `legacy_group_info::load` (src/config/user_groups.cpp:168-180) -/
def loadSet (m : Members) (admin : Bool) (s : Option (List Scalar)) : Members :=
  ((s.getD []).filterMap memberId).foldl (fun m id => emplace m id admin) m

/-- The members in a record (src/config/user_groups.cpp:167-180): the set of plain members first -/
def loadMembers (d : Dict) : Members :=
  loadSet (loadSet [] false (maybeSet d [109])) true (maybeSet d [97])

/-- The key pair in a record (src/config/user_groups.cpp:152-160) -/
def loadPair (d : Dict) : Bytes × Bytes := match maybeStr d [107], maybeStr d [75] with
  | some p, some s => if p.length = 32 ∧ s.length = 32 then (p, s) else ([], [])
  | _, _ => ([], [])

/-- `legacy_group_info::load` (src/config/user_groups.cpp:144-181) into a record with the given id -/
def Legacy.load (id : Bytes) (d : Dict) : Legacy :=
  { id := id
    base := GroupBase.load d
    name := (maybeStr d [110]).getD []
    encPub := (loadPair d).1
    encSec := (loadPair d).2
    timer := max 0 ((maybeInt d [69]).getD 0)
    members := loadMembers d }

/-- The set stored for the members with a given status (src/config/user_groups.cpp:402-408) -/
def memberSet (admin : Bool) (m : Members) : List Scalar :=
  (m.filter fun x => x.2 == admin).foldl (fun s x => sput (.str (fromHex x.1)) s) []

/-- An assignment of a set: an empty set erases the field (include/session/config/base.hpp:331-340) -/
def fSet (s : List Scalar) : Option Val := if s = [] then none else some (.set s)

/-- What `UserGroups::set(const legacy_group_info&)` writes (src/config/user_groups.cpp:390-411) -/
def Legacy.fields (g : Legacy) : List (Bytes × Option Val) :=
  let pair := g.encPub.length == 32 && g.encSec.length == 32
  g.base.fields ++
    [ ([110], some (.scalar (.str (g.name.take 100)))),
      ([107], fIf pair (.str g.encPub)),
      ([75], fIf pair (.str g.encSec)),
      ([109], fSet (memberSet false g.members)),
      ([97], fSet (memberSet true g.members)),
      ([69], fPos g.timer) ]

/-- `data["C"]` -/
def pathL : List Bytes := [[67]]

/-- `UserGroups::get_legacy_group` (src/config/user_groups.cpp:323-333) -/
def Client.getLegacy (c : Client) (id : Bytes) : Out (Option Legacy) :=
  c.getRec pathL pre05 Legacy.load id

/-- `UserGroups::get_or_construct_legacy_group` (src/config/user_groups.cpp:335-340) -/
def Client.legacyOr (c : Client) (id : Bytes) : Out Legacy :=
  (c.getLegacy id).bind fun g => .ok (g.getD { id := id })

/-- `UserGroups::set(const legacy_group_info&)` (src/config/user_groups.cpp:390-411) -/
def Client.setLegacy (S : Sys) (c : Client) (g : Legacy) : Client × Out Unit :=
  c.setRec S pathL pre05 g.id fun _ => g.fields

/-- `UserGroups::erase_legacy_group`, `erase(const legacy_group_info&)` (src/config/user_groups.cpp:
462-464,471-473) -/
def Client.eraseLegacy (S : Sys) (c : Client) (id : Bytes) : Client × Out Bool :=
  c.eraseRec S pathL pre05 id

/-- `UserGroups::size_legacy_groups` (src/config/user_groups.cpp:495-499) -/
def Client.legacySize (c : Client) : Nat := (c.table pathL).length

/-- Iteration from `begin_legacy_groups()` (src/config/user_groups.cpp:511-574) -/
def Client.legacies (c : Client) : List Legacy := c.recs pathL 5 Legacy.load

/-! ### Communities -/

/-- `community_info` (include/session/config/user_groups.hpp:243-260): the canonical URL, the room as
spelled (`room()`), the key (empty: none) -/
structure Comm where
  base : Bytes
  room : Bytes
  pubkey : Bytes
  info : GroupBase := {}
deriving DecidableEq, Repr

/-- `community_info::load` (src/config/user_groups.cpp:258-263), as to the room: the stored spelling, if
there is one, which must be acceptable -/
def loadRoom (room : Bytes) (d : Dict) : Out Bytes := match maybeStr d [110] with
  | some n => (canonRoom n).bind fun _ => .ok n
  | none => .ok room

/-- `community_info::load` for an entry that need not be a dict -/
def loadComm (base room pubkey : Bytes) : Option Val → Out (Option Comm)
  | some (.dict e) => (loadRoom room e).bind fun n => .ok (some ⟨base, n, pubkey, GroupBase.load e⟩)
  | _ => .ok none

/-- `UserGroups::get_community(base_url, room)` (src/config/user_groups.cpp:282-295) -/
def Client.getUComm (c : Client) (base room : Bytes) : Out (Option Comm) :=
  (canonUrl base).bind fun b => (canonRoom room).bind fun r =>
    loadComm b room (c.serverKey b) (c.get (roomPath b r))

/-- `UserGroups::get_or_construct_community(base_url, room, pubkey)` (src/config/user_groups.cpp:
302-311) -/
def Client.ucommOr (c : Client) (base room pk : Bytes) : Out Comm :=
  (canonUrl base).bind fun b => (canonRoom room).bind fun r =>
    if pk.length = 32 then
      (loadComm b room pk (c.get (roomPath b r))).bind fun x => .ok (x.getD ⟨b, room, pk, {}⟩)
    else .err .foreign

/-- The writes of `UserGroups::set(const community_info&)` (src/config/user_groups.cpp:375-380) -/
def Comm.writes (b r : Bytes) (x : Comm) : List (List Bytes × Option Val) :=
  (pathO ++ [b, [35]], some (.scalar (.str x.pubkey))) ::
    entries (roomPath b r) (x.info.fields ++ [([110], some (.scalar (.str x.room)))])

/-- `UserGroups::set(const community_info&)` (src/config/user_groups.cpp:375-380) for a community
constructed from the URL, room and key of `x`. -/
def Client.setUComm (S : Sys) (c : Client) (x : Comm) : Client × Out Unit :=
  match canonUrl x.base, canonRoom x.room with
  | .ok b, .ok r =>
    if x.pubkey.length = 32 then c.writeAll S (x.writes b r) else (c, .err .foreign)
  | _, _ => (c, .err .foreign)

/-- What the iterator makes of one room (include/session/config/community.hpp:362-380): rooms that are
not dicts, or for which something throws, are skipped. -/
def uroomEntry (base pk : Bytes) (x : Bytes × Val) : Option Comm :=
  match canonUrl base, canonRoom x.1 with
  | .ok b, .ok _ =>
    if pk.length = 32 then
      match loadComm b x.1 pk (some x.2) with
      | .ok o => o
      | _ => none
    else none
  | _, _ => none

/-- What the iterator makes of one server (include/session/config/community.hpp:314-387) -/
def userverEntry (x : Bytes × Val) : List Comm :=
  match x.2 with
  | .dict e => match maybeStr e [35], mget [82] e with
    | some pk, some (.dict rooms) => rooms.filterMap (uroomEntry x.1 pk)
    | _, _ => []
  | _ => []

/-- Iteration from `begin_communities()` -/
def Client.ucomms (c : Client) : List Comm := (c.table pathO).flatMap userverEntry

/-- An `any_group_info` (include/session/config/user_groups.hpp:262) -/
inductive AnyGroup where
  | group (g : Group)
  | comm (x : Comm)
  | legacy (g : Legacy)
deriving DecidableEq, Repr

/-- Iteration from `begin()` (src/config/user_groups.cpp:511-600): groups, communities, legacy
groups -/
def Client.allGroups (pub : Bytes → Bytes) (c : Client) : List AnyGroup :=
  (c.groups pub).map .group ++ c.ucomms.map .comm ++ c.legacies.map .legacy

/-- `UserGroups::size` (src/config/user_groups.cpp:507-509) -/
def Client.allGroupsSize (c : Client) : Nat := c.commSize + c.legacySize + c.groupsSize

/-! ### The C structs -/

/-- `group_info::into(ugroups_group_info&)` followed by `group_info(const ugroups_group_info&)`
(src/config/user_groups.cpp:207-228) -/
def Group.viaC (g : Group) : Out Group := do
  let name ← copyCStr 101 g.name
  .ok { id := g.id
        base := g.base
        name := cStr name
        secret := if g.secret.length = 64 then g.secret else []
        auth := if g.auth.length = 100 then g.auth else [] }

/-- `legacy_group_info::into` followed by `legacy_group_info(const ugroups_legacy_group_info&)`
(src/config/user_groups.cpp:77-127). -/
def Legacy.viaC (g : Legacy) : Out Legacy := do
  let name ← copyCStr 101 g.name
  let pair := g.encPub.length == 32 && g.encSec.length == 32
  .ok { id := g.id
        base := g.base
        name := cStr name
        encPub := if pair then g.encPub else []
        encSec := if pair then g.encSec else []
        timer := g.timer
        members := g.members }

/-- `community_info::into(ugroups_community_info&)` followed by the constructor from it
(src/config/user_groups.cpp:62-75).  The key is copied with `memcpy` of 32 bytes, whatever its length. -/
def Comm.viaC (x : Comm) : Out Comm := do
  let url ← copyCStr 268 x.base
  let room ← copyCStr 65 x.room
  if x.pubkey.length < 32 then .ub
  else
    let b ← canonUrl (cStr url)
    let _ ← canonRoom (cStr room)
    .ok { x with base := b, room := cStr room, pubkey := x.pubkey.take 32 }

end Verif
