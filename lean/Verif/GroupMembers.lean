import Verif.UserGroups
import Verif.Profile

/-!
# The members and the description of a group

Models src/config/groups/members.cpp (`member`, `Members::get`, `get_or_construct`, `set`, `erase`, `size`,
iteration, the conversion to and from the C struct) and src/config/groups/info.cpp (every getter and
setter of `Info`).
-/

namespace Verif

/-! ### Members -/

/-- `member` (include/session/config/groups/members.hpp:46-266) -/
structure GMember where
  id : Bytes
  name : Bytes := []
  url : Bytes := []
  key : Bytes := []
  admin : Bool := false
  supplement : Bool := false
  invite : Int := 0
  promotion : Int := 0
  removed : Int := 0
deriving DecidableEq, Repr

/-- The ranges of the C++ `int`s (include/session/config/groups/members.hpp:105,154,206) -/
def GMember.inRange (m : GMember) : Bool := int32Ok m.invite && int32Ok m.promotion && int32Ok m.removed

/-- `invite_pending` (include/session/config/groups/members.hpp:139) -/
def GMember.invitePending (m : GMember) : Bool := decide (0 < m.invite)

/-- `promotion_pending` (include/session/config/groups/members.hpp:181) -/
def GMember.promotionPending (m : GMember) : Bool := !m.admin && decide (0 < m.promotion)

/-- `promoted` (include/session/config/groups/members.hpp:202) -/
def GMember.promoted (m : GMember) : Bool := m.admin || m.promotionPending

/-- `invite_failed` (include/session/config/groups/members.hpp:150) -/
def GMember.inviteFailed (m : GMember) : Bool := decide (m.invite = 2)

/-- `promotion_failed` (include/session/config/groups/members.hpp:192) -/
def GMember.promotionFailed (m : GMember) : Bool := !m.admin && decide (m.promotion = 2)

/-- `should_remove_messages` (include/session/config/groups/members.hpp:241) -/
def GMember.removesMessages (m : GMember) : Bool := decide (m.removed = 2)

/-- `is_removed` (include/session/config/groups/members.hpp:229) -/
def GMember.isRemoved (m : GMember) : Bool := decide (0 < m.removed)

/-- `set_invited` (include/session/config/groups/members.hpp:117) -/
def GMember.setInvited (m : GMember) (failed : Bool) : GMember := { m with invite := if failed then 2 else 1 }

/-- `set_accepted` (include/session/config/groups/members.hpp:125-128) -/
def GMember.setAccepted (m : GMember) : GMember := { m with invite := 0, supplement := false }

/-- `set_promoted` (include/session/config/groups/members.hpp:168-170) -/
def GMember.setPromoted (m : GMember) (failed : Bool) : GMember := { m with promotion := if failed then 2 else 1 }

/-- `set_removed` (include/session/config/groups/members.hpp:217-219) -/
def GMember.setRemoved (m : GMember) (messages : Bool) : GMember := { m with removed := if messages then 2 else 1 }

/-- A status in a record: an `int` variable (src/config/groups/members.cpp:72-75) -/
def loadStatus (d : Dict) (k : Bytes) : Int := toInt32 ((maybeInt d k).getD 0)

/-- `admin` in a record (src/config/groups/members.cpp:71) -/
def loadAdmin (d : Dict) : Bool := (maybeInt d [65]).getD 0 != 0

/-- `member::load` (src/config/groups/members.cpp:59-77) into a record with the given id -/
def GMember.load (id : Bytes) (d : Dict) : GMember :=
  let adm := loadAdmin d
  let inv := if adm then 0 else loadStatus d [73]
  let pro := if adm then 0 else loadStatus d [80]
  { id := id
    name := (maybeStr d [110]).getD []
    url := (loadPic d).1
    key := (loadPic d).2
    admin := adm
    supplement := decide (0 < inv) && !(adm || (!adm && decide (0 < pro))) && (maybeInt d [115]).getD 0 != 0
    invite := inv
    promotion := pro
    removed := loadStatus d [82] }

/-- What `Members::set` writes (src/config/groups/members.cpp:37-57) -/
def GMember.fields (m : GMember) : List (Bytes × Option Val) :=
  let pic := picOk m.url m.key
  [ ([110], some (.scalar (.str (m.name.take 100)))),
    ([112], fIf pic (.str m.url)),
    ([113], fIf pic (.str m.key)),
    ([65], fFlag m.admin),
    ([80], fPos (if m.admin then 0 else m.promotion)),
    ([73], fPos (if m.admin then 0 else m.invite)),
    ([115], fFlag m.supplement),
    ([82], fPos m.removed) ]

/-- `data["m"]` -/
def pathM : List Bytes := [[109]]

/-- `Members::get` (src/config/groups/members.cpp:16-26) -/
def Client.getMember (c : Client) (id : Bytes) : Out (Option GMember) := c.getRec pathM pre05 GMember.load id

/-- `Members::get_or_construct` (src/config/groups/members.cpp:28-33) -/
def Client.memberOr (c : Client) (id : Bytes) : Out GMember :=
  (c.getMember id).bind fun m => .ok (m.getD { id := id })

/-- `Members::set` (src/config/groups/members.cpp:35-57) -/
def Client.setMember (S : Sys) (c : Client) (m : GMember) : Client × Out Unit :=
  c.setRec S pathM pre05 m.id fun _ => m.fields

/-- `Members::erase` (src/config/groups/members.cpp:116-122) -/
def Client.eraseGMember (S : Sys) (c : Client) (id : Bytes) : Client × Out Bool := c.eraseRec S pathM pre05 id

/-- `Members::size` (src/config/groups/members.cpp:124-128) -/
def Client.membersSize (c : Client) : Nat := (c.table pathM).length

/-- The iterator (src/config/groups/members.cpp:79-114): entries that are not a dict under a 33-byte key
are skipped; the constructor of `member` (lines 130-132) throws for a key that does not start with
0x05. -/
def iterRecs {R : Type} (L : Bytes → Dict → R) : Dict → Out (List R)
  | [] => .ok []
  | (k, .dict e) :: t =>
    if k.length = 33 then
      (if checkId (toHex k) pre05 then (iterRecs L t).bind fun l => .ok (L (toHex k) e :: l)
       else .err .foreign)
    else iterRecs L t
  | (_, _) :: t => iterRecs L t

/-- `for (auto& m : members)` -/
def Client.members (c : Client) : Out (List GMember) := iterRecs GMember.load (c.table pathM)

/-- One of the known values of a status, otherwise 0 (src/config/groups/members.cpp:143-147) -/
def knownStatus (i : Int) : Int := if i = 1 ∨ i = 2 then i else 0

/-- `member::into(config_group_member&)` followed by `member(const config_group_member&)`
(src/config/groups/members.cpp:134-167) -/
def GMember.viaC (m : GMember) : Out GMember := do
  let name ← copyCStr 101 m.name
  let url ← copyPic m.url m.key
  .ok { id := m.id
        name := cStr name
        url := cStr url
        key := if cStr url = [] then [] else m.key
        admin := m.admin
        supplement := m.supplement
        invite := knownStatus m.invite
        promotion := knownStatus m.promotion
        removed := knownStatus m.removed }

/-! ### Info -/

/-- A string that is there and not empty (src/config/groups/info.cpp:26-30,38-42) -/
def nonEmptyStr : Option Bytes → Option Bytes
  | some s => if s = [] then none else some s
  | none => none

/-- `Info::get_name` (src/config/groups/info.cpp:26-30) -/
def Client.infoName (c : Client) : Option Bytes := nonEmptyStr (c.strAt [[110]])

/-- `Info::set_name` (src/config/groups/info.cpp:32-36) -/
def Client.setInfoName (S : Sys) (c : Client) (n : Bytes) : Client × Out Unit :=
  c.setNonempty S [[110]] (n.take 100)

/-- `Info::get_description` (src/config/groups/info.cpp:38-42) -/
def Client.infoDescr (c : Client) : Option Bytes := nonEmptyStr (c.strAt [[111]])

/-- `Info::set_description` (src/config/groups/info.cpp:44-48) -/
def Client.setInfoDescr (S : Sys) (c : Client) (n : Bytes) : Client × Out Unit :=
  c.setNonempty S [[111]] (n.take 2000)

/-- `Info::get_profile_pic` (src/config/groups/info.cpp:50-57) is, line for line, the one of
`UserProfile`: `Client.getPic`; likewise `set_profile_pic` (lines 59-65), `Client.setPic`. -/
def Client.infoPic (c : Client) : Bytes × Bytes := c.getPic

/-- `Info::get_expiry_timer` (src/config/groups/info.cpp:67-71): whatever integer is there -/
def Client.infoExpiry (c : Client) : Option Int := c.intAt [[69]]

/-- `Info::set_expiry_timer` (src/config/groups/info.cpp:73-75) -/
def Client.setInfoExpiry (S : Sys) (c : Client) (i : Int) : Client × Out Unit := c.setPositive S [[69]] i

/-- `Info::get_created` (src/config/groups/info.cpp:81-85) -/
def Client.infoCreated (c : Client) : Option Int := c.intAt [[99]]

/-- `Info::set_created` (src/config/groups/info.cpp:77-79) -/
def Client.setInfoCreated (S : Sys) (c : Client) (i : Int) : Client × Out Unit := c.setPositive S [[99]] i

/-- `Info::get_delete_before` (src/config/groups/info.cpp:91-95) -/
def Client.infoDeleteBefore (c : Client) : Option Int := c.intAt [[100]]

/-- `Info::set_delete_before` (src/config/groups/info.cpp:87-89) -/
def Client.setInfoDeleteBefore (S : Sys) (c : Client) (i : Int) : Client × Out Unit := c.setPositive S [[100]] i

/-- `Info::get_delete_attach_before` (src/config/groups/info.cpp:101-105) -/
def Client.infoDeleteAttach (c : Client) : Option Int := c.intAt [[68]]

/-- `Info::set_delete_attach_before` (src/config/groups/info.cpp:97-99) -/
def Client.setInfoDeleteAttach (S : Sys) (c : Client) (i : Int) : Client × Out Unit := c.setPositive S [[68]] i

/-- `Info::is_destroyed` (src/config/groups/info.cpp:111-115) -/
def Client.infoDestroyed (c : Client) : Bool := match c.intAt [[33]] with
  | some i => decide (0 < i)
  | none => false

/-- `Info::destroy_group` (src/config/groups/info.cpp:107-109) -/
def Client.destroyInfo (S : Sys) (c : Client) : Client × Out Unit := c.setFlag S [[33]] true

end Verif
