import Verif.CErr
import Verif.Iter

/-!
# Communities and conversations through the C interface

Models the C functions for communities of src/config/convo_info_volatile.cpp and src/config/user_groups.cpp, and the C loops
over conversations and groups.  A C struct is what its fields hold; a `char` array holds the string copied into it, followed
by a NUL (`copyCStr` is undefined behaviour when it does not fit).  An outcome `.err` of a C function means that the exception
leaves it.
-/

namespace Verif

/-! ### The messages -/

/-- The message of the exception `canonical_url` throws (src/config/community.cpp:109, 131, 139, 149, 182) -/
def urlMsg (u : Bytes) : Bytes := match scanProto u with
  | .ok (_, r) =>
    if (scanHost false r).1.length < 4 ∨ ¬ (46 ∈ (scanHost false r).1) ∨ (scanHost false r).1.getLast? = some 46 then
      asc "Invalid community URL: invalid hostname".toList
    else match scanPort (scanHost false r).2 with
      | .ok (_, t) =>
        if dropSlash t ≠ [] then asc "Invalid community URL: found unexpected trailing value".toList
        else asc "Invalid community URL: base URL is too long".toList
      | _ => asc "Invalid community URL: invalid port".toList
  | _ => asc "Invalid community URL: invalid/missing protocol://".toList

/-- The message of the exception `canonical_room` throws (src/config/community.cpp:159-171) -/
def roomMsg (r : Bytes) : Bytes :=
  if (lower r).length > roomMax then asc "Invalid community room: room token is too long".toList
  else if r = [] then asc "Invalid community room: room token cannot be empty".toList
  else asc "Invalid community URL: room token contains invalid characters".toList

/-- `ConvoInfoVolatile`: the room is made canonical before the URL (src/config/convo_info_volatile.cpp:130, 151) -/
def convoCommMsg (base room : Bytes) : Bytes := match canonRoom room with
  | .ok _ => urlMsg base
  | _ => roomMsg room

/-- `UserGroups`: the constructor sets the URL first (src/config/community.cpp:21-24), and `load` the room as stored, if the
record has it (src/config/user_groups.cpp:257-262) -/
def Client.ucommMsg (c : Client) (base room : Bytes) : Bytes := match canonUrl base, canonRoom room with
  | .ok b, .ok r => match c.get (roomPath b r) with
    | some (.dict e) => roomMsg ((maybeStr e [110]).getD room)
    | _ => roomMsg room
  | .ok _, _ => roomMsg room
  | _, _ => urlMsg base

/-! ### The structs -/

/-- `convo_info_volatile_1to1`, `_group`, `_legacy_group` (include/session/config/convo_info_volatile.h:10-15, 27-38); the id
has 67 bytes -/
structure CConvoRec where
  id : Bytes
  convo : Convo
deriving DecidableEq

/-- `convo_info_volatile_community` (include/session/config/convo_info_volatile.h:17-25) -/
structure CConvoComm where
  url : Bytes
  room : Bytes
  pubkey : Bytes
  convo : Convo
deriving DecidableEq

/-- `ugroups_community_info` (include/session/config/user_groups.h:75-90) -/
structure CUComm where
  url : Bytes
  room : Bytes
  pubkey : Bytes
  info : GroupBase
deriving DecidableEq

/-- `memcpy` of `n` bytes out of a string: reading beyond its end (and the NUL) is undefined behaviour -/
def copyFrom (n : Nat) (s : Bytes) : Out Bytes := if s.length < n then .ub else .ok (s.take n)

/-- `into` for ids: `memcpy(c.session_id, session_id.data(), 67)`, which takes the NUL `std::string` keeps at the end
(src/config/convo_info_volatile.cpp:36-40, 63-67, 79-83) -/
def intoRec (id : Bytes) (x : Convo) : Out CConvoRec := (copyFrom 67 (id ++ [0])).bind fun i => .ok ⟨i, x⟩

/-- `convo::community::into` (src/config/convo_info_volatile.cpp:46-54) -/
def CommConvo.into (x : CommConvo) : Out CConvoComm :=
  (copyCStr 268 x.base).bind fun u => (copyCStr 65 x.room).bind fun r => (copyFrom 32 x.pubkey).bind fun k =>
    .ok ⟨u, r, k, x.convo⟩

/-- `community_info::into` (src/config/user_groups.cpp:68-75); the room is the one as spelled by the user -/
def Comm.into (x : Comm) : Out CUComm :=
  (copyCStr 268 x.base).bind fun u => (copyCStr 65 x.room).bind fun r => (copyFrom 32 x.pubkey).bind fun k =>
    .ok ⟨u, r, k, x.info⟩

/-! ### Getters, setters, erasers -/

/-- `convo_info_volatile_get_community` (src/config/convo_info_volatile.cpp:526-542) -/
def Client.cCommGet (c : Client) (base room : Bytes) : Out (CReply CConvoComm) :=
  cGet (convoCommMsg base room) CommConvo.into (c.getComm base room)

/-- `convo_info_volatile_get_or_construct_community` (src/config/convo_info_volatile.cpp:543-558); `pk` is the 32 bytes the
pointer points at -/
def Client.cCommOr (c : Client) (base room pk : Bytes) : Out (CReply CConvoComm) :=
  cGet (convoCommMsg base room) CommConvo.into ((c.commConvo base room pk).bind fun r => .ok (some r))

/-- `convo_info_volatile_set_community` (src/config/convo_info_volatile.cpp:621-624, 42-44): no handler -/
def Client.cCommSet (S : Sys) (now : Int) (c : Client) (s : CConvoComm) : Client × Out Unit :=
  c.setComm S now (cStr s.url) (cStr s.room) s.pubkey s.convo

/-- `convo_info_volatile_set_1to1`, `_set_group`, `_set_legacy_group` with the struct (src/config/convo_info_volatile.cpp:33,
60, 76, 617-632): 66 characters of the id are taken -/
def Client.cRecSet (S : Sys) (now : Int) (c : Client) (k : ConvoKind) (s : CConvoRec) : Client × Out Unit :=
  c.setConvo S now k (s.id.take 66) s.convo

/-- `convo_info_volatile_erase_community`, `user_groups_erase_community` (src/config/convo_info_volatile.cpp:641-648,
src/config/user_groups.cpp:736-743) -/
def Client.cCommErase (S : Sys) (c : Client) (base room : Bytes) : Client × Out Bool := cErase (c.eraseComm S base room)

/-- `user_groups_get_community` (src/config/user_groups.cpp:624-637) -/
def Client.cUCommGet (c : Client) (base room : Bytes) : Out (CReply CUComm) :=
  cGet (c.ucommMsg base room) Comm.into (c.getUComm base room)

/-- `user_groups_get_or_construct_community` (src/config/user_groups.cpp:638-655) -/
def Client.cUCommOr (c : Client) (base room pk : Bytes) : Out (CReply CUComm) :=
  cGet (c.ucommMsg base room) Comm.into ((c.ucommOr base room pk).bind fun r => .ok (some r))

/-- `user_groups_set_community` (src/config/user_groups.cpp:720-723, 62-66): no handler -/
def Client.cUCommSet (S : Sys) (c : Client) (s : CUComm) : Client × Out Unit :=
  c.setUComm S ⟨cStr s.url, cStr s.room, s.pubkey, s.info⟩

/-! ### Loops -/

/-- The four structs a loop over the conversations fills -/
inductive CConvoAny where
  | oneToOne (s : CConvoRec)
  | group (s : CConvoRec)
  | comm (s : CConvoComm)
  | legacy (s : CConvoRec)
deriving DecidableEq

/-- The four `convo_info_volatile_it_is_...` asked in turn, as the documentation shows it: the one for the type of the
conversation fills its struct (src/config/convo_info_volatile.cpp:731-762) -/
def ConvoAny.into : ConvoAny → Out CConvoAny
  | .oneToOne id x => (intoRec id x).bind fun s => .ok (.oneToOne s)
  | .group id x => (intoRec id x).bind fun s => .ok (.group s)
  | .comm x => x.into.bind fun s => .ok (.comm s)
  | .legacy id x => (intoRec id x).bind fun s => .ok (.legacy s)

/-- The three structs of a loop over the groups -/
inductive CAnyGroup where
  | group (g : Group)
  | comm (s : CUComm)
  | legacy (g : Legacy)
deriving DecidableEq

/-- The three `user_groups_it_is_...` (src/config/user_groups.cpp:893-916), with the structs of groups and legacy groups as
`Group.viaC` and `Legacy.viaC` describe them.  The pointer to the members in the struct of a legacy group is null or from
an earlier call: a struct never initialised is not modelled. -/
def AnyGroup.into : AnyGroup → Out CAnyGroup
  | .group g => g.viaC.bind fun g => .ok (.group g)
  | .comm x => x.into.bind fun s => .ok (.comm s)
  | .legacy g => g.viaC.bind fun g => .ok (.legacy g)

/-! ### Members of a legacy group -/

/-- `ugroups_legacy_member_add` (src/config/user_groups.cpp:807-825) -/
def cMemberAdd (m : Members) (id : Bytes) (admin : Bool) : Members × Bool :=
  if checkId id pre05 then
    match mget id m with
    | none => (memplace id admin m, true)
    | some a => if a = admin then (m, false) else (mput id admin m, true)
  else (m, false)

/-- `ugroups_legacy_members_count` (src/config/user_groups.cpp:832-852): total, and what is stored where the two pointers
point, if they are not null -/
def cMemberCount (m : Members) (wantMembers wantAdmins : Bool) : Nat × Option Nat × Option Nat :=
  m.foldl (fun r x => (r.1,
      if x.2 then r.2.1 else r.2.1.map (· + 1),
      if x.2 then r.2.2.map (· + 1) else r.2.2))
    (m.length, if wantMembers then some 0 else none, if wantAdmins then some 0 else none)

/-- `ugroups_group_set_kicked` (src/config/user_groups.cpp:757-761): the struct with neither key nor authentication data;
`ugroups_group_is_kicked` (762-764) -/
def Group.cKick (g : Group) : Group := { g with secret := [], auth := [] }
/-- `ugroups_group_is_kicked` (src/config/user_groups.cpp:762-764) -/
def Group.cKicked (g : Group) : Bool := !(g.auth.length == 100 || g.secret.length == 64)

end Verif
