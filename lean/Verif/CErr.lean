import Verif.GroupMembers
import Verif.Convo

/-!
# How the C functions report errors

Models the C getters, setters and erasers of src/config/contacts.cpp, src/config/convo_info_volatile.cpp,
src/config/user_groups.cpp and src/config/groups/members.cpp that take a session or group id: which exception messages are
copied where.  A reply is the struct (as the caller reads it back) if the function returned true, and the string
`last_error` points at, if any.  The error buffer of a `config_object` has 256 bytes (include/session/config/base.h:24).
An outcome `.err` of a C function means that the exception leaves it.
-/

namespace Verif

/-- The message of the exception `check_session_id` throws (src/config/internal.cpp:17-19) -/
def sessionIdMsg (pre id : Bytes) : Bytes :=
  asc "Invalid session ID: expected 66 hex digits starting with ".toList ++ pre ++ asc "; got ".toList ++ id

/-- What the caller of a C getter sees -/
structure CReply (T : Type) where
  value : Option T
  error : Option Bytes
deriving DecidableEq

/-- The frame of the getters: `last_error` is cleared, the record copied if there is one, the message of an exception copied
with `copy_c_str(conf->_error_buf, e.what())` (e.g. src/config/contacts.cpp:175-187, 194-206) -/
def cGet {R T : Type} (msg : Bytes) (into : R → Out T) (get : Out (Option R)) : Out (CReply T) := match get with
  | .ok (some x) => (into x).bind fun t => .ok ⟨some t, none⟩
  | .ok none => .ok ⟨none, none⟩
  | .err _ => (copyCStr 256 msg).bind fun m => .ok ⟨none, some m⟩
  | .hang => .hang
  | .ub => .ub

/-- The same with `set_error(conf, e.what())`, which keeps the message in a `std::string` (src/config/base.cpp:600-604) -/
def cGetStr {R T : Type} (msg : Bytes) (into : R → Out T) (get : Out (Option R)) : Out (CReply T) := match get with
  | .ok (some x) => (into x).bind fun t => .ok ⟨some t, none⟩
  | .ok none => .ok ⟨none, none⟩
  | .err _ => .ok ⟨none, some msg⟩
  | .hang => .hang
  | .ub => .ub

/-- `contacts_get` (src/config/contacts.cpp:175-187) -/
def Client.cContactsGet (c : Client) (id : Bytes) : Out (CReply Contact) :=
  cGet (sessionIdMsg pre05 id) Contact.viaC (c.getContact id)

/-- `contacts_get_or_construct` (src/config/contacts.cpp:194-206) -/
def Client.cContactsOr (c : Client) (id : Bytes) : Out (CReply Contact) :=
  cGet (sessionIdMsg pre05 id) Contact.viaC ((c.getOrConstruct id).bind fun r => .ok (some r))

/-- `convo_info_volatile_get_1to1`, `_get_group`, `_get_legacy_group` (src/config/convo_info_volatile.cpp:497-511, 560-574,
588-602); the struct holds the two fields unchanged -/
def Client.cConvoGet (c : Client) (k : ConvoKind) (id : Bytes) : Out (CReply Convo) :=
  cGet (sessionIdMsg k.pre id) .ok (c.getConvo k id)

/-- `convo_info_volatile_get_or_construct_1to1` etc. (src/config/convo_info_volatile.cpp:513-524, 576-587, 604-615) -/
def Client.cConvoOr (c : Client) (k : ConvoKind) (id : Bytes) : Out (CReply Convo) :=
  cGet (sessionIdMsg k.pre id) .ok ((c.convo k id).bind fun r => .ok (some r))

/-- `user_groups_get_legacy_group` (src/config/user_groups.cpp:687-702) -/
def Client.cLegacyGet (c : Client) (id : Bytes) : Out (CReply Legacy) :=
  cGet (sessionIdMsg pre05 id) Legacy.viaC (c.getLegacy id)

/-- `user_groups_get_or_construct_legacy_group` (src/config/user_groups.cpp:704-718) -/
def Client.cLegacyOr (c : Client) (id : Bytes) : Out (CReply Legacy) :=
  cGet (sessionIdMsg pre05 id) Legacy.viaC ((c.legacyOr id).bind fun r => .ok (some r))

/-- `user_groups_get_group` (src/config/user_groups.cpp:656-668) -/
def Client.cGroupGet (pub : Bytes → Bytes) (c : Client) (id : Bytes) : Out (CReply Group) :=
  cGetStr (sessionIdMsg pre03 id) Group.viaC (c.getGroup pub id)

/-- `user_groups_get_or_construct_group` (src/config/user_groups.cpp:669-679) -/
def Client.cGroupOr (pub : Bytes → Bytes) (c : Client) (id : Bytes) : Out (CReply Group) :=
  cGetStr (sessionIdMsg pre03 id) Group.viaC ((c.groupOr pub id).bind fun r => .ok (some r))

/-- `groups_members_get` (src/config/groups/members.cpp:191-204) -/
def Client.cMemberGet (c : Client) (id : Bytes) : Out (CReply GMember) :=
  cGet (sessionIdMsg pre05 id) GMember.viaC (c.getMember id)

/-- `groups_members_get_or_construct` (src/config/groups/members.cpp:206-217) -/
def Client.cMemberOr (c : Client) (id : Bytes) : Out (CReply GMember) :=
  cGet (sessionIdMsg pre05 id) GMember.viaC ((c.memberOr id).bind fun r => .ok (some r))

/-- The frame of the erasers (e.g. src/config/contacts.cpp:314-320): any exception is `false` -/
def cErase (r : Client × Out Bool) : Client × Out Bool := match r with
  | (c, .err _) => (c, .ok false)
  | r => r

/-- `contacts_set` (src/config/contacts.cpp:248-250): no handler -/
def Client.cContactsSet (S : Sys) (c : Client) (r : Contact) : Client × Out Unit := c.setContact S r

/-- `convo_info_volatile_set_1to1`, `_set_group`, `_set_legacy_group` (src/config/convo_info_volatile.cpp:617-632): no handler -/
def Client.cConvoSet (S : Sys) (now : Int) (c : Client) (k : ConvoKind) (id : Bytes) (x : Convo) : Client × Out Unit :=
  c.setConvo S now k id x

/-- `user_groups_set_group`, `user_groups_set_legacy_group` (src/config/user_groups.cpp:724-734): no handler -/
def Client.cGroupSet (S : Sys) (c : Client) (g : Group) : Client × Out Unit := c.setGroup S g
/-- `user_groups_set_legacy_group` (src/config/user_groups.cpp:727-730): no handler -/
def Client.cLegacySet (S : Sys) (c : Client) (g : Legacy) : Client × Out Unit := c.setLegacy S g

/-- `groups_members_set` (src/config/groups/members.cpp:219-221): no handler -/
def Client.cMemberSet (S : Sys) (c : Client) (m : GMember) : Client × Out Unit := c.setMember S m

/-! ### The other ways of copying a message -/

/-- `memcpy` into a buffer of 256 bytes: undefined behaviour beyond -/
def copy256 (buf s : Bytes) : Out Bytes := if s.length ≤ buf.length then .ok (s ++ buf.drop s.length) else .ub

/-- The `error` argument of the `..._init` functions: `msg.resize(255)`, and a copy with the NUL
(src/config/internal.hpp:25-30, src/config/groups/keys.cpp:1419-1424); a message is a C string, without NUL -/
def initError (buf msg : Bytes) : Out Bytes := copy256 buf ((if msg.length > 255 then msg.take 255 else msg) ++ [0])

/-- `set_error(config_group_keys*, string_view)` (src/config/groups/keys.cpp:1383-1389): a copy, then the NUL -/
def keysError (buf msg : Bytes) : Out Bytes :=
  let m := if msg.length > 255 then msg.take 255 else msg
  (copy256 buf m).bind fun b => if m.length < b.length then .ok (b.set m.length 0) else .ub

end Verif
