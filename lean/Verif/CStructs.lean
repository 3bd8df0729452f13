import Verif.CErr
import Verif.Iter

/-!
# The structs of the C interface, as memory

Models `contacts_contact`, `config_group_member`, `ugroups_group_info` and `ugroups_legacy_group_info`, and the C functions that
fill and read them (src/config/contacts.cpp, src/config/groups/members.cpp, src/config/user_groups.cpp).  A `char` array is the
list of its bytes, whatever they were before; the enumerations hold one of their enumerators.
-/

namespace Verif

/-- `copy_c_str(dest, src)` (src/config/internal.hpp:77-83): the string and a NUL over the first bytes of the array; a longer
string is undefined behaviour (see `copyCStr`) -/
def putStr (a s : Bytes) : Out Bytes := if s.length < a.length then .ok (s ++ 0 :: a.drop (s.length + 1)) else .ub

/-- `memcpy(dest, src.data(), n)`; reading or writing out of bounds is undefined behaviour -/
def putBytes (n : Nat) (a s : Bytes) : Out Bytes :=
  if s.length < n ∨ a.length < n then .ub else .ok (s.take n ++ a.drop n)

/-- The array used as a `const char*`: without a NUL the end of the array is passed -/
def getStr (a : Bytes) : Out Bytes := if (0 : UInt8) ∈ a then .ok (cStr a) else .ub

/-- `std::string{array, 66}`, and `key = {array, 32}` -/
def getBytes (n : Nat) (a : Bytes) : Out Bytes := if a.length < n then .ub else .ok (a.take n)

/-! ### The four structs -/

/-- `contacts_contact` (include/session/config/contacts.h:18-39) with `user_profile_pic` (include/session/config/
profile_pic.h:12-16) -/
structure CContact where
  sid : Bytes
  name : Bytes
  nick : Bytes
  url : Bytes
  key : Bytes
  approved : Bool
  approvedMe : Bool
  blocked : Bool
  priority : Int
  notify : Notify
  mute : Int
  exp : ExpMode
  secs : Int
  created : Int
deriving DecidableEq

/-- The picture: `copy_c_str(url, …); memcpy(key, …, 32)`, or an empty URL (src/config/contacts.cpp:123-128,
src/config/groups/members.cpp:155-160) -/
def putPic (ua ka url key : Bytes) : Out (Bytes × Bytes) :=
  if picOk url key then (putStr ua url).bind fun u => (putBytes 32 ka key).bind fun k => .ok (u, k)
  else (putStr ua []).bind fun u => .ok (u, ka)

/-- The picture read: only if the URL is not empty (src/config/contacts.cpp:146-149, src/config/groups/members.cpp:138-141) -/
def getPicOf (ua ka : Bytes) : Out (Bytes × Bytes) :=
  (getStr ua).bind fun u => if u = [] then .ok ([], []) else (getBytes 32 ka).bind fun k => .ok (u, k)

/-- `contact_info::into(contacts_contact&)` (src/config/contacts.cpp:119-139).  `mute_until` is not touched. -/
def Contact.into (r : Contact) (s : CContact) : Out CContact :=
  (putBytes 67 s.sid (r.id ++ [0])).bind fun sid => (putStr s.name r.name).bind fun name =>
    (putStr s.nick r.nick).bind fun nick => (putPic s.url s.key r.url r.key).bind fun pic =>
      .ok { s with
        sid := sid, name := name, nick := nick, url := pic.1, key := pic.2
        approved := r.approved, approvedMe := r.approvedMe, blocked := r.blocked
        priority := r.priority, notify := r.notify
        exp := if toInt32 r.timer ≤ 0 ∧ r.exp ≠ .none then .none else r.exp
        secs := toInt32 r.timer, created := r.created }

/-- `contact_info(const contacts_contact&)` (src/config/contacts.cpp:141-160).  `mute_until` is not read. -/
def CContact.read (s : CContact) : Out Contact :=
  (getBytes 66 s.sid).bind fun id => (getStr s.name).bind fun name => (getStr s.nick).bind fun nick =>
    (getPicOf s.url s.key).bind fun pic =>
      let timer := if s.exp = .none then 0 else s.secs
      .ok { id := id, name := name, nick := nick, url := pic.1, key := pic.2
            approved := s.approved, approvedMe := s.approvedMe, blocked := s.blocked
            priority := s.priority, notify := s.notify
            exp := if timer ≤ 0 ∧ s.exp ≠ .none then .none else s.exp
            timer := timer, created := s.created }

/-- `config_group_member` (include/session/config/groups/members.h:15-30) -/
structure CMember where
  sid : Bytes
  name : Bytes
  url : Bytes
  key : Bytes
  admin : Bool
  invited : Int
  promoted : Int
  removed : Int
  supplement : Bool
deriving DecidableEq

/-- `member::into(config_group_member&)` (src/config/groups/members.cpp:152-167) -/
def GMember.into (m : GMember) (s : CMember) : Out CMember :=
  (putBytes 67 s.sid (m.id ++ [0])).bind fun sid => (putStr s.name m.name).bind fun name =>
    (putPic s.url s.key m.url m.key).bind fun pic =>
      .ok { sid := sid, name := name, url := pic.1, key := pic.2, admin := m.admin, invited := m.invite
            promoted := m.promotion, removed := m.removed, supplement := m.supplement }

/-- `member(const config_group_member&)` (src/config/groups/members.cpp:134-150) -/
def CMember.read (s : CMember) : Out GMember :=
  (getBytes 66 s.sid).bind fun id => (getStr s.name).bind fun name => (getPicOf s.url s.key).bind fun pic =>
    .ok { id := id, name := name, url := pic.1, key := pic.2, admin := s.admin, supplement := s.supplement
          invite := knownStatus s.invited, promotion := knownStatus s.promoted, removed := knownStatus s.removed }

/-- `ugroups_group_info` (include/session/config/user_groups.h:49-72) -/
structure CGroup where
  id : Bytes
  name : Bytes
  haveSecret : Bool
  secret : Bytes
  haveAuth : Bool
  auth : Bytes
  base : GroupBase
deriving DecidableEq

/-- `group_info::into(ugroups_group_info&)` (src/config/user_groups.cpp:219-228, 36-43) -/
def Group.into (g : Group) (s : CGroup) : Out CGroup :=
  (putStr s.id g.id).bind fun id => (putStr s.name g.name).bind fun name =>
    (if g.secret.length = 64 then putBytes 64 s.secret g.secret else .ok s.secret).bind fun sec =>
      (if g.auth.length = 100 then putBytes 100 s.auth g.auth else .ok s.auth).bind fun auth =>
        .ok { id := id, name := name, haveSecret := decide (g.secret.length = 64), secret := sec
              haveAuth := decide (g.auth.length = 100), auth := auth, base := g.base }

/-- `group_info(const ugroups_group_info&)` (src/config/user_groups.cpp:207-217, 45-52) -/
def CGroup.read (s : CGroup) : Out Group :=
  (getBytes 66 s.id).bind fun id => (getStr s.name).bind fun name =>
    (if s.haveSecret then getBytes 64 s.secret else .ok []).bind fun sec =>
      (if s.haveAuth then getBytes 100 s.auth else .ok []).bind fun auth =>
        .ok { id := id, base := s.base, name := name, secret := sec, auth := auth }

/-- `ugroups_group_set_kicked`, `ugroups_group_is_kicked` (src/config/user_groups.cpp:758-765) -/
def CGroup.setKicked (s : CGroup) : CGroup := { s with haveAuth := false, haveSecret := false }
/-- `ugroups_group_is_kicked` (src/config/user_groups.cpp:763-765) -/
def CGroup.isKicked (s : CGroup) : Bool := !(s.haveAuth || s.haveSecret)

/-- `ugroups_legacy_group_info` (include/session/config/user_groups.h:19-47); `_internal` is null or the map it points at, which
nothing else points at -/
structure CLegacy where
  id : Bytes
  name : Bytes
  haveKeys : Bool
  encPub : Bytes
  encSec : Bytes
  timer : Int
  base : GroupBase
  internal : Option Members
deriving DecidableEq

/-- `legacy_group_info::into` (src/config/user_groups.cpp:103-127): a null `_internal` gets a new map, another one the members
instead of those it had -/
def Legacy.into (g : Legacy) (s : CLegacy) : Out CLegacy :=
  (putStr s.id g.id).bind fun id => (putStr s.name g.name).bind fun name =>
    let pair := decide (g.encPub.length = 32 ∧ g.encSec.length = 32)
    (if pair then putBytes 32 s.encPub g.encPub else .ok s.encPub).bind fun p =>
      (if pair then putBytes 32 s.encSec g.encSec else .ok s.encSec).bind fun q =>
        .ok { id := id, name := name, haveKeys := pair, encPub := p, encSec := q, timer := g.timer, base := g.base
              internal := some g.members }

/-- `legacy_group_info(const ugroups_legacy_group_info&)` (src/config/user_groups.cpp:80-94) -/
def CLegacy.read (s : CLegacy) : Out Legacy :=
  (getBytes 66 s.id).bind fun id => (getStr s.name).bind fun name =>
    (if s.haveKeys then getBytes 32 s.encPub else .ok []).bind fun p =>
      (if s.haveKeys then getBytes 32 s.encSec else .ok []).bind fun q =>
        .ok { id := id, base := s.base, name := name, encPub := p, encSec := q, timer := s.timer
              members := s.internal.getD [] }

/-- `std::make_unique<ugroups_legacy_group_info>()`, with `_internal = nullptr` (src/config/user_groups.cpp:691-692, 708-709) -/
def CLegacy.fresh : CLegacy where
  id := List.replicate 67 0
  name := List.replicate 101 0
  haveKeys := false
  encPub := List.replicate 32 0
  encSec := List.replicate 32 0
  timer := 0
  base := {}
  internal := none

/-! ### Contacts -/

/-- `contacts_get` (src/config/contacts.cpp:175-187) with the struct `s`; without a record `s` is not touched -/
def Client.sContactsGet (c : Client) (s : CContact) (id : Bytes) : Out (CReply CContact) :=
  cGet (sessionIdMsg pre05 id) (fun r => r.into s) (c.getContact id)

/-- `contacts_get_or_construct` (src/config/contacts.cpp:194-206) -/
def Client.sContactsOr (c : Client) (s : CContact) (id : Bytes) : Out (CReply CContact) :=
  cGet (sessionIdMsg pre05 id) (fun r => r.into s) ((c.getOrConstruct id).bind fun r => .ok (some r))

/-- A setter without handler: the struct is read, the record set -/
def sSet {R : Type} (c : Client) (r : Out R) (set : R → Client × Out Unit) : Client × Out Unit := match r with
  | .ok r => set r
  | .err e => (c, .err e)
  | .hang => (c, .hang)
  | .ub => (c, .ub)

/-- `contacts_set` (src/config/contacts.cpp:248-250) -/
def Client.sContactsSet (S : Sys) (c : Client) (s : CContact) : Client × Out Unit := sSet c s.read (c.setContact S)

/-- `contacts_erase` (src/config/contacts.cpp:314-320) -/
def Client.sContactsErase (S : Sys) (c : Client) (id : Bytes) : Client × Out Bool := cErase (c.eraseContact S id)

/-- A loop of a C program that asks for the record at every position, into the same struct: `stop` is `..._done`, `show` fills
the struct (or does nothing if the record is of another kind), `next` is `..._advance`; `fuel` bounds the rounds -/
def structLoop {I T : Type} (stop : I → Bool) (fill : I → T → Out (Option T)) (next : I → Out I) : Nat → I → T → Out (List T)
  | 0, _, _ => .hang
  | fuel + 1, it, s =>
    if stop it then .ok []
    else (fill it s).bind fun o => (next it).bind fun it => (structLoop stop fill next fuel it (o.getD s)).bind fun l =>
      .ok (o.toList ++ l)

/-- `contacts_iterator_done` (src/config/contacts.cpp:384-390), `groups_members_iterator_done` (src/config/groups/members.cpp:
247-254) at a position that is not the end -/
def fillRec {R T : Type} (into : R → T → Out T) (it : RecIter R) (s : T) : Out (Option T) :=
  (derefVal it.val).bind fun r => (into r s).bind fun s => .ok (some s)

/-- `for (it = contacts_iterator_new(conf); !contacts_iterator_done(it, &c); contacts_iterator_advance(it))`
(src/config/contacts.cpp:373-395) -/
def Client.sContactsLoop (c : Client) (s : CContact) (fuel : Nat) : Out (List CContact) :=
  (RecIter.start Contact.load (c.dictAt pathC)).bind fun it =>
    structLoop RecIter.done (fillRec Contact.into) (·.next Contact.load) fuel it s

/-! ### Members -/

/-- `groups_members_get` (src/config/groups/members.cpp:191-204) -/
def Client.sMemberGet (c : Client) (s : CMember) (id : Bytes) : Out (CReply CMember) :=
  cGet (sessionIdMsg pre05 id) (fun r => r.into s) (c.getMember id)

/-- `groups_members_get_or_construct` (src/config/groups/members.cpp:206-217) -/
def Client.sMemberOr (c : Client) (s : CMember) (id : Bytes) : Out (CReply CMember) :=
  cGet (sessionIdMsg pre05 id) (fun r => r.into s) ((c.memberOr id).bind fun r => .ok (some r))

/-- `groups_members_set` (src/config/groups/members.cpp:219-221) -/
def Client.sMemberSet (S : Sys) (c : Client) (s : CMember) : Client × Out Unit := sSet c s.read (c.setMember S)

/-- `groups_members_erase` (src/config/groups/members.cpp:223-229) -/
def Client.sMemberErase (S : Sys) (c : Client) (id : Bytes) : Client × Out Bool := cErase (c.eraseGMember S id)

/-- The loop with `groups_members_iterator_new`, `_done`, `_advance` (src/config/groups/members.cpp:235-258) -/
def Client.sMemberLoop (c : Client) (s : CMember) (fuel : Nat) : Out (List CMember) :=
  (RecIter.start GMember.load (c.dictAt pathM)).bind fun it =>
    structLoop RecIter.done (fillRec GMember.into) (·.next GMember.load) fuel it s

/-! ### Groups -/

/-- `user_groups_get_group` (src/config/user_groups.cpp:656-668) -/
def Client.sGroupGet (pub : Bytes → Bytes) (c : Client) (s : CGroup) (id : Bytes) : Out (CReply CGroup) :=
  cGetStr (sessionIdMsg pre03 id) (fun r => r.into s) (c.getGroup pub id)

/-- `user_groups_get_or_construct_group` (src/config/user_groups.cpp:669-679) -/
def Client.sGroupOr (pub : Bytes → Bytes) (c : Client) (s : CGroup) (id : Bytes) : Out (CReply CGroup) :=
  cGetStr (sessionIdMsg pre03 id) (fun r => r.into s) ((c.groupOr pub id).bind fun r => .ok (some r))

/-- `user_groups_set_group` (src/config/user_groups.cpp:724-726) -/
def Client.sGroupSet (S : Sys) (c : Client) (s : CGroup) : Client × Out Unit := sSet c s.read (c.setGroup S)

/-- `user_groups_erase_group` (src/config/user_groups.cpp:744-750) -/
def Client.sGroupErase (S : Sys) (c : Client) (id : Bytes) : Client × Out Bool := cErase (c.eraseGroup S id)

/-- `user_groups_it_is_group` (src/config/user_groups.cpp:893-910) -/
def fillGroup (it : UGroupIter) (s : CGroup) : Out (Option CGroup) :=
  (derefVal it.val).bind fun v => match v with
    | .group g => (g.into s).bind fun s => .ok (some s)
    | _ => .ok none

/-- The loop from `user_groups_iterator_new` (or `_new_groups`, if `only`) with `user_groups_it_is_group` asked at every
position (src/config/user_groups.cpp:866-910) -/
def Client.sGroupLoop (pub : Bytes → Bytes) (only : Bool) (c : Client) (s : CGroup) (fuel : Nat) : Out (List CGroup) :=
  structLoop UGroupIter.done fillGroup (·.next pub) fuel (c.ugroupIter pub true (!only) (!only)) s

/-! ### Legacy groups -/

/-- `user_groups_get_legacy_group` (src/config/user_groups.cpp:687-702): the struct is allocated -/
def Client.sLegacyGet (c : Client) (id : Bytes) : Out (CReply CLegacy) :=
  cGet (sessionIdMsg pre05 id) (fun r => r.into CLegacy.fresh) (c.getLegacy id)

/-- `user_groups_get_or_construct_legacy_group` (src/config/user_groups.cpp:704-718) -/
def Client.sLegacyOr (c : Client) (id : Bytes) : Out (CReply CLegacy) :=
  cGet (sessionIdMsg pre05 id) (fun r => r.into CLegacy.fresh) ((c.legacyOr id).bind fun r => .ok (some r))

/-- `user_groups_set_legacy_group` (src/config/user_groups.cpp:727-730) -/
def Client.sLegacySet (S : Sys) (c : Client) (s : CLegacy) : Client × Out Unit := sSet c s.read (c.setLegacy S)

/-- `user_groups_set_free_legacy_group` (src/config/user_groups.cpp:731-734, 96-101): the same with the members moved out and
`_internal` freed and null; the second component is the struct afterwards -/
def Client.sLegacySetFree (S : Sys) (c : Client) (s : CLegacy) : (Client × Out Unit) × CLegacy :=
  (sSet c s.read (c.setLegacy S), { s with internal := none })

/-- `ugroups_legacy_group_free` (src/config/user_groups.cpp:681-686) -/
def CLegacy.free (s : CLegacy) : CLegacy := { s with internal := none }

/-- `user_groups_erase_legacy_group` (src/config/user_groups.cpp:751-757) -/
def Client.sLegacyErase (S : Sys) (c : Client) (id : Bytes) : Client × Out Bool := cErase (c.eraseLegacy S id)

/-- `user_groups_it_is_legacy_group` (src/config/user_groups.cpp:893-903, 911-914) -/
def fillLegacy (it : UGroupIter) (s : CLegacy) : Out (Option CLegacy) :=
  (derefVal it.val).bind fun v => match v with
    | .legacy g => (g.into s).bind fun s => .ok (some s)
    | _ => .ok none

/-- The loop from `user_groups_iterator_new` (or `_new_legacy_groups`, if `only`) with `user_groups_it_is_legacy_group` asked at
every position (src/config/user_groups.cpp:866-914) -/
def Client.sLegacyLoop (pub : Bytes → Bytes) (only : Bool) (c : Client) (s : CLegacy) (fuel : Nat) : Out (List CLegacy) :=
  structLoop UGroupIter.done fillLegacy (·.next pub) fuel (c.ugroupIter pub (!only) (!only) true) s

end Verif
