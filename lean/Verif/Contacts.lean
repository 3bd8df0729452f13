import Verif.Table

/-!
# Contacts

Models src/config/contacts.cpp: `contact_info`, `Contacts::get`, `get_or_construct`, `set`, the single
field setters, `erase`, `size`, iteration, and the conversion to and from the C struct.
-/

namespace Verif

/-- `notify_mode` (include/session/config/notify.hpp:5-10).  Only the enumerators: a C caller passing
another number is not modelled. -/
inductive Notify where
  | defaulted | all | disabled | mentions
deriving DecidableEq, Repr

/-- The numerical value (include/session/config/notify.hpp:5-10) -/
def Notify.num : Notify → Int
  | defaulted => 0 | all => 1 | disabled => 2 | mentions => 3

/-- The load of a `notify_mode` from an `int` (src/config/contacts.cpp:85-92): `mentions_only` becomes
`all` for contacts, unknown values become `defaulted`. -/
def Notify.load (i : Int) : Notify :=
  if 0 ≤ i ∧ i ≤ 3 then
    (if i = 0 then .defaulted else if i = 1 then .all else if i = 2 then .disabled else .all)
  else .defaulted

/-- `expiration_mode` (include/session/config/expiring.hpp:6) -/
inductive ExpMode where
  | none | afterSend | afterRead
deriving DecidableEq, Repr

/-- The numerical value -/
def ExpMode.num : ExpMode → Int
  | none => 0 | afterSend => 1 | afterRead => 2

/-- The load of an `expiration_mode` from an `int` (src/config/contacts.cpp:95-100) -/
def ExpMode.load (i : Int) : ExpMode :=
  if i = 1 then .afterSend else if i = 2 then .afterRead else .none

/-- `contact_info` (include/session/config/contacts.hpp:50-69).  The session id is the hex string. -/
structure Contact where
  id : Bytes
  name : Bytes := []
  nick : Bytes := []
  url : Bytes := []
  key : Bytes := []
  approved : Bool := false
  approvedMe : Bool := false
  blocked : Bool := false
  priority : Int := 0
  notify : Notify := .defaulted
  mute : Int := 0
  exp : ExpMode := .none
  timer : Int := 0
  created : Int := 0
deriving DecidableEq, Repr

/-- `contact_info::MAX_NAME_LENGTH` (include/session/config/contacts.hpp:51) -/
def maxName : Nat := 100

/-- The ranges of the C++ integer types (include/session/config/contacts.hpp:59-69). -/
def Contact.inRange (r : Contact) : Bool :=
  int32Ok r.priority && int64Ok r.mute && int64Ok r.timer && int64Ok r.created

/-- `profile_pic::operator bool` (include/session/config/profile_pic.hpp:41,57) -/
def picOk (url key : Bytes) : Bool := !url.isEmpty && key.length == 32

/-- The picture in a record (src/config/contacts.cpp:69-77) -/
def loadPic (d : Dict) : Bytes × Bytes := match maybeStr d [112], maybeStr d [113] with
  | some u, some k => if picOk u k then (u, k) else ([], [])
  | _, _ => ([], [])

/-- The expiration settings in a record (src/config/contacts.cpp:95-114): `int` variables -/
def loadExp (d : Dict) : ExpMode × Int :=
  match ExpMode.load (toInt32 ((maybeInt d [101]).getD 0)) with
  | .none => (.none, 0)
  | m =>
    if toInt32 ((maybeInt d [69]).getD 0) ≤ 0 then (.none, 0)
    else (m, toInt32 ((maybeInt d [69]).getD 0))

/-- `contact_info::load` (src/config/contacts.cpp:65-117) into a record with the given id -/
def Contact.load (id : Bytes) (d : Dict) : Contact :=
  { id := id
    name := (maybeStr d [110]).getD []
    nick := (maybeStr d [78]).getD []
    url := (loadPic d).1
    key := (loadPic d).2
    approved := (maybeInt d [97]).getD 0 != 0
    approvedMe := (maybeInt d [65]).getD 0 != 0
    blocked := (maybeInt d [98]).getD 0 != 0
    priority := toInt32 ((maybeInt d [43]).getD 0)
    notify := Notify.load (toInt32 ((maybeInt d [64]).getD 0))
    mute := (maybeInt d [33]).getD 0
    exp := (loadExp d).1
    timer := (loadExp d).2
    created := (maybeInt d [106]).getD 0 }

/-- What `Contacts::set` writes (src/config/contacts.cpp:206-243). -/
def Contact.fields (r : Contact) : List (Bytes × Option Val) :=
  let pic := picOk r.url r.key
  let exp := decide (r.exp ≠ .none) && decide (r.timer > 0)
  [ ([110], some (.scalar (.str (r.name.take maxName)))),
    ([78], fStr (r.nick.take maxName)),
    ([112], fIf pic (.str r.url)),
    ([113], fIf pic (.str r.key)),
    ([97], fFlag r.approved),
    ([65], fFlag r.approvedMe),
    ([98], fFlag r.blocked),
    ([43], fNonzero r.priority),
    ([64], fPos (if r.notify = .mentions then Notify.all else r.notify).num),
    ([33], fPos r.mute),
    ([101], fIf exp (.int r.exp.num)),
    ([69], fIf exp (.int r.timer)),
    ([106], fPos r.created) ]

/-- `data["c"]` -/
def pathC : List Bytes := [[99]]

/-- `Contacts::get` (src/config/contacts.cpp:162-172) -/
def Client.getContact (c : Client) (id : Bytes) : Out (Option Contact) :=
  (idBytes id pre05).bind fun pk => .ok <| match c.get (pathC ++ [pk]) with
    | some (.dict e) => some (Contact.load id e)
    | _ => none

/-- `Contacts::get_or_construct` (src/config/contacts.cpp:188-193) -/
def Client.getOrConstruct (c : Client) (id : Bytes) : Out Contact :=
  (c.getContact id).bind fun r => match r with
    | some r => .ok r
    | none => if checkId id pre05 then .ok { id := id } else .err .foreign

/-- `Contacts::set` (src/config/contacts.cpp:206-243) -/
def Client.setContact (S : Sys) (c : Client) (r : Contact) : Client × Out Unit :=
  match idBytes r.id pre05 with
  | .ok pk => c.writeAll S (entries (pathC ++ [pk]) r.fields)
  | .err e => (c, .err e)
  | .hang => (c, .hang)
  | .ub => (c, .ub)

/-- The single field setters (src/config/contacts.cpp:252-307): `get_or_construct`, change, `set`.
`upd` throws if the new value is too long (`contact_info::set_name`, src/config/contacts.cpp:38-48). -/
def Client.updContact (S : Sys) (c : Client) (id : Bytes) (upd : Contact → Out Contact) :
    Client × Out Unit :=
  match (c.getOrConstruct id).bind upd with
  | .ok r => c.setContact S r
  | .err e => (c, .err e)
  | .hang => (c, .hang)
  | .ub => (c, .ub)

/-- `Contacts::set_name` (src/config/contacts.cpp:252-256,38-42) -/
def Client.setContactName (S : Sys) (c : Client) (id n : Bytes) : Client × Out Unit :=
  c.updContact S id fun r => if n.length > maxName then .err .foreign else .ok { r with name := n }

/-- `Contacts::set_nickname` (src/config/contacts.cpp:257-261,44-48) -/
def Client.setContactNick (S : Sys) (c : Client) (id n : Bytes) : Client × Out Unit :=
  c.updContact S id fun r => if n.length > maxName then .err .foreign else .ok { r with nick := n }

/-- `Contacts::set_profile_pic` (src/config/contacts.cpp:262-266).  The url and the key are those of any `profile_pic`:
its constructors check the length of the key (include/session/config/profile_pic.hpp:16-32), assigning to the member
does not. -/
def Client.setContactPic (S : Sys) (c : Client) (id u k : Bytes) : Client × Out Unit :=
  c.updContact S id fun r => .ok { r with url := u, key := k }

/-- `Contacts::set_approved` (src/config/contacts.cpp:267-271) -/
def Client.setContactApproved (S : Sys) (c : Client) (id : Bytes) (b : Bool) : Client × Out Unit :=
  c.updContact S id fun r => .ok { r with approved := b }

/-- `Contacts::set_approved_me` (src/config/contacts.cpp:272-276) -/
def Client.setContactApprovedMe (S : Sys) (c : Client) (id : Bytes) (b : Bool) : Client × Out Unit :=
  c.updContact S id fun r => .ok { r with approvedMe := b }

/-- `Contacts::set_blocked` (src/config/contacts.cpp:277-281) -/
def Client.setContactBlocked (S : Sys) (c : Client) (id : Bytes) (b : Bool) : Client × Out Unit :=
  c.updContact S id fun r => .ok { r with blocked := b }

/-- `Contacts::set_priority` (src/config/contacts.cpp:283-287) -/
def Client.setContactPriority (S : Sys) (c : Client) (id : Bytes) (p : Int) : Client × Out Unit :=
  c.updContact S id fun r => .ok { r with priority := p }

/-- `Contacts::set_notifications` (src/config/contacts.cpp:289-293) -/
def Client.setContactNotify (S : Sys) (c : Client) (id : Bytes) (n : Notify) : Client × Out Unit :=
  c.updContact S id fun r => .ok { r with notify := n }

/-- `Contacts::set_expiry` (src/config/contacts.cpp:295-301) -/
def Client.setContactExpiry (S : Sys) (c : Client) (id : Bytes) (m : ExpMode) (t : Int) :
    Client × Out Unit :=
  c.updContact S id fun r => .ok { r with exp := m, timer := if m = .none then 0 else t }

/-- `Contacts::set_created` (src/config/contacts.cpp:303-307) -/
def Client.setContactCreated (S : Sys) (c : Client) (id : Bytes) (t : Int) : Client × Out Unit :=
  c.updContact S id fun r => .ok { r with created := t }

/-- `Contacts::erase` (src/config/contacts.cpp:309-315) -/
def Client.eraseContact (S : Sys) (c : Client) (id : Bytes) : Client × Out Bool :=
  match idBytes id pre05 with
  | .ok pk => match c.erase S (pathC ++ [pk]) with
    | (c1, .ok ()) => (c1, .ok (c.get (pathC ++ [pk])).isSome)
    | (c1, .err e) => (c1, .err e)
    | (c1, .hang) => (c1, .hang)
    | (c1, .ub) => (c1, .ub)
  | .err e => (c, .err e)
  | .hang => (c, .hang)
  | .ub => (c, .ub)

/-- `Contacts::size` (src/config/contacts.cpp:322-326) -/
def Client.contactsSize (c : Client) : Nat := (c.table pathC).length

/-- Iteration from `begin()` to `end()` over a dict (src/config/contacts.cpp:334-366): entries that are
not a dict under a key of 33 bytes are skipped; the `contact_info` constructor throws for a key that
does not start with 0x05. -/
def iterContacts : Dict → Out (List Contact)
  | [] => .ok []
  | (k, v) :: t =>
    if k.length = 33 then match v with
      | .dict e =>
        if checkId (toHex k) pre05 then
          (iterContacts t).bind fun l => .ok (Contact.load (toHex k) e :: l)
        else .err .foreign
      | _ => iterContacts t
    else iterContacts t

/-- `for (auto& c : contacts)` -/
def Client.contacts (c : Client) : Out (List Contact) := iterContacts (c.table pathC)

/-! ### The C struct -/

/-- `copy_c_str` into a buffer of `n` bytes (src/config/internal.hpp:77-83).  For a source of `n` bytes
or more `remove_suffix(src.size() - N - 1)` leaves `N + 1` bytes (or, for exactly `n` bytes, is called
with 2^64 - 1): either way out of bounds. -/
def copyCStr (n : Nat) (s : Bytes) : Out Bytes := if s.length < n then .ok s else .ub

/-- A C string read back as a `std::string`: up to the first NUL. -/
def cStr (s : Bytes) : Bytes := s.takeWhile (· ≠ 0)

/-- The picture URL in the C struct (src/config/contacts.cpp:123-128) -/
def copyPic (url key : Bytes) : Out Bytes := if picOk url key then copyCStr 224 url else .ok []

/-- `contact_info::into(contacts_contact&)` followed by `contact_info(const contacts_contact&)`
(src/config/contacts.cpp:119-160): what is left of a record that went through the C struct.  Neither
function touches the field `mute_until` of the struct, and the constructed record has the default. -/
def Contact.viaC (r : Contact) : Out Contact := do
  let name ← copyCStr 101 r.name
  let nick ← copyCStr 101 r.nick
  let url ← copyPic r.url r.key
  let secs := toInt32 r.timer
  let mode := if secs ≤ 0 ∧ r.exp ≠ .none then ExpMode.none else r.exp
  let t := if mode = .none then 0 else secs
  .ok { id := r.id
        name := cStr name
        nick := cStr nick
        url := cStr url
        key := if cStr url = [] then [] else r.key
        approved := r.approved
        approvedMe := r.approvedMe
        blocked := r.blocked
        priority := r.priority
        notify := r.notify
        mute := 0
        exp := if t ≤ 0 ∧ mode ≠ .none then .none else mode
        timer := t
        created := r.created }

end Verif
