import Verif.Encodings
import Verif.Convo
import Verif.UserGroups

/-!
# `community` objects

Models the class `community` (include/session/config/community.hpp:12-230, src/config/community.cpp:19-91) with its setters,
including the state an object is left in when a setter throws, and what `set` of `UserGroups` and `ConvoInfoVolatile` makes of
such an object.
-/

namespace Verif

/-- `community` (include/session/config/community.hpp:219-226) -/
structure CommObj where
  base : Bytes := []
  room : Bytes := []
  localized : Option Bytes := none
  pubkey : Bytes := []
deriving DecidableEq

/-- `room()` (include/session/config/community.hpp:107) -/
def CommObj.shown (o : CommObj) : Bytes := o.localized.getD o.room

/-- `set_base_url` (src/config/community.cpp:44-46) -/
def CommObj.setBaseUrl (o : CommObj) (u : Bytes) : CommObj × Out Unit := match canonUrl u with
  | .ok b => ({ o with base := b }, .ok ())
  | .err e => (o, .err e)
  | .hang => (o, .hang)
  | .ub => (o, .ub)

/-- `set_room` (src/config/community.cpp:71-74) -/
def CommObj.setRoom (o : CommObj) (r : Bytes) : CommObj × Out Unit := match canonRoom r with
  | .ok v => ({ o with room := v, localized := some r }, .ok ())
  | .err e => (o, .err e)
  | .hang => (o, .hang)
  | .ub => (o, .ub)

/-- `set_pubkey(ustring_view)` (src/config/community.cpp:48-52) -/
def CommObj.setPubkey (o : CommObj) (k : Bytes) : CommObj × Out Unit :=
  if k.length ≠ 32 then (o, .err .foreign) else ({ o with pubkey := k }, .ok ())

/-- `set_pubkey(string_view)` (src/config/community.cpp:53-55) -/
def CommObj.setPubkeyText (K : Codecs) (o : CommObj) (t : Bytes) : CommObj × Out Unit := match K.decodePubkey t with
  | .ok k => ({ o with pubkey := k }, .ok ())
  | .err e => (o, .err e)
  | .hang => (o, .hang)
  | .ub => (o, .ub)

/-- `set_full_url` (src/config/community.cpp:37-42): the URL is stored before the room is checked -/
def CommObj.setFullUrl (K : Codecs) (o : CommObj) (u : Bytes) : CommObj × Out Unit := match K.parseFull u with
  | .ok (b, r, k) => match { o with base := b }.setRoom r with
    | (o, .ok ()) => ({ o with pubkey := k }, .ok ())
    | (o, e) => (o, e)
  | .err e => (o, .err e)
  | .hang => (o, .hang)
  | .ub => (o, .ub)

/-- `community(base_url, room, pubkey)` (src/config/community.cpp:21-35), with the key as 32 bytes or as text -/
def CommObj.make (K : Codecs) (base room : Bytes) (key : Bytes ⊕ Bytes) : Out CommObj :=
  (canonUrl base).bind fun b => (canonRoom room).bind fun v =>
    match (match key with
      | .inl k => CommObj.setPubkey ⟨b, v, some room, []⟩ k
      | .inr t => CommObj.setPubkeyText K ⟨b, v, some room, []⟩ t) with
    | (o, .ok ()) => .ok o
    | (_, .err e) => .err e
    | (_, .hang) => .hang
    | (_, .ub) => .ub

/-- `full_url()` (src/config/community.cpp:78-80) -/
def CommObj.url (o : CommObj) : Bytes := fullUrl o.base o.shown o.pubkey

/-- `pubkey_hex`, `pubkey_b32z`, `pubkey_b64` (src/config/community.cpp:57-69) -/
def CommObj.hex (o : CommObj) : Bytes := toHex o.pubkey
/-- `pubkey_b32z` (src/config/community.cpp:62-65) -/
def CommObj.b32z (o : CommObj) : Bytes := toB32z o.pubkey
/-- `pubkey_b64` (src/config/community.cpp:67-70) -/
def CommObj.b64 (o : CommObj) : Bytes := toB64 o.pubkey

/-- A call of one of the setters -/
inductive CommCall where
  | baseUrl (u : Bytes)
  | room (r : Bytes)
  | pubkey (k : Bytes)
  | pubkeyText (t : Bytes)
  | fullUrl (u : Bytes)

/-- The call (src/config/community.cpp:21-70, 72-103) -/
def CommCall.apply (K : Codecs) (o : CommObj) : CommCall → CommObj × Out Unit
  | .baseUrl u => o.setBaseUrl u
  | .room r => o.setRoom r
  | .pubkey k => o.setPubkey k
  | .pubkeyText t => o.setPubkeyText K t
  | .fullUrl u => o.setFullUrl K u

/-- A program that calls setters and carries on after exceptions -/
def CommObj.run (K : Codecs) (o : CommObj) (l : List CommCall) : CommObj := l.foldl (fun o c => (c.apply K o).1) o

/-- `UserGroups::set(const community_info&)` (src/config/user_groups.cpp:378-383) for the object as it is: nothing is checked
again -/
def Client.setUObj (S : Sys) (c : Client) (o : CommObj) (info : GroupBase) : Client × Out Unit :=
  c.writeAll S (Comm.writes o.base o.room ⟨o.base, o.shown, o.pubkey, info⟩)

/-- `ConvoInfoVolatile::set(const convo::community&)` (src/config/convo_info_volatile.cpp:273-277) for the object as it is -/
def Client.setCObj (S : Sys) (now : Int) (c : Client) (o : CommObj) (x : Convo) : Client × Out Unit :=
  match c.assign S (pathO ++ [o.base, [35]]) (.scalar (.str o.pubkey)) with
  | (c1, .ok ()) => c1.setBase S now (roomPath o.base o.room) x
  | (c1, e) => (c1, e)

/-- `community_parse_partial_url` (src/config/community.cpp:254-275) as compiled with `NDEBUG`, with pointers for the key and
for `has_pubkey` that are not null; see `Codecs.cParseFull` -/
def Codecs.cParsePartial (K : Codecs) (u : Bytes) : Out (Option (Bytes × Bytes × Option Bytes)) :=
  match K.parsePartial u with
  | .ok (b, r, pk) =>
    if b.length ≤ baseUrlMax ∧ r.length ≤ roomMax ∧ (pk.getD []).length ≤ 32 then .ok (some (b, r, pk)) else .ub
  | .err _ => .ok none
  | .hang => .hang
  | .ub => .ub

end Verif
