import Verif.Contacts
import Verif.Community

/-!
# Volatile conversation info

Models src/config/convo_info_volatile.cpp: reading, setting, erasing, pruning and iterating over
conversations.  The clock is a parameter `now`, in nanoseconds since the epoch (the resolution of
`std::chrono::system_clock` with libstdc++).
-/

namespace Verif

/-- `convo::base` (include/session/config/convo_info_volatile.hpp:58-66) -/
structure Convo where
  lastRead : Int := 0
  unread : Bool := false
deriving DecidableEq, Repr

/-- `convo::base::load` (src/config/convo_info_volatile.cpp:85-88) -/
def Convo.load (d : Dict) : Convo :=
  { lastRead := (maybeInt d [114]).getD 0, unread := (maybeInt d [117]).getD 0 != 0 }

/-- The conversations stored under an id: `one_to_one`, `group`, `legacy_group` -/
inductive ConvoKind where
  | oneToOne | group | legacy
deriving DecidableEq, Repr

/-- `data["1"]`, `data["g"]`, `data["C"]` (src/config/convo_info_volatile.cpp:100,178,199) -/
def ConvoKind.path : ConvoKind → List Bytes
  | oneToOne => [[49]] | group => [[103]] | legacy => [[67]]

/-- The prefix of the ids in hex (src/config/convo_info_volatile.cpp:98,176,197) -/
def ConvoKind.pre : ConvoKind → Bytes
  | oneToOne => pre05 | group => pre03 | legacy => pre05

/-- The first byte of the ids, as the iterators check it (src/config/convo_info_volatile.cpp:435-451) -/
def ConvoKind.byte : ConvoKind → UInt8
  | oneToOne => 5 | group => 3 | legacy => 5

/-- `if (auto* d = x.dict()) load(*d)` -/
def loadConvo : Option Val → Option Convo
  | some (.dict e) => some (Convo.load e)
  | _ => none

/-- `get_1to1`, `get_group`, `get_legacy_group` (src/config/convo_info_volatile.cpp:97-107,175-185,
194-205) -/
def Client.getConvo (c : Client) (k : ConvoKind) (id : Bytes) : Out (Option Convo) :=
  (idBytes id k.pre).bind fun pk => .ok (loadConvo (c.get (k.path ++ [pk])))

/-- `get_or_construct_1to1` etc. (src/config/convo_info_volatile.cpp:109-114,187-192,207-213) -/
def Client.convo (c : Client) (k : ConvoKind) (id : Bytes) : Out Convo :=
  (c.getConvo k id).bind fun x => .ok (x.getD {})

/-- `PRUNE_LOW`: 30 days, in nanoseconds (include/session/config/convo_info_volatile.hpp:200) -/
def pruneLow : Int := 30 * 24 * 3600 * 10 ^ 9
/-- `PRUNE_HIGH`: 45 days, in nanoseconds (include/session/config/convo_info_volatile.hpp:201) -/
def pruneHigh : Int := 45 * 24 * 3600 * 10 ^ 9

/-- The first half of `set_base` (src/config/convo_info_volatile.cpp:221-232): the writes to "r".  The
conversion of milliseconds to the clock's nanoseconds overflows (undefined behaviour) for large
values. -/
def Client.readWrites (c : Client) (now : Int) (p : List Bytes) (x : Convo) :
    Out (List (List Bytes × Option Val)) :=
  if (intOf (c.get (p ++ [[114]]))).any (fun v => decide (x.lastRead < v)) then
    .ok [(p ++ [[114]], some (.scalar (.int x.lastRead)))]
  else if int64Ok (x.lastRead * 10 ^ 6) then
    .ok (if x.lastRead * 10 ^ 6 > now - pruneLow then
      [(p ++ [[114]], some (.scalar (.int x.lastRead)))] else [])
  else .ub

/-- `set_base` (src/config/convo_info_volatile.cpp:220-235) -/
def Client.setBase (S : Sys) (now : Int) (c : Client) (p : List Bytes) (x : Convo) : Client × Out Unit :=
  match c.readWrites now p x with
  | .ok ws => c.writeAll S (ws ++ [(p ++ [[117]], fFlag x.unread)])
  | .err e => (c, .err e)
  | .hang => (c, .hang)
  | .ub => (c, .ub)

/-- `set(const one_to_one&)`, `set(const group&)`, `set(const legacy_group&)`
(src/config/convo_info_volatile.cpp:215-218,280-288) -/
def Client.setConvo (S : Sys) (now : Int) (c : Client) (k : ConvoKind) (id : Bytes) (x : Convo) :
    Client × Out Unit :=
  match idBytes id k.pre with
  | .ok pk => c.setBase S now (k.path ++ [pk]) x
  | .err e => (c, .err e)
  | .hang => (c, .hang)
  | .ub => (c, .ub)

/-- `erase_impl` (src/config/convo_info_volatile.cpp:290-295) -/
def Client.eraseImpl (S : Sys) (c : Client) (p : List Bytes) : Client × Out Bool :=
  match c.erase S p with
  | (c1, .ok ()) => (c1, .ok (c.get p).isSome)
  | (c1, .err e) => (c1, .err e)
  | (c1, .hang) => (c1, .hang)
  | (c1, .ub) => (c1, .ub)

/-- `erase_1to1`, `erase_group`, `erase_legacy_group` (src/config/convo_info_volatile.cpp:297-299,
312-332) -/
def Client.eraseConvo (S : Sys) (c : Client) (k : ConvoKind) (id : Bytes) : Client × Out Bool :=
  match idBytes id k.pre with
  | .ok pk => c.eraseImpl S (k.path ++ [pk])
  | .err e => (c, .err e)
  | .hang => (c, .hang)
  | .ub => (c, .ub)

/-- `size_1to1`, `size_groups`, `size_legacy_groups` (src/config/convo_info_volatile.cpp:334-338,
356-366) -/
def Client.convoSize (c : Client) (k : ConvoKind) : Nat := (c.table k.path).length

/-- What the iterator makes of one entry (src/config/convo_info_volatile.cpp:395-423): entries that are
not a dict under a 33-byte key with the right first byte are skipped. -/
def convoEntry (b : UInt8) (x : Bytes × Val) : Option (Bytes × Convo) :=
  if x.1.length = 33 ∧ x.1.head? = some b then
    (loadConvo (some x.2)).map fun v => (toHex x.1, v)
  else none

/-- Iteration over one kind of conversation -/
def Client.convos (c : Client) (k : ConvoKind) : List (Bytes × Convo) :=
  (c.table k.path).filterMap (convoEntry k.byte)

/-! ### Communities -/

/-- `data["o"]` -/
def pathO : List Bytes := [[111]]

/-- `data["o"][base]["R"][room]` (src/config/convo_info_volatile.cpp:116-126) -/
def roomPath (b r : Bytes) : List Bytes := pathO ++ [b, [82], r]

/-- A community as the user sees it: server URL, room, key (empty: none) and the conversation -/
structure CommConvo where
  base : Bytes
  room : Bytes
  pubkey : Bytes
  convo : Convo
deriving DecidableEq, Repr

/-- The server's key, if it has 32 bytes (src/config/convo_info_volatile.cpp:119-124) -/
def Client.serverKey (c : Client) (b : Bytes) : Bytes :=
  match strOf (c.get (pathO ++ [b, [35]])) with
  | some k => if k.length = 32 then k else []
  | none => []

/-- `get_community(base, room)` (src/config/convo_info_volatile.cpp:128-141) -/
def Client.getComm (c : Client) (base room : Bytes) : Out (Option CommConvo) :=
  (canonRoom room).bind fun r => (canonUrl base).bind fun b => .ok <|
    (loadConvo (c.get (roomPath b r))).map fun x => ⟨b, r, c.serverKey b, x⟩

/-- `get_or_construct_community(base, room, pubkey)` (src/config/convo_info_volatile.cpp:149-157) -/
def Client.commConvo (c : Client) (base room pk : Bytes) : Out CommConvo :=
  (canonRoom room).bind fun r => (canonUrl base).bind fun b =>
    if pk.length = 32 then .ok ⟨b, r, pk, (loadConvo (c.get (roomPath b r))).getD {}⟩
    else .err .foreign

/-- `set(const community&)` (src/config/convo_info_volatile.cpp:274-278), for a community constructed
from the given URL, room and key -/
def Client.setComm (S : Sys) (now : Int) (c : Client) (base room pk : Bytes) (x : Convo) :
    Client × Out Unit :=
  match canonUrl base, canonRoom room with
  | .ok b, .ok r =>
    if pk.length = 32 then
      match c.assign S (pathO ++ [b, [35]]) (.scalar (.str pk)) with
      | (c1, .ok ()) => c1.setBase S now (roomPath b r) x
      | (c1, e) => (c1, e)
    else (c, .err .foreign)
  | _, _ => (c, .err .foreign)

/-- The removal of the server without rooms (src/config/convo_info_volatile.cpp:303-309) -/
def Client.eraseServer (S : Sys) (c : Client) (b : Bytes) : Client × Out Unit :=
  match c.get (pathO ++ [b, [82]]) with
  | some (.dict (_ :: _)) => (c, .ok ())
  | _ => match c.erase S (pathO ++ [b, [82]]) with
    | (c1, .ok ()) => c1.erase S (pathO ++ [b])
    | (c1, e) => (c1, e)

/-- `erase(const community&)`, `erase_community(base, room)` (src/config/convo_info_volatile.cpp:
300-311,325-327) -/
def Client.eraseComm (S : Sys) (c : Client) (base room : Bytes) : Client × Out Bool :=
  match canonUrl base, canonRoom room with
  | .ok b, .ok r =>
    match c.eraseImpl S (roomPath b r) with
    | (c1, .ok true) => match c1.eraseServer S b with
      | (c2, .ok ()) => (c2, .ok true)
      | (c2, .err e) => (c2, .err e)
      | (c2, .hang) => (c2, .hang)
      | (c2, .ub) => (c2, .ub)
    | (c1, e) => (c1, e)
  | _, _ => (c, .err .foreign)

/-- What the iterator makes of one room (include/session/config/community.hpp:362-380): rooms that are
not dicts or whose name, URL or key is not acceptable are skipped. -/
def roomEntry (base pk : Bytes) (x : Bytes × Val) : Option CommConvo :=
  match x.2, canonUrl base, canonRoom x.1 with
  | .dict e, .ok b, .ok r => if pk.length = 32 then some ⟨b, r, pk, Convo.load e⟩ else none
  | _, _, _ => none

/-- What the iterator makes of one server (include/session/config/community.hpp:314-387) -/
def serverEntry (x : Bytes × Val) : List CommConvo :=
  match x.2 with
  | .dict e => match maybeStr e [35], mget [82] e with
    | some pk, some (.dict rooms) => rooms.filterMap (roomEntry x.1 pk)
    | _, _ => []
  | _ => []

/-- Iteration over the communities -/
def Client.comms (c : Client) : List CommConvo := (c.table pathO).flatMap serverEntry

/-- The rooms of one server, as counted (src/config/convo_info_volatile.cpp:340-354) -/
def serverSize (x : Bytes × Val) : Nat :=
  match x.2 with
  | .dict e => match maybeStr e [35], mget [82] e with
    | some _, some (.dict rooms) => rooms.length
    | _, _ => 0
  | _ => 0

/-- `size_communities` (src/config/convo_info_volatile.cpp:340-354) -/
def Client.commSize (c : Client) : Nat := ((c.table pathO).map serverSize).sum

/-! ### Pruning -/

/-- The cutoff of `prune_stale`, in milliseconds (src/config/convo_info_volatile.cpp:238-241) -/
def pruneCutoff (now : Int) : Int := (now - pruneHigh).tdiv (10 ^ 6)

/-- Not marked unread and last read before the cutoff (src/config/convo_info_volatile.cpp:245) -/
def Convo.stale (now : Int) (x : Convo) : Bool := !x.unread && decide (x.lastRead < pruneCutoff now)

/-- `for (const auto& sid : stale) erase_...(sid)` -/
def Client.eraseConvos (S : Sys) (c : Client) (k : ConvoKind) : List Bytes → Client × Out Unit
  | [] => (c, .ok ())
  | id :: t => match c.eraseConvo S k id with
    | (c1, .ok _) => c1.eraseConvos S k t
    | (c1, .err e) => (c1, .err e)
    | (c1, .hang) => (c1, .hang)
    | (c1, .ub) => (c1, .ub)

/-- `for (const auto& [base, room] : stale_comms) erase_community(base, room)` -/
def Client.eraseComms (S : Sys) (c : Client) : List (Bytes × Bytes) → Client × Out Unit
  | [] => (c, .ok ())
  | (b, r) :: t => match c.eraseComm S b r with
    | (c1, .ok _) => c1.eraseComms S t
    | (c1, .err e) => (c1, .err e)
    | (c1, .hang) => (c1, .hang)
    | (c1, .ub) => (c1, .ub)

/-- One of the loops over conversations with an id (src/config/convo_info_volatile.cpp:243-255) -/
def Client.pruneKind (S : Sys) (now : Int) (c : Client) (k : ConvoKind) : Client × Out Unit :=
  c.eraseConvos S k (((c.convos k).filter (·.2.stale now)).map (·.1))

/-- The loop over communities (src/config/convo_info_volatile.cpp:257-262) -/
def Client.pruneComms (S : Sys) (now : Int) (c : Client) : Client × Out Unit :=
  c.eraseComms S ((c.comms.filter (·.convo.stale now)).map fun x => (x.base, x.room))

/-- `prune_stale` (src/config/convo_info_volatile.cpp:237-263).  Its argument is not used. -/
def Client.pruneStale (S : Sys) (now : Int) (c : Client) : Client × Out Unit :=
  match c.pruneKind S now .oneToOne with
  | (c1, .ok ()) => match c1.pruneKind S now .legacy with
    | (c2, .ok ()) => c2.pruneComms S now
    | (c2, e) => (c2, e)
  | (c1, e) => (c1, e)

/-- `ConvoInfoVolatile::push` (src/config/convo_info_volatile.cpp:265-272) -/
def Client.pushConvos (S : Sys) (now : Int) (c : Client) : Client × Out (Int × Bytes × List Bytes) :=
  match c.pruneStale S now with
  | (c1, .ok ()) => c1.push S
  | (c1, .err e) => (c1, .err e)
  | (c1, .hang) => (c1, .hang)
  | (c1, .ub) => (c1, .ub)

end Verif
