import Verif.GroupMembers
import Verif.Convo

/-!
# The iterators of the config classes

`begin()`, `done()`, `==`, `*` and `++` of the iterators of `Contacts`, `Members`, `ConvoInfoVolatile` and `UserGroups`, as the
state machines they are.  A `dict::const_iterator` is the list of the entries from its position on; `++` at the end and `*` of
a null `_val` are undefined behaviour.  The dict does not change during the iteration (the documentation forbids it).
-/

namespace Verif

/-- `data[...].dict()`: the dict there, if it is one -/
def Client.dictAt (c : Client) (P : List Bytes) : Option Dict := match c.get P with
  | some (.dict d) => some d
  | _ => none

/-- `++*it` -/
def stepPos : Dict → Out Dict
  | [] => .ub
  | _ :: t => .ok t

/-- `*_val` -/
def derefVal {A : Type} : Option A → Out A
  | none => .ub
  | some v => .ok v

/-! ### `Contacts` and `Members` -/

/-- `Contacts::iterator` (include/session/config/contacts.hpp:368-393); `Members::iterator` (include/session/config/groups/
members.hpp) is the same -/
structure RecIter (R : Type) where
  table : Option Dict
  it : Dict := []
  val : Option R := none

/-- `_load_info` (src/config/contacts.cpp:335-350, src/config/groups/members.cpp:77-92) -/
def loadInfo {R : Type} (L : Bytes → Dict → R) (it : RecIter R) : Dict → Out (RecIter R)
  | [] => .ok { it with it := [] }
  | (k, v) :: t =>
    if k.length = 33 then match v with
      | .dict e => if checkId (toHex k) pre05 then .ok { it with it := (k, v) :: t, val := some (L (toHex k) e) } else .err .foreign
      | _ => loadInfo L it t
    else loadInfo L it t

/-- `begin()` (include/session/config/contacts.hpp:350, 374-379) -/
def RecIter.start {R : Type} (L : Bytes → Dict → R) : Option Dict → Out (RecIter R)
  | none => .ok { table := none }
  | some d => loadInfo L { table := some d, it := d } d

/-- `done()` (src/config/contacts.cpp:365-367, src/config/groups/members.cpp:107-109) -/
def RecIter.done {R : Type} (it : RecIter R) : Bool := it.table.isNone || it.it.isEmpty

/-- `== end()`: the comparison with a tombstone (src/config/contacts.cpp:353-363, src/config/groups/members.cpp:95-105) -/
def RecIter.isEnd {R : Type} (it : RecIter R) : Bool := match it.table with
  | none => true
  | some _ => it.it.isEmpty

/-- `operator++` (src/config/contacts.cpp:369-373, src/config/groups/members.cpp:111-115) -/
def RecIter.next {R : Type} (L : Bytes → Dict → R) (it : RecIter R) : Out (RecIter R) :=
  (stepPos it.it).bind fun t => loadInfo L it t

/-! ### Communities -/

/-- `comm_iterator_helper` (include/session/config/community.hpp:295-300) -/
structure CommIter where
  server : Option Dict
  room : Option Dict := none

/-- The loop over one table: the first entry from this position on that `f` accepts (src/config/convo_info_volatile.cpp:
398-423, src/config/user_groups.cpp:532-559, include/session/config/community.hpp:354-380) -/
def seek {A : Type} (f : Bytes × Val → Option A) : Dict → Option (A × Dict)
  | [] => none
  | x :: t => match f x with
    | some a => some (a, x :: t)
    | none => seek f t

/-- `comm_iterator_helper::load` (include/session/config/community.hpp:314-387); `g` is what is done with a room of a server
with this URL and key -/
def commSeek {A : Type} (g : Bytes → Bytes → Bytes × Val → Option A) : Dict → Option Dict → Option (A × CommIter)
  | [], _ => none
  | x :: t, room => match x.2 with
    | .dict e => match maybeStr e [35] with
      | none => commSeek g t none
      | some pk => match room, mget [82] e with
        | some rooms, _ => match seek (g x.1 pk) rooms with
          | some (a, r) => some (a, ⟨some (x :: t), some r⟩)
          | none => commSeek g t none
        | none, some (.dict rooms) => match seek (g x.1 pk) rooms with
          | some (a, r) => some (a, ⟨some (x :: t), some r⟩)
          | none => commSeek g t none
        | none, _ => commSeek g t none
    | _ => commSeek g t none

/-- `load` with the result for `_it_comm`: reset if nothing was found (src/config/convo_info_volatile.cpp:441-446,
src/config/user_groups.cpp:571-576) -/
def CommIter.load {A : Type} (g : Bytes → Bytes → Bytes × Val → Option A) (it : CommIter) : Option (A × CommIter) :=
  match it.server with
  | none => none
  | some s => commSeek g s it.room

/-- `done()` (include/session/config/community.hpp:312) -/
def CommIter.done (it : CommIter) : Bool := match it.server with
  | none => true
  | some s => s.isEmpty

/-- `advance()` (include/session/config/community.hpp:389-399) -/
def CommIter.advance (it : CommIter) : Out CommIter := match it.room, it.server with
  | some r, s => (stepPos r).bind fun r => .ok ⟨s, some r⟩
  | none, some s => (stepPos s).bind fun s => .ok ⟨some s, none⟩
  | none, none => .ok it

/-- One of the sections of an iterator over everything: the value found, if any, and the new position
(`val_loader::load` and `check_it`: the position is reset at the end) -/
def loadSec {A : Type} (f : Bytes × Val → Option A) : Option Dict → Option (A × Dict)
  | none => none
  | some d => seek f d

/-! ### `ConvoInfoVolatile` -/

/-- `convo::any` (include/session/config/convo_info_volatile.hpp:185) -/
inductive ConvoAny where
  | oneToOne (id : Bytes) (x : Convo)
  | group (id : Bytes) (x : Convo)
  | comm (x : CommConvo)
  | legacy (id : Bytes) (x : Convo)
deriving DecidableEq

/-- `ConvoInfoVolatile::iterator` (include/session/config/convo_info_volatile.hpp:601-606) -/
structure ConvoIter where
  val : Option ConvoAny := none
  it11 : Option Dict := none
  itGroup : Option Dict := none
  itComm : Option CommIter := none
  itLgroup : Option Dict := none

/-- What each section makes of an entry -/
def any11 (x : Bytes × Val) : Option ConvoAny := (convoEntry 5 x).map fun y => .oneToOne y.1 y.2
/-- (src/config/convo_info_volatile.cpp:426-452) -/
def anyGroup (x : Bytes × Val) : Option ConvoAny := (convoEntry 3 x).map fun y => .group y.1 y.2
/-- (src/config/convo_info_volatile.cpp:426-452) -/
def anyComm (b pk : Bytes) (x : Bytes × Val) : Option ConvoAny := (roomEntry b pk x).map .comm
/-- (src/config/convo_info_volatile.cpp:426-452) -/
def anyLegacy (x : Bytes × Val) : Option ConvoAny := (convoEntry 5 x).map fun y => .legacy y.1 y.2

/-- `_load_val` (src/config/convo_info_volatile.cpp:426-452) -/
def ConvoIter.loadVal (it : ConvoIter) : ConvoIter := match loadSec any11 it.it11 with
  | some (a, d) => { it with val := some a, it11 := some d }
  | none => match loadSec anyGroup it.itGroup with
    | some (a, d) => { it with val := some a, it11 := none, itGroup := some d }
    | none => match it.itComm.bind (·.load anyComm) with
      | some (a, d) => { it with val := some a, it11 := none, itGroup := none, itComm := some d }
      | none => match loadSec anyLegacy it.itLgroup with
        | some (a, d) => ⟨some a, none, none, none, some d⟩
        | none => ⟨it.val, none, none, none, none⟩

/-- The constructor (src/config/convo_info_volatile.cpp:373-393) -/
def Client.convoIter (c : Client) (oneto1 communities groups legacy : Bool) : ConvoIter :=
  ConvoIter.loadVal {
    it11 := if oneto1 then c.dictAt [[49]] else none
    itComm := if communities then (c.dictAt pathO).map fun d => ⟨some d, none⟩ else none
    itGroup := if groups then c.dictAt [[103]] else none
    itLgroup := if legacy then c.dictAt [[67]] else none }

/-- `done()` (src/config/convo_info_volatile.cpp:459-461) -/
def ConvoIter.done (it : ConvoIter) : Bool :=
  it.it11.isNone && it.itGroup.isNone && (match it.itComm with | none => true | some k => k.done) && it.itLgroup.isNone

/-- `== end()` (src/config/convo_info_volatile.cpp:454-457): `end()` has none of the four -/
def ConvoIter.isEnd (it : ConvoIter) : Bool :=
  it.it11.isNone && it.itGroup.isNone && it.itComm.isNone && it.itLgroup.isNone

/-- The first half of `operator++` (src/config/convo_info_volatile.cpp:463-474) -/
def ConvoIter.bump (it : ConvoIter) : Out ConvoIter := match it.it11, it.itGroup with
  | some d, _ => (stepPos d).bind fun d => .ok { it with it11 := some d }
  | none, some d => (stepPos d).bind fun d => .ok { it with itGroup := some d }
  | none, none => match it.itComm.filter (!·.done), it.itLgroup with
    | some k, _ => k.advance.bind fun k => .ok { it with itComm := some k }
    | none, some d => (stepPos d).bind fun d => .ok { it with itLgroup := some d }
    | none, none => .ub

/-- `operator++` (src/config/convo_info_volatile.cpp:463-476) -/
def ConvoIter.next (it : ConvoIter) : Out ConvoIter := it.bump.bind fun it => .ok it.loadVal

/-! ### `UserGroups` -/

/-- `UserGroups::iterator` (include/session/config/user_groups.hpp:640-645) -/
structure UGroupIter where
  val : Option AnyGroup := none
  itGroup : Option Dict := none
  itComm : Option CommIter := none
  itLegacy : Option Dict := none

/-- What each section makes of an entry -/
def uanyGroup (pub : Bytes → Bytes) (x : Bytes × Val) : Option AnyGroup := (recEntry 3 (Group.load pub) x).map .group
/-- (src/config/user_groups.cpp:567-580) -/
def uanyComm (b pk : Bytes) (x : Bytes × Val) : Option AnyGroup := (uroomEntry b pk x).map .comm
/-- (src/config/user_groups.cpp:567-580) -/
def uanyLegacy (x : Bytes × Val) : Option AnyGroup := (recEntry 5 Legacy.load x).map .legacy

/-- `_load_val` (src/config/user_groups.cpp:567-580) -/
def UGroupIter.loadVal (pub : Bytes → Bytes) (it : UGroupIter) : UGroupIter := match loadSec (uanyGroup pub) it.itGroup with
  | some (a, d) => { it with val := some a, itGroup := some d }
  | none => match it.itComm.bind (·.load uanyComm) with
    | some (a, d) => { it with val := some a, itGroup := none, itComm := some d }
    | none => match loadSec uanyLegacy it.itLegacy with
      | some (a, d) => ⟨some a, none, none, some d⟩
      | none => ⟨it.val, none, none, none⟩

/-- The constructor (src/config/user_groups.cpp:513-529) -/
def Client.ugroupIter (pub : Bytes → Bytes) (c : Client) (groups communities legacy : Bool) : UGroupIter :=
  UGroupIter.loadVal pub {
    itGroup := if groups then c.dictAt [[103]] else none
    itComm := if communities then (c.dictAt pathO).map fun d => ⟨some d, none⟩ else none
    itLegacy := if legacy then c.dictAt [[67]] else none }

/-- `done()` (src/config/user_groups.cpp:587-589) -/
def UGroupIter.done (it : UGroupIter) : Bool := it.itGroup.isNone && it.itComm.isNone && it.itLegacy.isNone

/-- `== end()` (src/config/user_groups.cpp:582-585) -/
def UGroupIter.isEnd (it : UGroupIter) : Bool := it.itGroup.isNone && it.itComm.isNone && it.itLegacy.isNone

/-- The first half of `operator++` (src/config/user_groups.cpp:591-599) -/
def UGroupIter.bump (it : UGroupIter) : Out UGroupIter := match it.itGroup, it.itComm, it.itLegacy with
  | some d, _, _ => (stepPos d).bind fun d => .ok { it with itGroup := some d }
  | none, some k, _ => k.advance.bind fun k => .ok { it with itComm := some k }
  | none, none, some d => (stepPos d).bind fun d => .ok { it with itLegacy := some d }
  | none, none, none => .ub

/-- `operator++` (src/config/user_groups.cpp:591-602) -/
def UGroupIter.next (pub : Bytes → Bytes) (it : UGroupIter) : Out UGroupIter := it.bump.bind fun it => .ok (it.loadVal pub)

end Verif
