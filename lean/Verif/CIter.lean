import Verif.UserGroups

/-!
# Iterating over the members of a legacy group in C

Models `ugroups_legacy_members_begin`, `_next` and `_erase` (src/config/user_groups.cpp).  An iterator of the `std::map` is
the key of the element it points at, or none for `end()`; it stays valid as long as that element is in the map.
-/

namespace Verif

/-- The map and `struct ugroups_legacy_members_iterator` (src/config/user_groups.cpp:767-772) -/
structure MemIter where
  members : Members
  pos : Option Bytes
  needAdvance : Bool := false
deriving DecidableEq

/-- The element after `k` in the order of the map -/
def nextKey (m : Members) (k : Bytes) : Option Bytes := (m.find? fun x => k < x.1).map (·.1)

/-- `ugroups_legacy_members_begin` (src/config/user_groups.cpp:774-778) -/
def membersBegin (m : Members) : MemIter := { members := m, pos := m.head?.map (·.1) }

/-- Reading the element the iterator points at (src/config/user_groups.cpp:787-792) -/
def MemIter.read (it : MemIter) : Out (MemIter × Option (Bytes × Bool)) := match it.pos with
  | none => .ok (it, none)
  | some k => match mget k it.members with
    | some a => .ok (it, some (k, a))
    | none => .ub

/-- `ugroups_legacy_members_next` (src/config/user_groups.cpp:780-793) -/
def MemIter.next (it : MemIter) : Out (MemIter × Option (Bytes × Bool)) :=
  if it.needAdvance then match it.pos with
    | none => .ub
    | some k => if (mget k it.members).isSome then { it with pos := nextKey it.members k }.read else .ub
  else { it with needAdvance := true }.read

/-- `ugroups_legacy_members_erase` (src/config/user_groups.cpp:795-799) -/
def MemIter.erase (it : MemIter) : Out MemIter := match it.pos with
  | none => .ub
  | some k =>
    if (mget k it.members).isSome then
      .ok { members := mdel k it.members, pos := nextKey it.members k, needAdvance := false }
    else .ub

end Verif
