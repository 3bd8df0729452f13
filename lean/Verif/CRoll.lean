import Verif.CStructs
import Verif.CComm

/-!
# The C functions for communities of src/config/user_groups.cpp, and the loops over all groups, with the structs as memory

`ugroups_community_info` is `CUComm` of `CComm`, here with its arrays as the caller left them: 268 bytes for the URL, 65 for the
room, 32 for the key.  Groups and legacy groups are in `CStructs`.
-/

namespace Verif

/-- `community_info::into(ugroups_community_info&)` (src/config/user_groups.cpp:67-74, 36-43) -/
def CUComm.fill (s : CUComm) (x : Comm) : Out CUComm :=
  (putStr s.url x.base).bind fun u => (putStr s.room x.room).bind fun r => (putBytes 32 s.pubkey x.pubkey).bind fun k =>
    .ok ⟨u, r, k, x.info⟩

/-- `community_info(const ugroups_community_info&)` (src/config/user_groups.cpp:62-65, 45-52); the constructor it delegates to
throws for invalid names, which `setUComm` has first thing -/
def CUComm.read (s : CUComm) : Out Comm :=
  (getStr s.url).bind fun u => (getStr s.room).bind fun r => (getBytes 32 s.pubkey).bind fun k => .ok ⟨u, r, k, s.info⟩

/-- `user_groups_get_community` (src/config/user_groups.cpp:624-637) -/
def Client.sUCommGet (c : Client) (s : CUComm) (base room : Bytes) : Out (CReply CUComm) :=
  cGet (c.ucommMsg base room) s.fill (c.getUComm base room)

/-- `user_groups_get_or_construct_community` (src/config/user_groups.cpp:638-655); 32 bytes are read at the pointer -/
def Client.sUCommOr (c : Client) (s : CUComm) (base room pk : Bytes) : Out (CReply CUComm) :=
  (getBytes 32 pk).bind fun pk =>
    cGet (c.ucommMsg base room) s.fill ((c.ucommOr base room pk).bind fun r => .ok (some r))

/-- `user_groups_set_community` (src/config/user_groups.cpp:720-723) -/
def Client.sUCommSet (S : Sys) (c : Client) (s : CUComm) : Client × Out Unit := sSet c s.read (c.setUComm S)

/-- The structs of a C program that loops over the groups -/
structure GroupBoxes where
  group : CGroup
  comm : CUComm
  legacy : CLegacy
deriving DecidableEq

/-- What is in the struct that was filled -/
inductive CGroupAny where
  | group (s : CGroup)
  | comm (s : CUComm)
  | legacy (s : CLegacy)
deriving DecidableEq

/-- The three `user_groups_it_is_...` asked in turn: the one for the type of the group fills its struct and returns true
(src/config/user_groups.cpp:893-914) -/
def GroupBoxes.ask (b : GroupBoxes) : AnyGroup → Out (GroupBoxes × CGroupAny)
  | .group g => (g.into b.group).bind fun s => .ok ({ b with group := s }, .group s)
  | .comm x => (b.comm.fill x).bind fun s => .ok ({ b with comm := s }, .comm s)
  | .legacy g => (g.into b.legacy).bind fun s => .ok ({ b with legacy := s }, .legacy s)

/-- The documented loop (include/session/config/user_groups.h:716-732) with `user_groups_iterator_done`, `user_groups_it_is_...`,
`user_groups_iterator_advance` (src/config/user_groups.cpp:885-914); `fuel` bounds the rounds -/
def groupLoop (pub : Bytes → Bytes) : Nat → UGroupIter → GroupBoxes → Out (List CGroupAny)
  | 0, _, _ => .hang
  | fuel + 1, it, b =>
    if it.done then .ok []
    else (derefVal it.val).bind fun a => (b.ask a).bind fun p => (it.next pub).bind fun it =>
      (groupLoop pub fuel it p.1).bind fun l => .ok (p.2 :: l)

/-- The iterators: of all groups or of one kind -/
inductive GroupSel where
  | all
  | groups
  | comms
  | legacy
deriving DecidableEq

/-- `user_groups_iterator_new`, `_new_groups`, `_new_communities`, `_new_legacy_groups` (src/config/user_groups.cpp:865-879) -/
def Client.groupSelIter (pub : Bytes → Bytes) (c : Client) : GroupSel → UGroupIter
  | .all => c.ugroupIter pub true true true
  | .groups => c.ugroupIter pub true false false
  | .comms => c.ugroupIter pub false true false
  | .legacy => c.ugroupIter pub false false true

end Verif
