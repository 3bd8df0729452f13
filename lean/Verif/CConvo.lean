import Verif.CStructs
import Verif.CComm

/-!
# The C functions of src/config/convo_info_volatile.cpp, with the structs as memory

The structs are those of `CComm`, here with their arrays as the caller left them: 67 bytes for an id, 268 for a URL, 65 for a
room, 32 for a key.
-/

namespace Verif

/-- `into` for conversations with an id: `memcpy(c.session_id, session_id.data(), 67)`, which takes the NUL of the
`std::string` (src/config/convo_info_volatile.cpp:36-40, 63-67, 79-83) -/
def CConvoRec.fill (s : CConvoRec) (id : Bytes) (x : Convo) : Out CConvoRec :=
  (putBytes 67 s.id (id ++ [0])).bind fun i => .ok ⟨i, x⟩

/-- `convo::community::into` (src/config/convo_info_volatile.cpp:46-54) -/
def CConvoComm.fill (s : CConvoComm) (x : CommConvo) : Out CConvoComm :=
  (putStr s.url x.base).bind fun u => (putStr s.room x.room).bind fun r => (putBytes 32 s.pubkey x.pubkey).bind fun k =>
    .ok ⟨u, r, k, x.convo⟩

/-- The constructors from the structs (src/config/convo_info_volatile.cpp:33-34, 60-61, 76-77): 66 characters of the id -/
def CConvoRec.read (s : CConvoRec) : Out (Bytes × Convo) := (getBytes 66 s.id).bind fun i => .ok (i, s.convo)

/-- `convo::community(const convo_info_volatile_community&)` (src/config/convo_info_volatile.cpp:42-44) -/
def CConvoComm.read (s : CConvoComm) : Out CommConvo :=
  (getStr s.url).bind fun u => (getStr s.room).bind fun r => (getBytes 32 s.pubkey).bind fun k => .ok ⟨u, r, k, s.convo⟩

/-- `convo_info_volatile_get_1to1`, `_get_group`, `_get_legacy_group` (src/config/convo_info_volatile.cpp:497-511, 560-574,
588-602); the record returned by `get_1to1` has the id as the caller spelled it (src/config/convo_info_volatile.cpp:100-112) -/
def Client.sConvoGet (c : Client) (k : ConvoKind) (s : CConvoRec) (id : Bytes) : Out (CReply CConvoRec) :=
  cGet (sessionIdMsg k.pre id) (fun x => s.fill id x) (c.getConvo k id)

/-- `convo_info_volatile_get_or_construct_1to1` etc. (src/config/convo_info_volatile.cpp:513-524, 576-587, 604-615) -/
def Client.sConvoOr (c : Client) (k : ConvoKind) (s : CConvoRec) (id : Bytes) : Out (CReply CConvoRec) :=
  cGet (sessionIdMsg k.pre id) (fun x => s.fill id x) ((c.convo k id).bind fun r => .ok (some r))

/-- `convo_info_volatile_set_1to1`, `_set_group`, `_set_legacy_group` (src/config/convo_info_volatile.cpp:617-632) -/
def Client.sConvoSet (S : Sys) (now : Int) (c : Client) (k : ConvoKind) (s : CConvoRec) : Client × Out Unit :=
  sSet c s.read fun p => c.setConvo S now k p.1 p.2

/-- `convo_info_volatile_erase_1to1`, `_erase_group`, `_erase_legacy_group` (src/config/convo_info_volatile.cpp:634-663) -/
def Client.sConvoErase (S : Sys) (c : Client) (k : ConvoKind) (id : Bytes) : Client × Out Bool := cErase (c.eraseConvo S k id)

/-- `convo_info_volatile_get_community` (src/config/convo_info_volatile.cpp:526-542) -/
def Client.sCommGet (c : Client) (s : CConvoComm) (base room : Bytes) : Out (CReply CConvoComm) :=
  cGet (convoCommMsg base room) s.fill (c.getComm base room)

/-- `convo_info_volatile_get_or_construct_community` (src/config/convo_info_volatile.cpp:543-558); 32 bytes are read at the
pointer -/
def Client.sCommOr (c : Client) (s : CConvoComm) (base room pk : Bytes) : Out (CReply CConvoComm) :=
  (getBytes 32 pk).bind fun pk =>
    cGet (convoCommMsg base room) s.fill ((c.commConvo base room pk).bind fun r => .ok (some r))

/-- `convo_info_volatile_set_community` (src/config/convo_info_volatile.cpp:621-624) -/
def Client.sCommSet (S : Sys) (now : Int) (c : Client) (s : CConvoComm) : Client × Out Unit :=
  sSet c s.read fun x => c.setComm S now x.base x.room x.pubkey x.convo

/-- `convo_info_volatile_size` (src/config/convo_info_volatile.cpp:369-371, 665-667) -/
def Client.convoSizeAll (c : Client) : Nat :=
  c.convoSize .oneToOne + c.commSize + c.convoSize .legacy + c.convoSize .group

/-- The structs of a C program that loops over the conversations -/
structure ConvoBoxes where
  one : CConvoRec
  group : CConvoRec
  comm : CConvoComm
  legacy : CConvoRec
deriving DecidableEq

/-- The four `convo_info_volatile_it_is_...` asked in turn: the one for the type of the conversation fills its struct and
returns true (src/config/convo_info_volatile.cpp:731-762) -/
def ConvoBoxes.ask (b : ConvoBoxes) : ConvoAny → Out (ConvoBoxes × CConvoAny)
  | .oneToOne id x => (b.one.fill id x).bind fun s => .ok ({ b with one := s }, .oneToOne s)
  | .group id x => (b.group.fill id x).bind fun s => .ok ({ b with group := s }, .group s)
  | .comm x => (b.comm.fill x).bind fun s => .ok ({ b with comm := s }, .comm s)
  | .legacy id x => (b.legacy.fill id x).bind fun s => .ok ({ b with legacy := s }, .legacy s)

/-- The documented loop (include/session/config/convo_info_volatile.h:601-620) with `_done`, `_it_is_...`, `_advance`
(src/config/convo_info_volatile.cpp:721-762); `fuel` bounds the rounds.  The result is what the program saw, in order. -/
def boxLoop : Nat → ConvoIter → ConvoBoxes → Out (List CConvoAny)
  | 0, _, _ => .hang
  | fuel + 1, it, b =>
    if it.done then .ok []
    else (derefVal it.val).bind fun a => (b.ask a).bind fun p => it.next.bind fun it => (boxLoop fuel it p.1).bind fun l =>
      .ok (p.2 :: l)

/-- The iterators: of all conversations or of one kind -/
inductive ConvoSel where
  | all
  | kind (k : ConvoKind)
  | comms
deriving DecidableEq

/-- `convo_info_volatile_iterator_new`, `_new_1to1`, `_new_communities`, `_new_groups`, `_new_legacy_groups`
(src/config/convo_info_volatile.cpp:682-716, include/session/config/convo_info_volatile.hpp:572-592) -/
def Client.selIter (c : Client) : ConvoSel → ConvoIter
  | .all => c.convoIter true true true true
  | .kind .oneToOne => c.convoIter true false false false
  | .comms => c.convoIter false true false false
  | .kind .group => c.convoIter false false true false
  | .kind .legacy => c.convoIter false false false true

end Verif
