import Verif.UserGroups
import Verif.Community

/-!
# Communities by URL

The variants of the community functions that take a URL or an encoded key.
-/

namespace Verif

/-- `UserGroups::get_community(partial_url)` (src/config/user_groups.cpp:295-298) -/
def Client.getUCommUrl (K : Codecs) (c : Client) (url : Bytes) : Out (Option Comm) :=
  (K.parsePartial url).bind fun x => c.getUComm x.1 x.2.1

/-- `UserGroups::get_or_construct_community(full_url)` (src/config/user_groups.cpp:320-323) -/
def Client.ucommOrUrl (K : Codecs) (c : Client) (url : Bytes) : Out Comm :=
  (K.parseFull url).bind fun x => c.ucommOr x.1 x.2.1 x.2.2

/-- `UserGroups::get_or_construct_community(base_url, room, pubkey_encoded)` (src/config/user_groups.cpp:310-318): the key is
decoded, without a check of the length of the result (src/config/community.cpp:53-55) -/
def Client.ucommOrEnc (K : Codecs) (c : Client) (base room enc : Bytes) : Out Comm :=
  (canonUrl base).bind fun b => (canonRoom room).bind fun r => (K.decodePubkey enc).bind fun pk =>
    (loadComm b room pk (c.get (roomPath b r))).bind fun x => .ok (x.getD ⟨b, room, pk, {}⟩)

/-- `ConvoInfoVolatile::get_community(partial_url)` (src/config/convo_info_volatile.cpp:145-149) -/
def Client.getCommUrl (K : Codecs) (c : Client) (url : Bytes) : Out (Option CommConvo) :=
  (K.parsePartial url).bind fun x => c.getComm x.1 x.2.1

/-- `ConvoInfoVolatile::get_or_construct_community(full_url)` (src/config/convo_info_volatile.cpp:161-164) -/
def Client.commConvoUrl (K : Codecs) (c : Client) (url : Bytes) : Out CommConvo :=
  (K.parseFull url).bind fun x => c.commConvo x.1 x.2.1 x.2.2

/-- `ConvoInfoVolatile::get_or_construct_community(base_url, room, pubkey_hex)` (src/config/convo_info_volatile.cpp:166-174):
the room keeps its spelling -/
def Client.commConvoEnc (K : Codecs) (c : Client) (base room enc : Bytes) : Out CommConvo :=
  (canonUrl base).bind fun b => (canonRoom room).bind fun r => (K.decodePubkey enc).bind fun pk =>
    .ok ⟨b, room, pk, (loadConvo (c.get (roomPath b r))).getD {}⟩

end Verif
