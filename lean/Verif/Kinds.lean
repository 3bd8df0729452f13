import Verif.Props.Protos

/-!
# The six kinds of configuration

The classes derived from `ConfigBase` differ, as far as messages are concerned, in three virtual functions only:
`storage_namespace()`, `encryption_domain()` and `accepts_protobuf()`; `config_lags()` and `compression_level()` are
overridden by none of them (include/session/config/base.hpp:869, 882).
-/

namespace Verif

/-- The classes derived from `ConfigBase`: `UserProfile`, `Contacts`, `ConvoInfoVolatile`, `UserGroups`,
`groups::Info`, `groups::Members`. -/
inductive CfgKind where
  | profile | contacts | convos | userGroups | info | members
deriving DecidableEq, Repr

/-- `storage_namespace()` (include/session/config/namespaces.hpp:7-20; user_profile.hpp:60, contacts.hpp:131,
convo_info_volatile.hpp:184, user_groups.hpp:275, groups/info.hpp:70, groups/members.hpp:305) -/
def CfgKind.ns : CfgKind → Int
  | .profile => 2
  | .contacts => 3
  | .convos => 4
  | .userGroups => 5
  | .info => 13
  | .members => 14

/-- `encryption_domain()` (include/session/config/user_profile.hpp:70, contacts.hpp:141,
convo_info_volatile.hpp:194, user_groups.hpp:285, groups/info.hpp:80, groups/members.hpp:315) -/
def CfgKind.domain : CfgKind → Bytes
  | .profile => asc ['U', 's', 'e', 'r', 'P', 'r', 'o', 'f', 'i', 'l', 'e']
  | .contacts => asc ['C', 'o', 'n', 't', 'a', 'c', 't', 's']
  | .convos => asc ['C', 'o', 'n', 'v', 'o', 'I', 'n', 'f', 'o', 'V', 'o', 'l', 'a', 't', 'i', 'l', 'e']
  | .userGroups => asc ['U', 's', 'e', 'r', 'G', 'r', 'o', 'u', 'p', 's']
  | .info => asc ['g', 'r', 'o', 'u', 'p', 's', ':', ':', 'I', 'n', 'f', 'o']
  | .members => asc ['g', 'r', 'o', 'u', 'p', 's', ':', ':', 'M', 'e', 'm', 'b', 'e', 'r', 's']

/-- `accepts_protobuf()` (include/session/config/base.hpp:207; user_profile.hpp:191, contacts.hpp:326,
convo_info_volatile.hpp:527, user_groups.hpp:564) -/
def CfgKind.protobuf : CfgKind → Bool
  | .profile => true
  | .contacts => true
  | .convos => true
  | .userGroups => true
  | .info => false
  | .members => false

/-- What all kinds of configuration share: the hash function, the signing callbacks of the object, the encryption
and compression primitives, and the curve with which protobuf envelopes are made. -/
structure Shared (G : Type) [AddCommGroup G] [DecidableEq G] where
  H : Bytes → Bytes
  verifier : Option (Bytes → Bytes → Bool)
  signer : Option (Bytes → Bytes)
  P : Prims
  zip : Bytes → Bytes
  unzip : Bytes → Option Bytes
  C : ECurve G
  /-- whether protobuf accepts an unmodelled field -/
  other : Nat → Bytes → Bool

/-- An object of the given kind.  `config_lags()` is 5 for all (include/session/config/base.hpp:882). -/
def CfgKind.sys {G : Type} [AddCommGroup G] [DecidableEq G] (W : Shared G) (A : CfgKind) : Sys where
  env := ⟨W.H, W.verifier, W.signer, 5⟩
  P := W.P
  domain := A.domain
  zip := W.zip
  unzip := W.unzip
  proto := if A.protobuf then some (W.C.protoFor W.other A.ns) else none

/-- `config_storage_namespace` (src/config/base.cpp:617-619): the number as an `int16_t` -/
def cStorageNamespace (A : CfgKind) : Int := A.ns.bmod (2 ^ 16)

/-- `config_encryption_domain` (src/config/base.cpp:737-739): a NUL-terminated string -/
def cEncryptionDomain (A : CfgKind) : Bytes := A.domain ++ [0]

end Verif
