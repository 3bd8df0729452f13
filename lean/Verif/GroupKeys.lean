import Verif.Multi
import Verif.Hex

/-!
# Group encryption keys

Models `groups::Keys` (src/config/groups/keys.cpp:35-560, 833-1185 and include/session/config/groups/
keys.hpp:79-152): the key list, its pruning, the record of message hashes, rekeying, supplements,
loading key messages, dump and restore.  The primitives are parameters.  Timestamps are milliseconds;
`std::chrono` converts them to nanoseconds, which overflows `int64_t` for values outside ± 292 years
(`tsOk`; the bound leaves room for adding `KEY_EXPIRY`).  Debug assertions are not modelled.
-/

namespace Verif

/-- `Keys::key_info` (include/session/config/groups/keys.hpp:79-83) -/
structure KeyInfo where
  gen : Int
  ts : Int
  key : Bytes
deriving DecidableEq, Repr

/-- `key_info::cmpval` (include/session/config/groups/keys.hpp:84-90): by generation, then timestamp,
then key bytes. -/
def KeyInfo.cmp (k : KeyInfo) : Lex (Int × Lex (Int × Bytes)) := toLex (k.gen, toLex (k.ts, k.key))

theorem KeyInfo.cmp_inj : Function.Injective KeyInfo.cmp := by
  intro a b h
  cases a; cases b
  simp only [KeyInfo.cmp, EmbeddingLike.apply_eq_iff_eq, Prod.mk.injEq] at h
  obtain ⟨h1, h2, h3⟩ := h
  subst h1; subst h2; subst h3; rfl

instance : LinearOrder KeyInfo := LinearOrder.lift' KeyInfo.cmp KeyInfo.cmp_inj

/-- `KEY_EXPIRY` (include/session/config/groups/keys.hpp:151): 60 days. -/
def keyExpiry : Int := 5184000000

/-- Timestamps for which no `std::chrono` computation overflows. -/
def tsOk (ms : Int) : Bool := decide (-9223372036854 ≤ ms ∧ ms ≤ 9223372036854 - keyExpiry)

/-- The state of a `Keys` object (include/session/config/groups/keys.hpp:93-104).  The set of message
hashes of a generation is a list without repetitions. -/
structure GKeys where
  keys : List KeyInfo
  active : List (Int × List Bytes)
  pendingKey : Bytes
  pendingConfig : Bytes
  pendingGen : Int
  needsDump : Bool
deriving DecidableEq

/-- A newly constructed object without a dump. -/
def GKeys.init : GKeys := ⟨[], [], [], [], -1, false⟩

/-- `active_msgs_[g].emplace(h)` -/
def addHash (g : Int) (h : Bytes) : List (Int × List Bytes) → List (Int × List Bytes)
  | [] => [(g, [h])]
  | (g', hs) :: t =>
    if g < g' then (g, [h]) :: (g', hs) :: t
    else if g = g' then (g', if h ∈ hs then hs else hs ++ [h]) :: t
    else (g', hs) :: addHash g h t

/-- The loop of `remove_expired` (src/config/groups/keys.cpp:1143-1173): drops leading generations as
long as the first key of the following generation is more than 60 days older than the last key. -/
def pruneKeys (lastTs : Int) : List KeyInfo → List KeyInfo
  | [] => []
  | k :: t => match h : t.dropWhile (fun x => x.gen == k.gen) with
    | [] => k :: t
    | n :: r => if n.ts + keyExpiry < lastTs then pruneKeys lastTs (n :: r) else k :: t
termination_by l => l.length
decreasing_by
  have := (List.dropWhile_suffix (l := t) (fun x => x.gen == k.gen)).length_le
  rw [h] at this
  simp only [List.length_cons] at this ⊢
  omega

/-- `keys_.back().timestamp` -/
def lastTs (l : List KeyInfo) : Int := match l.getLast? with
  | some k => k.ts
  | none => 0

/-- `remove_expired` (src/config/groups/keys.cpp:1139-1185) -/
def GKeys.removeExpired (s : GKeys) : GKeys :=
  let keys := if 2 ≤ s.keys.length then pruneKeys (lastTs s.keys) s.keys else s.keys
  { s with
    keys := keys
    active := match keys with
      | [] => []
      | f :: _ => s.active.dropWhile fun e => e.1 < f.gen }

/-- Insertion at `std::lower_bound` -/
def insKey (k : KeyInfo) : List KeyInfo → List KeyInfo
  | [] => [k]
  | x :: t => if x < k then x :: insKey k t else k :: x :: t

/-- The test for a key that is too old to be kept (src/config/groups/keys.cpp:857-861); a key of a
smaller generation than the first goes to the front. -/
def GKeys.stale (s : GKeys) (k : KeyInfo) : Bool := match s.keys with
  | f :: _ :: _ => decide (k.gen < f.gen) && decide (f.ts + keyExpiry < lastTs s.keys)
  | _ => false

/-- `insert_key` (src/config/groups/keys.cpp:840-867) -/
def GKeys.insertKey (s : GKeys) (hash : Bytes) (k : KeyInfo) : GKeys :=
  if s.keys.any (fun x => x.gen == k.gen && x.key == k.key) then
    { s with active := addHash k.gen hash s.active }
  else if s.stale k then s
  else { ({ s with keys := insKey k s.keys, active := addHash k.gen hash s.active } : GKeys).removeExpired with
    needsDump := true }

/-- `group_keys` (src/config/groups/keys.cpp:181-193): pending key first, then newest to oldest. -/
def GKeys.groupKeys (s : GKeys) : List Bytes :=
  (if s.pendingConfig ≠ [] then [s.pendingKey] else []) ++ s.keys.reverse.map (·.key)

/-- `group_enc_key` (src/config/groups/keys.cpp:195-203) -/
def GKeys.groupEncKey (s : GKeys) : Out Bytes :=
  if s.pendingConfig ≠ [] then .ok s.pendingKey
  else match s.keys.getLast? with
    | some k => .ok k.key
    | none => .err .foreign

/-- `size` (src/config/groups/keys.cpp:177-179) -/
def GKeys.size (s : GKeys) : Nat := s.keys.length + if s.pendingConfig ≠ [] then 1 else 0

/-- `current_hashes` (src/config/groups/keys.cpp:1132-1137), as a predicate. -/
def GKeys.isCurrentHash (s : GKeys) (h : Bytes) : Prop := ∃ e ∈ s.active, h ∈ e.2

/-- `pending_config` (src/config/groups/keys.cpp:834-838) -/
def GKeys.pendingConfig? (s : GKeys) : Option Bytes :=
  if s.pendingConfig = [] then none else some s.pendingConfig

/-! ### Dump -/

/-- One key of a dump or supplement: g, k, t. -/
def encKeyInfo (k : KeyInfo) : Bt := .dict [([103], .int k.gen), ([107], .str k.key), ([116], .int k.ts)]

/-- `make_dump` (src/config/groups/keys.cpp:75-109).  The order of the hashes of a generation is that of
the list (in C++, that of an `unordered_set`). -/
def GKeys.makeDump (s : GKeys) : Bytes :=
  encV (.dict ([(asc ['a', 'c', 't', 'i', 'v', 'e'],
        .list (s.active.map fun e => .list (.int e.1 :: e.2.map .str))),
      (asc ['k', 'e', 'y', 's'], .list (s.keys.map encKeyInfo))] ++
    if s.pendingConfig ≠ [] then
      [(asc ['p', 'e', 'n', 'd', 'i', 'n', 'g'], .dict [([99], .str s.pendingConfig), ([103], .int s.pendingGen),
        ([107], .str s.pendingKey)])]
    else []))

/-- `dump` (src/config/groups/keys.cpp:68-73) -/
def GKeys.dump (s : GKeys) : GKeys × Bytes := ({ s with needsDump := false }, s.makeDump)

/-- `skip_until` and consuming a value, on a dict already read -/
def dSeek (k : Bytes) (d : BtDict) : Option (Bt × BtDict) :=
  match d.dropWhile fun e => e.1 < k with
  | (k', v) :: t => if k' = k then some (v, t) else none
  | [] => none

/-- Consuming an `int64_t` there (e.g. src/config/groups/keys.cpp:117-160) -/
def dInt (k : Bytes) (d : BtDict) : Option (Int × BtDict) := match dSeek k d with
  | some (.int i, t) => if int64Ok i then some (i, t) else none
  | _ => none

/-- Consuming a string there (e.g. src/config/groups/keys.cpp:117-160) -/
def dStr (k : Bytes) (d : BtDict) : Option (Bytes × BtDict) := match dSeek k d with
  | some (.str s, t) => some (s, t)
  | _ => none

/-- Reading g, k, t of a key (src/config/groups/keys.cpp:131-150 and 983-999); `none` is an exception.
A timestamp out of range is undefined behaviour. -/
def decKeyInfo : Bt → Out KeyInfo
  | .dict d => match dInt [103] d with
    | none => .err .foreign
    | some (g, d1) => match dStr [107] d1 with
      | none => .err .foreign
      | some (k, d2) => if k.length ≠ 32 then .err .foreign else match dInt [116] d2 with
        | none => .err .foreign
        | some (t, _) => if tsOk t then .ok ⟨g, t, k⟩ else .ub
  | _ => .err .foreign

/-- The list of keys of a dump (src/config/groups/keys.cpp:129-158) -/
def decKeyInfos : List Bt → Out (List KeyInfo)
  | [] => .ok []
  | b :: t => decKeyInfo b >>= fun k => decKeyInfos t >>= fun ks => .ok (k :: ks)

/-- `active_msgs_[g]`: makes an empty entry if there is none. -/
def addGen (g : Int) : List (Int × List Bytes) → List (Int × List Bytes)
  | [] => [(g, [])]
  | (g', hs) :: t =>
    if g < g' then (g, []) :: (g', hs) :: t
    else if g = g' then (g', hs) :: t
    else (g', hs) :: addGen g t

/-- One generation of `active_msgs_` from a dump (src/config/groups/keys.cpp:117-120) -/
def addHashes (g : Int) (hs : List Bytes) (a : List (Int × List Bytes)) : List (Int × List Bytes) :=
  hs.foldl (fun a h => addHash g h a) (addGen g a)

/-- `active_msgs_` from a dump (src/config/groups/keys.cpp:114-121) -/
def loadActive : List Bt → List (Int × List Bytes) → Option (List (Int × List Bytes))
  | [], a => some a
  | .list (.int g :: hs) :: t, a =>
    if int64Ok g then (match allStrs hs with
      | some hs => loadActive t (addHashes g hs a)
      | none => none)
    else none
  | _, _ => none

/-- The keys of a dump must be strictly ascending (src/config/groups/keys.cpp:152-153). -/
def ascending : List KeyInfo → Bool
  | [] => true
  | [_] => true
  | a :: b :: t => decide (a < b) && ascending (b :: t)

/-- Reading the pending key (src/config/groups/keys.cpp:159-174) -/
def loadPending (bs : Bytes) (s : GKeys) : Out GKeys :=
  match seekKey bs.length (asc ['p', 'e', 'n', 'd', 'i', 'n', 'g']) bs with
  | none => .err .foreign
  | some (false, _) => .ok s
  | some (true, r) => match takeDict r with
    | none => .err .foreign
    | some (d, _) => match dStr [99] d with
      | none => .err .foreign
      | some (c, d1) => match dInt [103] d1 with
        | none => .err .foreign
        | some (g, d2) => match dStr [107] d2 with
          | none => .err .foreign
          | some (k, _) => if k.length ≠ 32 then .err .foreign
            else .ok { s with pendingConfig := c, pendingGen := g, pendingKey := k }

/-- `load_dump` (src/config/groups/keys.cpp:111-175) -/
def loadDump (dump : Bytes) : Out GKeys :=
  match openDict dump with
  | none => .err .foreign
  | some r0 => match requireKey (asc ['a', 'c', 't', 'i', 'v', 'e']) r0 with
    | none => .err .foreign
    | some r1 => match takeList r1 with
      | none => .err .foreign
      | some (al, r2) => match loadActive al [] with
        | none => .err .foreign
        | some act => match requireKey (asc ['k', 'e', 'y', 's']) r2 with
          | none => .err .foreign
          | some r3 => match takeList r3 with
            | none => .err .foreign
            | some (kl, r4) => decKeyInfos kl >>= fun ks =>
              if ascending ks = false then .err .foreign
              else loadPending r4 { GKeys.init with keys := ks, active := act }

/-! ### Key messages -/

/-- Further primitives used by src/config/groups/keys.cpp. -/
structure GPrims extends MPrims where
  /-- keyed `crypto_generichash_blake2b`: output size, key, message -/
  hashN : Nat → Bytes → Bytes → Bytes
  /-- the Ed25519 public key of a 64-byte secret key (its last 32 bytes) -/
  edPub : Bytes → Bytes
  /-- `crypto_sign_ed25519_sk_to_curve25519` -/
  xsk : Bytes → Bytes
  /-- `crypto_sign_ed25519_pk_to_curve25519`; `none` if it reports failure -/
  xpk : Bytes → Option Bytes
  /-- `crypto_sign_ed25519_detached`: secret key, message -/
  sign : Bytes → Bytes → Bytes
  /-- `crypto_sign_ed25519_verify_detached`: public key, message, signature -/
  verify : Bytes → Bytes → Bytes → Bool
  /-- `randombytes_buf_deterministic`: seed, size -/
  rng : Bytes → Nat → Bytes

/-- Their functional properties. -/
structure GPrims.Good (P : GPrims) : Prop where
  m : P.toMPrims.Good
  hashLen : ∀ n k x, (P.hashN n k x).length = n
  xskLen : ∀ s, (P.xsk s).length = 32
  xpkPub : ∀ s, P.xpk (P.edPub s) = some (P.pubOf (P.xsk s))
  signLen : ∀ s x, (P.sign s x).length = 64
  signOk : ∀ s x, P.verify (P.edPub s) x (P.sign s x) = true
  rngLen : ∀ s n, (P.rng s n).length = n

/-- The keys a `Keys` object is constructed with (src/config/groups/keys.cpp:35-62). -/
structure GEnv where
  userSk : Bytes
  groupPk : Bytes
  groupSk : Option Bytes

/-- `admin()`: has the group's secret key. -/
def GEnv.admin (e : GEnv) : Bool := e.groupSk.isSome

/-- The hash keys (src/config/groups/keys.cpp:246-250). -/
def kSeed : Bytes := asc "SessionGroupKeySeed".toList
/-- `enc_key_hash_key` etc. (src/config/groups/keys.cpp:246-250) -/
def kGen : Bytes := asc "SessionGroupKeyGen".toList
/-- (src/config/groups/keys.cpp:246-250) -/
def kAdmin : Bytes := asc "SessionGroupKeyAdminKey".toList
/-- (src/config/groups/keys.cpp:246-250) -/
def kMember : Bytes := asc "SessionGroupKeyMemberKey".toList
/-- (src/config/groups/keys.cpp:246-250) -/
def kJunk : Bytes := asc "SessionGroupJunkMembers".toList

variable (P : GPrims)

/-- `ConfigSig::seed_hash` (src/config/base.cpp:586-598) with a given group secret key. -/
def seedHash (groupSk key : Bytes) : Bytes := P.hashN 32 (key.take 64) (groupSk.take 32)

/-- `session_id_pk` (src/config/internal.cpp:27-33) -/
def sessionIdPk (sid : Bytes) : Out Bytes := idBytes sid pre05 >>= fun b => .ok (b.drop 1)

/-- `session_id_pk` of every id (src/config/internal.cpp:27-33); the first invalid one throws -/
def sessionIdPks : List Bytes → Out (List Bytes)
  | [] => .ok []
  | s :: t => sessionIdPk s >>= fun p => sessionIdPks t >>= fun ps => .ok (p :: ps)

/-- `std::to_string` of an integer -/
def intStr (i : Int) : Bytes := intDigits i

/-- `d.append_signature("~", …)`: the signature over everything up to there is the last entry. -/
def signedDict (groupSk : Bytes) (d : BtDict) : Bytes :=
  let pre := 100 :: encD d
  pre ++ encStr [126] ++ encStr (P.sign groupSk pre) ++ [101]

/-- Cuts into pieces of `n` bytes. -/
def chunks (n : Nat) : Nat → Bytes → List Bytes
  | 0, _ => []
  | c + 1, bs => bs.take n :: chunks n c (bs.drop n)

/-- The generation of the next key (src/config/groups/keys.cpp:294); incrementing `INT64_MAX` is
undefined. -/
def GKeys.nextGen (s : GKeys) : Out Int := match s.keys.getLast? with
  | none => .ok 0
  | some k => if k.gen = 2 ^ 63 - 1 then .ub else .ok (k.gen + 1)

/-- The new key and nonce: H1(members ‖ generation ‖ H2(seed)) (src/config/groups/keys.cpp:280-304) -/
def rekeyHash (groupSk : Bytes) (memberIds : List Bytes) (gen : Int) : Bytes :=
  P.hashN 56 kGen (memberIds.flatten ++ intStr gen ++ seedHash P groupSk kSeed)

/-- The filler entries (src/config/groups/keys.cpp:372-392) -/
def rekeyJunk (groupSk h1 : Bytes) (n : Nat) : List Bytes :=
  if n % 75 = 0 then []
  else
    let c := 75 - n % 75
    chunks 48 c (P.rng (P.hashN 32 kJunk (h1 ++ groupSk)) (48 * c))

/-- The key message `rekey` makes (src/config/groups/keys.cpp:306-397) from the members' X25519 keys. -/
def rekeyMsg (groupSk groupXpk h1 : Bytes) (gen : Int) (memberPks : List Bytes) : Out Bytes :=
  let encKey := h1.take 32
  let nonce := h1.drop 32
  encryptForMultiple P.toMPrims [encKey] memberPks nonce (P.xsk groupSk) groupXpk kMember true >>= fun cs =>
    .ok (signedDict P groupSk
      [([35], .str nonce), ([71], .int gen),
       ([75], .str (P.aead (seedHash P groupSk kAdmin) nonce encKey)),
       ([107], .list ((cs ++ rekeyJunk P groupSk h1 cs.length).map .str))])

/-- `rekey` (src/config/groups/keys.cpp:244-414) given the session ids of the members in the order of
the `Members` config: the new state, the message and the keys passed to `replace_keys`. -/
def GKeys.rekey (e : GEnv) (s : GKeys) (memberIds : List Bytes) : Out (GKeys × Bytes) :=
  match e.groupSk with
  | none => .err .foreign
  | some sk => match P.xpk e.groupPk with
    | none => .err .foreign
    | some gx => s.nextGen >>= fun gen => sessionIdPks memberIds >>= fun pks =>
      let h1 := rekeyHash P sk memberIds gen
      rekeyMsg P sk gx h1 gen pks >>= fun msg =>
        .ok ({ s with pendingGen := gen, pendingKey := h1.take 32, pendingConfig := msg, needsDump := true }, msg)

/-- `key_supplement` (src/config/groups/keys.cpp:423-538) -/
def GKeys.supplement (e : GEnv) (s : GKeys) (sids : List Bytes) : Out Bytes :=
  match e.groupSk with
  | none => .err .foreign
  | some sk => match s.keys.getLast? with
    | none => .err .foreign
    | some last => match P.xpk e.groupPk with
      | none => .err .foreign
      | some gx => sessionIdPks sids >>= fun pks =>
        let supp := encV (.list (s.keys.map encKeyInfo))
        let nonce := P.hashN 24 kGen (sids.flatten ++ supp ++ seedHash P sk kSeed)
        encryptForMultiple P.toMPrims [supp] pks nonce (P.xsk sk) gx kMember true >>= fun cs =>
          if cs = [] then .err .foreign
          else .ok (signedDict P sk
            [([35], .str nonce), ([43], .list (cs.map .str)), ([71], .int last.gen)])

/-- What a key message contains for us: new keys, or the generation it belongs to. -/
structure Found where
  newKeys : List KeyInfo
  maxGen : Option Int
deriving DecidableEq

/-- The list of keys in a decrypted supplement (src/config/groups/keys.cpp:979-1000): a list of dicts;
what follows the list is ignored. -/
def readSupp (plain : Bytes) : Out (List KeyInfo) := match plain with
  | 108 :: t => match decL plain.length t with
    | some (l, _) => decKeyInfos l
    | none => .err .foreign
  | _ => .err .foreign

/-- The message key for us as a member: with the group as sender. -/
def memberKey (e : GEnv) (groupXpk : Bytes) : Option Bytes :=
  match P.xpk (P.edPub e.userSk) with
  | none => none
  | some ux => multiKey P.toMPrims (P.xsk e.userSk) ux groupXpk false kMember

/-- The supplement branch of `load_key_message` (src/config/groups/keys.cpp:939-1011), from the list
on; returns what is left of the message too.  Here the entries are known to be strings. -/
def loadSupp (e : GEnv) (groupXpk nonce : Bytes) (cts : List Bytes) : Out (List KeyInfo) :=
  if nonce.length < 24 then .err .foreign
  else if cts.any (fun c => decide (c.length < 68)) then .err .foreign
  else if e.admin then .ok []
  else match memberKey P e groupXpk with
    | none => .err .foreign
    | some key => match firstOpen P.toMPrims key nonce cts with
      | none => .ok []
      | some plain => readSupp plain

/-- The full-message branch (src/config/groups/keys.cpp:1013-1086), from the keys on: our key. -/
def loadFull (e : GEnv) (groupXpk nonce adminCt : Bytes) (cts : List Bytes) : Out (Option Bytes) :=
  if nonce.length < 24 then .err .foreign
  else if adminCt.length ≠ 48 then .err .foreign
  else if cts.any (fun c => c.length != 48) then .err .foreign
  else if cts.length % 75 ≠ 0 then .err .foreign
  else match e.groupSk with
    | some sk => match multiOpen P.toMPrims (seedHash P sk kAdmin) nonce adminCt with
      | some k => .ok (some k)
      | none => .err .foreign
    | none => match memberKey P e groupXpk with
      | none => .err .foreign
      | some key => .ok (firstOpen P.toMPrims key nonce cts)

/-- The bytes from the first key that is not smaller than `find` on, and whether it is `find`. -/
def seekAt : Nat → Bytes → Bytes → Option (Bool × Bytes)
  | 0, _, _ => none
  | f + 1, find, bs =>
    match bs with
    | [] => none
    | c :: t =>
      if c = 101 then some (false, c :: t)
      else match decStr (c :: t) with
        | none => none
        | some (k, r) =>
          if k < find then
            match decV r.length r with
            | none => none
            | some (_, r') => seekAt f find r'
          else some (decide (k = find), c :: t)

/-- `verify_config_sig` (src/config.cpp:432-457) with a verifier, on what is left of `data`. -/
def checkSig (e : GEnv) (data rest : Bytes) : Out Unit :=
  match seekAt rest.length [126] rest with
  | none => .err .foreign
  | some (false, _) => .err .missingSig
  | some (true, at_) => match decStr at_ with
    | none => .err .foreign
    | some (_, r) => match takeStr r with
      | none => .err .foreign
      | some (sig, r') =>
        if sig.length ≠ 64 then .err .badSig
        else if P.verify e.groupPk (data.take (data.length - at_.length)) sig = false then .err .badSig
        else match r' with
          | 101 :: _ => .ok ()
          | _ => .err .parse

/-- The rest of a supplemental message (src/config/groups/keys.cpp:939-1011) -/
def parseSupp (e : GEnv) (gx nonce r : Bytes) : Out (Found × Bytes) :=
  match takeList r with
  | none => .err .foreign
  | some (l, r1) => match allStrs l with
    | none => .err .foreign
    | some cts => loadSupp P e gx nonce cts >>= fun ks =>
      match requireKey [71] r1 with
      | none => .err .foreign
      | some r2 => match takeInt r2 with
        | none => .err .foreign
        | some (g, r3) => .ok (⟨ks, some g⟩, r3)

/-- The keys found in a full message (src/config/groups/keys.cpp:1081-1085) -/
def foundOf (ts gen : Int) : Option Bytes → Found
  | some k => ⟨[⟨gen, ts, k⟩], none⟩
  | none => ⟨[], some gen⟩

/-- The rest of a full message (src/config/groups/keys.cpp:1013-1086) -/
def parseFull (e : GEnv) (gx nonce : Bytes) (ts : Int) (r : Bytes) : Out (Found × Bytes) :=
  if tsOk ts = false then .ub
  else match requireKey [71] r with
    | none => .err .foreign
    | some r1 => match takeInt r1 with
      | none => .err .foreign
      | some (gen, r2) => if gen < 0 then .err .foreign else match requireKey [75] r2 with
        | none => .err .foreign
        | some r3 => match takeStr r3 with
          | none => .err .foreign
          | some (adminCt, r4) => match requireKey [107] r4 with
            | none => .err .foreign
            | some r5 => match takeList r5 with
              | none => .err .foreign
              | some (l, r6) => match allStrs l with
                | none => .err .foreign
                | some cts => loadFull P e gx nonce adminCt cts >>= fun k => .ok (foundOf ts gen k, r6)

/-- Parsing and verifying a key message: `load_key_message` up to the signature check
(src/config/groups/keys.cpp:907-1088).  All exceptions before the signature check are `foreign`. -/
def parseKeyMsg (e : GEnv) (data : Bytes) (ts : Int) : Out Found :=
  match openDict data with
  | none => .err .foreign
  | some r0 => match P.xpk e.groupPk with
    | none => .err .foreign
    | some gx => match requireKey [35] r0 with
      | none => .err .foreign
      | some r1 => match takeStr r1 with
        | none => .err .foreign
        | some (nonce, r2) => match seekKey r2.length [43] r2 with
          | none => .err .foreign
          | some (true, r3) => parseSupp P e gx nonce r3 >>= fun fr =>
              checkSig P e data fr.2 >>= fun _ => .ok fr.1
          | some (false, r3) => parseFull P e gx nonce ts r3 >>= fun fr =>
              checkSig P e data fr.2 >>= fun _ => .ok fr.1

/-- Dropping the pending key (src/config/groups/keys.cpp:1090-1096) -/
def GKeys.dropPending (s : GKeys) (isAdmin : Bool) : List KeyInfo → GKeys
  | [] => s
  | k :: _ =>
    if isAdmin ∧ s.pendingConfig ≠ [] ∧ (s.pendingGen < k.gen ∨ k.key = s.pendingKey) then
      { s with pendingConfig := [], needsDump := true }
    else s

/-- What `load_key_message` does with what it found (src/config/groups/keys.cpp:1090-1113). -/
def GKeys.apply (s : GKeys) (isAdmin : Bool) (hash : Bytes) (f : Found) : GKeys × Bool :=
  match f.newKeys with
  | [] => match f.maxGen with
    | some g => ({ ({ s with active := addHash g hash s.active } : GKeys).removeExpired with needsDump := true }, false)
    | none => (s, false)
  | ks => (ks.foldl (fun s k => s.insertKey hash k) (s.dropPending isAdmin ks), true)

/-- `load_key_message` (src/config/groups/keys.cpp:907-1114): the new state and whether it brought us
keys (in which case `Info` and `Members` get `group_keys()`). -/
def GKeys.load (e : GEnv) (s : GKeys) (hash data : Bytes) (ts : Int) : Out (GKeys × Bool) :=
  parseKeyMsg P e data ts >>= fun f => .ok (s.apply e.admin hash f)

/-- `needs_rekey` (src/config/groups/keys.cpp:1187-1198) -/
def GKeys.needsRekey (isAdmin : Bool) (s : GKeys) : Bool :=
  match s.keys.reverse with
  | a :: b :: _ => isAdmin && a.gen == b.gen
  | _ => false

end Verif
