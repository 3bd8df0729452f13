import Verif.Batch
import Verif.Encrypt
import Verif.MergeResult

/-!
# A config object as the application sees it

Models `ConfigBase` (include/session/config/base.hpp, src/config/base.cpp:26-540): state machine,
`merge`, `push`, `confirm_pushed`, `dump`, loading a dump, and the list of encryption keys.

zstd and the protobuf wrapper (src/config/protos.cpp, modelled in Verif/Protos.lean) are parameters.
-/

namespace Verif

/-- `ConfigState` (include/session/config/base.hpp:34-46). -/
inductive CState where
  | clean
  | dirty
  | waiting
deriving DecidableEq

/-- What a `ConfigBase` subclass and the environment provide. -/
structure Sys where
  /-- hash function, verifier, signer and `config_lags()` -/
  env : Env
  /-- encryption primitives -/
  P : Prims
  /-- `encryption_domain()` -/
  domain : Bytes
  /-- `zstd_compress` at the level of `compression_level()` (always set,
  include/session/config/base.hpp:869), without the prefix -/
  zip : Bytes → Bytes
  /-- `zstd_decompress` -/
  unzip : Bytes → Option Bytes
  /-- `protos::wrap_config` (key, message, seqno) and `protos::unwrap_config` (key, message) if
  `accepts_protobuf()` -/
  proto : Option ((Bytes → Bytes → Int → Out Bytes) × (Bytes → Bytes → Option Bytes))

/-- The members of `ConfigBase` (include/session/config/base.hpp:146-183). -/
structure Client where
  /-- `_config` -/
  conf : Conf
  /-- `_state` -/
  st : CState
  /-- `_curr_hash` -/
  curr : Bytes
  /-- `_old_hashes`, an `unordered_set`: the list has no duplicates, its order has no meaning -/
  old : List Bytes
  /-- `_needs_dump` -/
  needsDump : Bool
  /-- `_keys` -/
  keys : List Bytes
deriving DecidableEq

/-- `ConfigBase(nullopt, ...)` (src/config/base.cpp:349-363) -/
def Client.new (S : Sys) : Client :=
  { conf := ⟨newMsg S.env.H, none⟩, st := .clean, curr := [], old := [], needsDump := false,
    keys := [] }

/-- `unordered_set::insert` -/
def hinsert (h : Bytes) (s : List Bytes) : List Bytes := if h ∈ s then s else s ++ [h]

/-- `set_state` (src/config/base.cpp:26-36) where it does not throw. -/
def Client.setState (c : Client) (s : CState) : Client :=
  let c1 := if c.st = .clean ∧ c.curr ≠ [] then { c with old := hinsert c.curr c.old, curr := [] }
    else c
  { c1 with st := s, needsDump := true }

/-- `dirty()` (src/config/base.cpp:38-47).  `set_state` throws for a read-only object; incrementing
the largest seqno would overflow. -/
def Client.dirty (S : Sys) (c : Client) : Client × Out Unit :=
  if c.st = .dirty then
    if c.conf.orig.isSome then (c, .ok ()) else (c, .err .foreign)
  else if S.env.readonly then (c, .err .foreign)
  else if !int64Ok (c.conf.m.seqno + 1) then (c, .ub)
  else ({ c.setState .dirty with conf := c.conf.increment S.env }, .ok ())

/-- A modification of the data: `dirty().data() = d` (include/session/config/base.hpp:248-268; which
modifications the accessors perform is the subject of Verif/Proxy.lean). -/
def Client.edit (S : Sys) (c : Client) (d : Dict) : Client × Out Unit :=
  match c.dirty S with
  | (c1, .ok _) => ({ c1 with conf := { c1.conf with m := { c1.conf.m with data := d } } }, .ok ())
  | r => r

/-! ### merge (src/config/base.cpp:57-252) -/

/-- Unwrapping protobuf (src/config/base.cpp:65-85): what cannot be unwrapped is passed on as is. -/
def unwrapOne (S : Sys) (keys : List Bytes) (raw : Bytes) : Bytes :=
  match S.proto, keys with
  | some (_, unwrap), k :: _ => (unwrap k raw).getD raw
  | _, _ => raw

/-- Decryption with the first key that works (src/config/base.cpp:126-141).  (`decrypt` raises nothing
but `decrypt_error` for keys of 32 bytes and a domain of 1 to 24 bytes: `decrypt_errors`.) -/
def openWith (S : Sys) : List Bytes → Bytes → Option Bytes
  | [], _ => none
  | k :: ks, c =>
    match decrypt S.P c k S.domain with
    | .ok m => some m
    | _ => openWith S ks c

/-- Padding, multipart marker and compression (src/config/base.cpp:148-176). -/
def unpack (S : Sys) (plain : Bytes) : Option Bytes :=
  match unpad plain with
  | [] => none
  | b :: t =>
    if b = 109 then none
    else if b = 122 then
      match S.unzip t with
      | some (x :: r) => some (x :: r)
      | _ => none
    else some (b :: t)

/-- From the bytes received to the serialised config message, if usable. -/
def receive (S : Sys) (keys : List Bytes) (raw : Bytes) : Option Bytes :=
  (openWith S keys (unwrapOne S keys raw)).bind (unpack S)

/-- The usable incoming messages with their hashes, in order. -/
def gather (S : Sys) (keys : List Bytes) (configs : List (Bytes × Bytes)) : List (Bytes × Bytes) :=
  configs.filterMap fun p => (receive S keys p.2).map fun m => (p.1, m)

/-- Whether our own config takes part in the merge (src/config/base.cpp:110). -/
def Client.hasMine (c : Client) : Bool := decide (c.conf.m.seqno ≠ 0) || decide (c.st = .dirty)

/-- `all_hashes`/`all_confs` (src/config/base.cpp:96-113,185-186). -/
def Client.allConfs (env : Env) (c : Client) (inc : List (Bytes × Bytes)) : List (Bytes × Bytes) :=
  (if c.hasMine then [(c.curr, c.conf.ser env true)] else []) ++ inc

/-- The object after `serialize()` of our own config (src/config/base.cpp:111). -/
def Client.touched (c : Client) : Client := { c with conf := c.conf.refresh }

/-- Hashes added to `_old_hashes` (src/config/base.cpp:207-212). -/
def staleHashes (all : List (Bytes × Bytes)) (superconf : Int) (bad : List Nat) : List Bytes :=
  (all.zipIdx.filter fun p =>
    decide ((p.2 : Int) ≠ superconf) && !bad.contains p.2 && decide (p.1.1 ≠ [])).map (·.1.1)

/-- Inserting into the set `_old_hashes`, one after another (src/config/base.cpp:207-212). -/
def hinsertAll (hs : List Bytes) (s : List Bytes) : List Bytes := hs.foldl (fun s h => hinsert h s) s

/-- The hashes returned (src/config/base.cpp:244-251). -/
def goodHashes (all : List (Bytes × Bytes)) (own : Bool) (bad : List Nat) : List Bytes :=
  (all.zipIdx.filter fun p => decide ((if own then 1 else 0) ≤ p.2) && !bad.contains p.2).map (·.1.1)

/-- `new_conf` (src/config/base.cpp:190-199): mutable if we are dirty. -/
def Client.newConf (S : Sys) (c : Client) (R : Msg) : Conf :=
  if c.st = .dirty then mutFromMerge S.env R else ⟨R, none⟩

/-- The object after our own config was serialised and the stale hashes were noted
(src/config/base.cpp:110-113,207-212). -/
def Client.noted (c : Client) (all : List (Bytes × Bytes)) (R : Msg) (bad : List Nat) : Client :=
  { c with conf := if c.hasMine then c.conf.refresh else c.conf,
           old := hinsertAll (staleHashes all R.unmerged bad) c.old }

/-- The config stored when a merge took place (src/config/base.cpp:216-226). -/
def Client.mergedConf (S : Sys) (c : Client) (R : Msg) : Conf :=
  if c.st = .dirty then c.newConf S R else (c.newConf S R).retain

/-- The decision part of `_merge` (src/config/base.cpp:201-251), given the outcome of the config
message merge.  The `assert`s are not part of this function (see `Client.assertsHold`). -/
def Client.absorb (S : Sys) (c : Client) (all : List (Bytes × Bytes)) (R : Msg) (bad : List Nat) :
    Client × Out (List Bytes) :=
  let c2 := c.noted all R bad
  let good := goodHashes all c.hasMine bad
  if (c.newConf S R).m.seqno = c.conf.m.seqno then (c2, .ok good)
  else if R.unmerged = -1 then
    let c3 := { c2 with conf := c.mergedConf S R }
    if S.env.readonly then (c3, .err .foreign) else (c3.setState .dirty, .ok good)
  else if c.st = .dirty ∧ R.unmerged = 0 ∧ (c.newConf S R).m.seqno = c.conf.m.seqno + 1 then
    (c2, .ok good)
  else
    match all[R.unmerged.toNat]? with
    | some (h, _) => ({ c2.setState .clean with conf := c.newConf S R, curr := h }, .ok good)
    | none => (c2, .ub)

/-- `_merge` after decryption (src/config/base.cpp:96-113,190-252). -/
def Client.mergeCore (S : Sys) (c : Client) (inc : List (Bytes × Bytes)) :
    Client × Out (List Bytes) :=
  let all := c.allConfs S.env inc
  match mergeMsgs S.env (all.map (·.2)) with
  | .ok (R, bad) => c.absorb S all R bad
  | .err e => ({ c with conf := if c.hasMine then c.conf.refresh else c.conf }, .err e)
  | .hang => (c, .hang)
  | .ub => (c, .ub)

/-- `merge` (src/config/base.cpp:57-252). -/
def Client.merge (S : Sys) (c : Client) (configs : List (Bytes × Bytes)) : Client × Out (List Bytes) :=
  if c.keys = [] then (c, .err .foreign) else c.mergeCore S (gather S c.keys configs)

/-! ### push, confirm_pushed (src/config/base.cpp:265-320) -/

/-- `needs_push` (src/config/base.cpp:261-263) -/
def Client.needsPush (c : Client) : Bool := decide (c.st ≠ .clean)

/-- `current_hashes` (src/config/base.cpp:254-259) -/
def Client.currentHashes (c : Client) : List Bytes := if c.curr = [] then [] else [c.curr]

/-- `compress_message` (src/config/base.cpp:268-275). -/
def compress (S : Sys) (msg : Bytes) : Bytes :=
  let z := 122 :: S.zip msg
  if z.length < msg.length then z else msg

/-- What is sent for a serialised config message (src/config/base.cpp:284-298). -/
def envelope (S : Sys) (key : Bytes) (seqno : Int) (msg : Bytes) : Out Bytes :=
  encrypt S.P (padMessage (compress S msg) 40) key S.domain >>= fun e =>
    match S.proto with
    | some (wrap, _) => wrap key e seqno
    | none => .ok e

/-- `MAX_MESSAGE_SIZE` (include/session/config.hpp:19) -/
def maxMessageSize : Nat := 76800

/-- `push` (src/config/base.cpp:277-311): seqno, message, obsolete hashes. -/
def Client.push (S : Sys) (c : Client) : Client × Out (Int × Bytes × List Bytes) :=
  match c.keys with
  | [] => (c, .err .foreign)
  | k :: _ =>
    match envelope S k c.conf.m.seqno (c.conf.ser S.env true) with
    | .ok msg =>
      if msg.length > maxMessageSize then (c.touched, .err .foreign)
      else
        let c1 := if c.st = .dirty then c.touched.setState .waiting else c.touched
        ({ c1 with old := [] },
          .ok (c.conf.m.seqno, msg, if S.env.readonly then [] else c1.old))
    | .err e => (c.touched, .err e)
    | .hang => (c, .hang)
    | .ub => (c, .ub)

/-- `confirm_pushed` (src/config/base.cpp:313-320). -/
def Client.confirm (c : Client) (seqno : Int) (hash : Bytes) : Client :=
  if c.st = .waiting ∧ seqno = c.conf.m.seqno then { c.setState .clean with curr := hash } else c

/-! ### dump and loading a dump (src/config/base.cpp:322-347,378-417) -/

/-- The numbers of `ConfigState` (include/session/config/base.hpp:30-49), as a dump stores them. -/
def CState.code : CState → Int
  | .clean => 0
  | .dirty => 1
  | .waiting => 2

/-- `make_dump` (src/config/base.cpp:331-347) for a config without `extra_data`; the order in which the
old hashes are written is unspecified, so it is an argument (a permutation of `old`). -/
def Client.dumpBytes (S : Sys) (c : Client) (ord : List Bytes) : Bytes :=
  100 :: (encD [([33], .int c.st.code), ([36], .str (c.conf.ser S.env false)), ([40], .str c.curr),
    ([41], .list (ord.map .str))] ++ [101])

/-- `dump` (src/config/base.cpp:322-329): the object afterwards. -/
def Client.dumped (S : Sys) (c : Client) : Client :=
  { c.touched with old := if S.env.readonly then [] else c.old, needsDump := false }

/-- `skip_until` on the entries of a dict: drop smaller keys; present only if the next key is it. -/
def skipUntil (k : Bytes) (es : List TopEntry) : List TopEntry := es.dropWhile fun e => e.key < k

/-- Reading a dump: no verifier and no signer (src/config/base.cpp:395-403). -/
def Env.unsigned (env : Env) : Env := { env with verifier := none, signer := none }

/-- Consuming the list of old hashes (src/config/base.cpp:410-411). -/
def readHashes : List Bt → List Bytes → Out (List Bytes)
  | [], s => .ok s
  | .str h :: t, s => readHashes t (hinsert h s)
  | _ :: _, _ => .err .foreign

/-- The message object of a dump (src/config/base.cpp:386-404). -/
def loadConf (env : Env) (st : CState) (data : Bytes) : Out Conf :=
  if st = .dirty then
    match mergeMsgs env.unsigned [data] with
    | .ok (R, _) => .ok (mutFromMerge env.unsigned R)
    | .err e => .err e
    | .hang => .hang
    | .ub => .ub
  else parseMsg env.unsigned true data >>= fun m => .ok ⟨m, none⟩

/-- `_curr_hash` and `_old_hashes` (src/config/base.cpp:406-412). -/
def loadHashes (es : List TopEntry) : Out (Bytes × List Bytes) :=
  match skipUntil [40] es with
  | e :: es2 =>
    if e.key = [40] then
      match e.val, skipUntil [41] es2 with
      | .str curr, e2 :: _ =>
        if e2.key = [41] then
          match e2.val with
          | .list l => readHashes l [] >>= fun o => .ok (curr, o)
          | _ => .err .foreign
        else .err .foreign
      | _, _ => .err .foreign
    else .ok ([], [])
  | [] => .ok ([], [])

/-- `init_from_dump` (src/config/base.cpp:378-417), without `extra_data`.  Simplifications: the dump
is decoded as a whole before it is looked at, and a state other than 0, 1, 2 (which the code would
store as an unnamed enumerator) is an error. -/
def Client.restore (S : Sys) (dump : Bytes) : Out Client :=
  match dump with
  | 100 :: t =>
    match decTop t.length 1 t with
    | none => .err .foreign
    | some (es, _) =>
      match skipUntil [33] es with
      | e1 :: es1 =>
        if e1.key ≠ [33] then .err .foreign
        else
          match e1.val, skipUntil [36] es1 with
          | .int i, e2 :: es2 =>
            if e2.key ≠ [36] then .err .foreign
            else
              match e2.val with
              | .str data =>
                if i = 0 ∨ i = 1 ∨ i = 2 then
                  let st : CState := if i = 0 then .clean else if i = 1 then .dirty else .waiting
                  loadConf S.env st data >>= fun conf =>
                  loadHashes es2 >>= fun h =>
                    .ok { conf := conf, st := st, curr := h.1, old := h.2, needsDump := false, keys := [] }
                else .err .foreign
              | _ => .err .foreign
          | _, _ => .err .foreign
      | [] => .err .foreign
  | _ => .err .foreign

/-! ### Encryption keys (src/config/base.cpp:419-524) -/

/-- `remove_key(key, from, dirty_config)` (src/config/base.cpp:497-519). -/
def Client.removeKey (S : Sys) (c : Client) (key : Bytes) (start : Nat) (dirtyConfig : Bool) :
    Client × Out Bool :=
  match c.keys with
  | [] => (c, .ok false)
  | front :: _ =>
    if c.keys.length ≤ start then (c, .ok false)
    else
      let ks := c.keys.take start ++ (c.keys.drop start).filter (· ≠ key)
      let c1 := { c with keys := ks }
      if dirtyConfig && !S.env.readonly && decide (key = front) then
        match c1.dirty S with
        | (c2, .ok _) => (c2, .ok (decide (ks.length < c.keys.length)))
        | (c2, .err e) => (c2, .err e)
        | (c2, .hang) => (c2, .hang)
        | (c2, .ub) => (c2, .ub)
      else (c1, .ok (decide (ks.length < c.keys.length)))

/-- `add_key(key, high_priority, dirty_config)` (src/config/base.cpp:442-469). -/
def Client.addKey (S : Sys) (c : Client) (key : Bytes) (high dirtyConfig : Bool) : Client × Out Unit :=
  if key.length ≠ 32 then (c, .err .foreign)
  else if c.keys.head? = some key then (c, .ok ())
  else if !high && decide (key ∈ c.keys) then (c, .ok ())
  else
    let c1 := if high then (c.removeKey S key 1 false).1 else c
    let c2 := { c1 with keys := if high then key :: c1.keys else c1.keys ++ [key] }
    if dirtyConfig && !S.env.readonly && (decide (c2.keys.length = 1) || high) then c2.dirty S
    else (c2, .ok ())

/-- `clear_keys(dirty_config)` (src/config/base.cpp:471-480); returns the number of keys. -/
def Client.clearKeys (S : Sys) (c : Client) (dirtyConfig : Bool) : Client × Out Unit :=
  let c1 := { c with keys := [] }
  if dirtyConfig && !S.env.readonly && decide (0 < c.keys.length) then c1.dirty S else (c1, .ok ())

/-- `replace_keys(new_keys, dirty_config)` (src/config/base.cpp:482-506). -/
def Client.replaceKeys (S : Sys) (c : Client) (new : List Bytes) (dirtyConfig : Bool) :
    Client × Out Unit :=
  match new with
  | [] => if c.keys = [] then (c, .ok ()) else c.clearKeys S dirtyConfig
  | k :: ks =>
    if (k :: ks).any (fun k => decide (k.length ≠ 32)) then (c, .err .foreign)
    else
      let d := dirtyConfig && !S.env.readonly && (decide (c.keys = []) || decide (c.keys.head? ≠ some k))
      let c1 := (k :: ks).foldl (fun c k => (c.addKey S k false false).1) { c with keys := [] }
      if d then c1.dirty S else (c1, .ok ())

end Verif
