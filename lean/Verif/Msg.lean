import Verif.Data

/-!
# Config messages: serialisation, parsing, signatures, merging, incrementing

Models `ConfigMessage` and `MutableConfigMessage` (include/session/config.hpp:71-344,
src/config.cpp:314-355,432-796) and the unknown-key helpers of src/config/internal.cpp:138-176.

The hash function (BLAKE2b-256), the signature verifier and the signer are parameters.
-/

namespace Verif

/-- `seqno_hash_t = std::pair<seqno_t, hash_t>`, ordered lexicographically
(include/session/config.hpp:41-42). -/
abbrev SH := Int ×ₗ Bytes

/-- Parameters of a config message: hash function, `verifier`, `signer` and `lag`
(include/session/config.hpp:106-187). -/
structure Env where
  /-- `hash_msg` (src/config.cpp:351-355) -/
  H : Bytes → Bytes
  /-- `verify_callable`; `none` is a null `std::function` -/
  verifier : Option (Bytes → Bytes → Bool)
  /-- `sign_callable`; `none` is a null `std::function` -/
  signer : Option (Bytes → Bytes)
  /-- `int lag` -/
  lag : Int

/-- Members of `ConfigMessage` (include/session/config.hpp:78-101). -/
structure Msg where
  data : Dict
  diff : BtDict
  lagged : List (SH × BtDict)
  unknown : BtDict
  seqno : Int
  hash : Bytes
  /-- `verified_signature_` -/
  vsig : Option Bytes
  /-- `unmerged_` -/
  unmerged : Int
deriving DecidableEq

/-- `seqno_hash_` -/
def Msg.sh (m : Msg) : SH := toLex (m.seqno, m.hash)

/-- Value of `MutableConfigMessage{}` / the members before hashing (include/session/config.hpp:78-101,
266-271). -/
def Msg.empty : Msg :=
  { data := [], diff := [], lagged := [], unknown := [], seqno := 0, hash := List.replicate 32 0,
    vsig := none, unmerged := -1 }

/-- The fixed top-level keys. -/
def kSeq : Bytes := [35]   -- "#"
/-- The key of the data (src/config.cpp:732-787) -/
def kData : Bytes := [38]  -- "&"
/-- The key of the lagged diffs (src/config.cpp:732-787) -/
def kLag : Bytes := [60]   -- "<"
/-- The key of the message's own diff (src/config.cpp:732-787) -/
def kDiff : Bytes := [61]  -- "="
/-- The key of the signature (src/config.cpp:732-787) -/
def kSig : Bytes := [126]  -- "~"

/-! ### Serialising (src/config.cpp:732-787) -/

/-- Row of the lagged-diff list (src/config.cpp:755-758). -/
def lagRow (p : SH × BtDict) : Bt := .list [.int p.1.1, .str p.1.2, .dict p.2]

/-- Which lagged diffs are written (src/config.cpp:753-754). -/
def lagLive (seqno lag : Int) (p : SH × BtDict) : Bool :=
  !(decide (p.1.1 ≤ seqno - lag) || decide (p.1.1 ≥ seqno))

/-- `append_unknown` (src/config/internal.cpp:140-150): what is written ... -/
def unkTake (u : BtDict) (til : Bytes) : BtDict := u.takeWhile fun p => decide (p.1 < til)
/-- ... and what remains. -/
def unkDrop (u : BtDict) (til : Bytes) : BtDict := u.dropWhile fun p => decide (p.1 < til)

/-- Everything `serialize_impl` writes before the signature (src/config.cpp:741-767). -/
def Msg.top (lag : Int) (m : Msg) : BtDict :=
  let u1 := unkDrop m.unknown kData
  let u2 := unkDrop u1 kLag
  let u3 := unkDrop u2 kDiff
  (kSeq, .int m.seqno) :: (unkTake m.unknown kData ++
    ((kData, .dict (dictBt m.data)) :: (unkTake u1 kLag ++
      ((kLag, .list ((m.lagged.filter (lagLive m.seqno lag)).map lagRow)) :: (unkTake u2 kDiff ++
        ((kDiff, .dict m.diff) :: unkTake u3 kSig))))))

/-- The bytes covered by the signature: `d` and the pairs before `1:~`. -/
def Msg.body (lag : Int) (m : Msg) : Bytes := 100 :: encD (m.top lag)

/-- The signature appended by `serialize_impl`, if any (src/config.cpp:769-785).  (A signer returning
anything but 64 bytes raises `std::logic_error`; the library's signers always return 64,
src/config/base.cpp:549-556.) -/
def Msg.sig (env : Env) (m : Msg) (enable : Bool) : Option Bytes :=
  match m.vsig with
  | some s => some s
  | none =>
    match env.signer with
    | some f => if enable then some (f (m.body env.lag)) else none
    | none => none

/-- `serialize_impl(diff_, enable_signing)` (src/config.cpp:738-787). -/
def Msg.ser (env : Env) (m : Msg) (enable : Bool) : Bytes :=
  match m.sig env enable with
  | some s => m.body env.lag ++ (encStr kSig ++ (encStr s ++ [101]))
  | none => m.body env.lag ++ [101]

/-! ### Parsing (src/config.cpp:314-345,432-457,529-565) -/

mutual
/-- Loading a value into `oxenc::bt_value`: nested dicts go through `std::map`, which sorts the keys
and keeps the first of duplicates. -/
def norm : Bt → Bt
  | .int i => .int i
  | .str s => .str s
  | .list l => .list (normL l)
  | .dict d => .dict ((normD d).foldl (fun m p => memplace p.1 p.2 m) [])
termination_by structural x => x
/-- `norm` for the elements of a list. -/
def normL : List Bt → List Bt
  | [] => []
  | v :: t => norm v :: normL t
termination_by structural x => x
/-- `norm` for the values of a dict. -/
def normD : List (Bytes × Bt) → List (Bytes × Bt)
  | [] => []
  | (k, v) :: t => (k, norm v) :: normD t
termination_by structural x => x
end

/-- `load_unknowns` (src/config/internal.cpp:154-176). -/
def loadUnknowns (prev til : Bytes) :
    BtDict → List TopEntry → Out (BtDict × List TopEntry)
  | u, [] => .ok (u, [])
  | u, e :: r =>
    if e.key < til then
      if e.key ≤ prev || outOfOrder (u.getLast?.map (·.1)) e.key then .err .parse
      else loadUnknowns prev til (u ++ [(e.key, norm e.val)]) r
    else .ok (u, e :: r)

/-- `parse_lagged_diffs` (src/config.cpp:314-345), from the row after `last`.  `curr_seqno - lag` is
signed 64-bit arithmetic. -/
def parseLagged (cur lag : Int) : Option SH → List Bt → Out (List (SH × BtDict))
  | _, [] => .ok []
  | last, row :: t =>
    match row with
    | .list (.int s :: rest) =>
      if !int64Ok s then .err .parse
      else if s ≥ cur then .err .parse
      else if !int64Ok (cur - lag) then .ub
      else if s ≤ cur - lag then parseLagged cur lag last t
      else match rest with
        | .str h :: rest2 =>
          if h.length ≠ 32 then .err .parse
          else if outOfOrder last (toLex (s, h) : SH) then .err .parse
          else match rest2 with
            | .dict d :: rest3 =>
              loadD none d >>= fun d' =>
                if rest3 ≠ [] then .err .parse
                else parseLagged cur lag (some (toLex (s, h))) t >>= fun r =>
                  .ok ((toLex (s, h), d') :: r)
            | _ => .err .parse
        | _ => .err .parse
    | _ => .err .parse

/-- `verify_config_sig` (src/config.cpp:432-457): the remaining entries after everything below `~` has
been consumed; returns `verified_signature_`. -/
def verifySig (env : Env) (trust : Bool) (bs : Bytes) : List TopEntry → Out (Option Bytes)
  | e :: r =>
    if e.key = kSig then
      match e.val with
      | .str sig =>
        if sig.length ≠ 64 then .err .badSig
        else match env.verifier with
          | some v =>
            if v (bs.take e.off) sig then
              (if r = [] then .ok (some sig) else .err .parse)
            else .err .badSig
          | none =>
            if r = [] then .ok (if trust then some sig else none) else .err .parse
      | _ => .err .parse
    else if env.verifier.isSome then .err .missingSig
    else .err .parse
  | [] => if env.verifier.isSome then .err .missingSig else .ok none

/-- First entry: `dict.next_integer<int64_t>()` with key `#` (src/config.cpp:542-545). -/
def takeSeq : List TopEntry → Out (Int × List TopEntry)
  | ⟨_, k, .int i⟩ :: r =>
    if int64Ok i && decide (k = kSeq) then .ok (i, r) else .err .parse
  | _ => .err .parse

/-- `dict.next_dict_consumer()` with key `&`, then `parse_data` (src/config.cpp:547-550). -/
def takeData : List TopEntry → Out (Dict × List TopEntry)
  | ⟨_, k, .dict d⟩ :: r =>
    if k = kData then parseD none d >>= fun x => .ok (x, r) else .err .parse
  | _ => .err .parse

/-- The optional `<` entry (src/config.cpp:552-553); `dict.key()` throws at the end of the dict. -/
def takeLag (cur lag : Int) : List TopEntry → Out (List (SH × BtDict) × List TopEntry)
  | [] => .err .parse
  | e :: r =>
    if e.key = kLag then
      match e.val with
      | .list rows => parseLagged cur lag none rows >>= fun x => .ok (x, r)
      | _ => .err .parse
    else .ok ([], e :: r)

/-- The optional `=` entry (src/config.cpp:556-557); `dict.key()` throws at the end of the dict. -/
def takeDiff : List TopEntry → Out (BtDict × List TopEntry)
  | [] => .err .parse
  | e :: r =>
    if e.key = kDiff then
      match e.val with
      | .dict d => loadD none d >>= fun x => .ok (x, r)
      | _ => .err .parse
    else .ok ([], e :: r)

/-- The body of the constructor after the hash (src/config.cpp:542-561), on the entries of the
top-level dict. -/
def parseEntries (env : Env) (trust : Bool) (bs : Bytes) (es : List TopEntry) : Out Msg :=
  takeSeq es >>= fun (s, es) =>
  loadUnknowns kSeq kData [] es >>= fun (u, es) =>
  takeData es >>= fun (d, es) =>
  loadUnknowns kData kLag u es >>= fun (u, es) =>
  takeLag s env.lag es >>= fun (lg, es) =>
  loadUnknowns kLag kDiff u es >>= fun (u, es) =>
  takeDiff es >>= fun (df, es) =>
  loadUnknowns kDiff kSig u es >>= fun (u, es) =>
  verifySig env trust bs es >>= fun vs =>
  .ok { data := d, diff := df, lagged := lg, unknown := u, seqno := s, hash := env.H bs,
        vsig := vs, unmerged := -1 }

/-- `ConfigMessage(serialized, verifier, signer, lag, trust_signature)` (src/config.cpp:529-565).
The `bt_dict_consumer` is constructed *outside* the `try` block (src/config.cpp:537), so data that is
not a dict raises an exception that is not a `config_error`.  Bytes after the closing `e` are not
looked at. -/
def parseMsg (env : Env) (trust : Bool) (bs : Bytes) : Out Msg :=
  match bs with
  | 100 :: b :: t =>
    match decTop (b :: t).length 1 (b :: t) with
    | some (es, _) => parseEntries env trust bs es
    | none => .err .parse
  | _ => .err .foreign

/-! ### Merging (src/config.cpp:567-694) -/

/-- The parsing loop (src/config.cpp:575-587): parsed messages, and the indices handed to the error
handler.  Only `config_error`s are caught. -/
def parseAll (env : Env) : Nat → List Bytes → Out (List Msg × List Nat)
  | _, [] => .ok ([], [])
  | i, b :: t =>
    match parseMsg env false b with
    | .ok m => parseAll env (i + 1) t >>= fun p => .ok (m :: p.1, p.2)
    | .err .foreign => .err .foreign
    | .err _ => parseAll env (i + 1) t >>= fun p => .ok (p.1, i :: p.2)
    | .hang => .hang
    | .ub => .ub

/-- `max_seqno` (src/config.cpp:591,597-598). -/
def maxSeq : List Msg → Int
  | [] => -(2 ^ 63)
  | m :: t => max m.seqno (maxSeq t)

/-- `conf2.lagged_diffs_.count(sh)` -/
def includes (c2 : Msg) (sh : SH) : Bool := (mget sh c2.lagged).isSome

/-- Redundancy of the config at index `i` (src/config.cpp:595-614). -/
def redundantAt (lag : Int) (cs : List Msg) (i : Nat) (c : Msg) : Bool :=
  cs.zipIdx.any (fun p =>
    decide (p.2 ≠ i) && (includes p.1 c.sh || (decide (p.2 < i) && decide (p.1.sh = c.sh)))) ||
  decide (c.seqno + lag ≤ maxSeq cs)

/-- The configs with their index and `redundant` flag. -/
def flagged (lag : Int) (cs : List Msg) : List (Msg × Nat × Bool) :=
  cs.zipIdx.map fun p => (p.1, p.2, redundantAt lag cs p.2 p.1)

/-- The non-redundant configs with their indices. -/
def kept (lag : Int) (cs : List Msg) : List (Msg × Nat) :=
  ((flagged lag cs).filter fun p => !p.2.2).map fun p => (p.1, p.2.1)

/-- `std::max_element` with the comparison of src/config.cpp:640-644 (first of equals wins). -/
def better (a b : Msg × Nat × Bool) : Bool :=
  if a.2.2 ≠ b.2.2 then a.2.2 else decide (a.1.sh < b.1.sh)

/-- `std::max_element` (src/config.cpp:640-644) -/
def maxElem : List (Msg × Nat × Bool) → Option (Msg × Nat × Bool)
  | [] => none
  | a :: t => some (t.foldl (fun best x => if better best x then x else best) a)

/-- `std::sort` descending by (seqno, hash) (src/config.cpp:661-663); the keys are distinct. -/
def insDesc (m : Msg) : List Msg → List Msg
  | [] => [m]
  | x :: t => if x.sh < m.sh then m :: x :: t else x :: insDesc m t

/-- The whole sort (src/config.cpp:661-663) -/
def sortDesc : List Msg → List Msg
  | [] => []
  | m :: t => insDesc m (sortDesc t)

/-- The `replay` map (src/config.cpp:669-679): `emplace` never replaces, configs are walked in
descending order. -/
def addReplay (rp : List (SH × (Dict × BtDict))) (m : Msg) : List (SH × (Dict × BtDict)) :=
  m.lagged.foldl (fun rp p => memplace p.1 (m.data, p.2) rp) (memplace m.sh (m.data, m.diff) rp)

/-- The whole map (src/config.cpp:669-679) -/
def replayOf (ms : List Msg) : List (SH × (Dict × BtDict)) := ms.foldl addReplay []

/-- Applying the diffs in ascending order (src/config.cpp:683-687). -/
def applyReplay : List (SH × (Dict × BtDict)) → Dict → Out Dict
  | [], d => .ok d
  | (_, (src, df)) :: t, d => applyD df d src >>= fun d' => applyReplay t d'

/-- The merge proper (src/config.cpp:650-693); `ms` are the non-redundant configs sorted descending.
An empty list would be `configs.front()` of an empty vector.  `unknown_` is *not* carried over. -/
def mergeKept (env : Env) (maxS : Int) (ms : List Msg) : Out Msg :=
  match ms with
  | [] => .ub
  | top :: _ =>
    if !int64Ok (maxS + 1) then .ub
    else
      let rp := replayOf ms
      applyReplay rp top.data >>= fun d =>
        let m : Msg :=
          { data := pruneD d, diff := [], lagged := rp.map fun p => (p.1, p.2.2), unknown := [],
            seqno := maxS + 1, hash := [], vsig := none, unmerged := -1 }
        .ok { m with hash := env.H (m.ser env true) }

/-- The constructor from the parsed messages on (src/config.cpp:588-694).  `conf.seqno() + lag` is
signed 64-bit arithmetic (src/config.cpp:613). -/
def mergeParsed (env : Env) (cs : List Msg) : Out Msg :=
  if cs.isEmpty then .err .config
  else if cs.any (fun c => !int64Ok (c.seqno + env.lag)) then .ub
  else
    match kept env.lag cs with
    | [(m, i)] => .ok { m with unmerged := i }
    | ks =>
      if env.verifier.isSome && env.signer.isNone then
        match maxElem (flagged env.lag cs) with
        | some (m, i, _) => .ok { m with unmerged := i }
        | none => .ub
      else mergeKept env (maxSeq cs) (sortDesc (ks.map (·.1)))

/-- `ConfigMessage(serialized_confs, verifier, signer, lag, error_handler)`
(src/config.cpp:567-694) with an error handler that records the index (src/config/base.cpp:195-199).
-/
def mergeMsgs (env : Env) (inputs : List Bytes) : Out (Msg × List Nat) :=
  parseAll env 0 inputs >>= fun p => mergeParsed env p.1 >>= fun m => .ok (m, p.2)

/-! ### Mutable messages (src/config.cpp:459-523,696-730,789-794) -/

/-- A `ConfigMessage` (`orig = none`) or a `MutableConfigMessage` (`orig = some orig_data_`). -/
structure Conf where
  m : Msg
  orig : Option Dict
deriving DecidableEq

/-- `diff()` (src/config.cpp:721-730): for a mutable message drops the signature, prunes the data and
recomputes `diff_`. -/
def Conf.refresh (c : Conf) : Conf :=
  match c.orig with
  | none => c
  | some o =>
    { c with m := { c.m with vsig := none, data := pruneD c.m.data,
                             diff := diffD o (pruneD c.m.data) } }

/-- `serialize(enable_signing)` (src/config.cpp:732-736): the bytes; the object itself becomes
`refresh`. -/
def Conf.ser (env : Env) (c : Conf) (enable : Bool) : Bytes := c.refresh.m.ser env enable

/-- Lagged diffs kept by `increment_impl` (src/config.cpp:470-484). -/
def lagsForNext (seqno lag : Int) (l : List (SH × BtDict)) : List (SH × BtDict) :=
  let l1 := l.dropWhile fun p => decide (p.1.1 ≤ seqno - lag)
  (l1.reverse.dropWhile fun p => decide (p.1.1 ≥ seqno)).reverse

/-- `increment_impl` (src/config.cpp:465-491). -/
def incrementImpl (lag : Int) (m : Msg) : Conf :=
  { m := { m with
      lagged := memplace m.sh m.diff (lagsForNext m.seqno lag m.lagged),
      seqno := m.seqno + 1, hash := List.replicate 32 0, diff := [] },
    orig := some m.data }

/-- `hash()` of a mutable message (src/config.cpp:789-794); a `ConfigMessage` keeps the hash it was
loaded with. -/
def Conf.hashed (env : Env) (c : Conf) : Conf :=
  match c.orig with
  | none => c
  | some _ => { c.refresh with m := { c.refresh.m with hash := env.H (c.ser env true) } }

/-- `MutableConfigMessage(m, increment_seqno)` (src/config.cpp:504-515). -/
def Conf.increment (env : Env) (c : Conf) : Conf := incrementImpl env.lag (c.hashed env).m

/-- `MutableConfigMessage(ConfigMessage&&, retain_seqno)` (src/config.cpp:493-502).  For a message that
is not already mutable only the base class is assigned, so `orig_data_` keeps the value of its default
initialiser at that point: the empty dict (include/session/config.hpp:248). -/
def Conf.retain (c : Conf) : Conf :=
  match c.orig with
  | some _ => c
  | none => { c with orig := some [] }

/-- `MutableConfigMessage(vector, ...)` (src/config.cpp:696-710); `orig_data_` is initialised from the
merged `data_`. -/
def mutFromMerge (env : Env) (m : Msg) : Conf :=
  if m.unmerged = -1 then { m := m, orig := some m.data } else incrementImpl env.lag m

/-- `ConfigMessage()` (src/config.cpp:525-527), as used for a new config
(src/config/base.cpp:360); serialised without signer, lag 5. -/
def newMsg (H : Bytes → Bytes) : Msg :=
  let m := Msg.empty
  { m with hash := H (m.ser ⟨H, none, none, 5⟩ true) }

end Verif
