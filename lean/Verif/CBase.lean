import Verif.CErr
import Verif.CMem
import Verif.CCrypt
import Verif.CMulti

/-!
# Config objects through the C interface

The C functions of src/config/base.cpp:611-741 and `c_wrapper_init` (src/config/internal.hpp:15-55), for objects with an encryption key
of their own (contacts, conversations, user groups, profile).  Memory comes from `malloc`, which may fail; the code does not check.
-/

namespace Verif

/-- `malloc`: a block, or null -/
abbrev Alloc := Nat → Option Blk

/-- What `malloc` promises: if it does not return null, a block of that size, in the address space -/
def Alloc.Good (A : Alloc) : Prop := ∀ n b, A n = some b → b.mem.length = n ∧ b.base + n < 2 ^ 64

/-- `make_string_list` (src/config/internal.hpp:86-127) with its `malloc`: writing to null is undefined -/
def cList (A : Alloc) (l : List Bytes) : Out Blk := match A (listSize l) with
  | some b => makeStringList l b
  | none => .ub

/-- The three arrays of `config_merge` (src/config/base.cpp:626-629), as triples of a hash (a C string), a buffer and a length -/
def cArgs : List (Bytes × Bytes × Nat) → Out (List (Bytes × Bytes))
  | [] => .ok []
  | (h, d, n) :: t => (readN d n).bind fun x => (cArgs t).bind fun r => .ok ((cStr h, x) :: r)

/-- `config_merge` (src/config/base.cpp:619-632): no handler -/
def Client.cMerge (S : Sys) (A : Alloc) (c : Client) (msgs : List (Bytes × Bytes × Nat)) : Client × Out Blk := match cArgs msgs with
  | .ok l => match c.merge S l with
    | (c', .ok hs) => (c', cList A hs)
    | (c', .err e) => (c', .err e)
    | (c', .hang) => (c', .hang)
    | (c', .ub) => (c', .ub)
  | .err e => (c, .err e)
  | .hang => (c, .hang)
  | .ub => (c, .ub)

/-- An `int64_t` as a word of memory (`seqno_t`, include/session/config.h:9) -/
def u64 (i : Int) : Nat := (i % 2 ^ 64).toNat
/-- The way back of `u64` (`seqno_t`, include/session/config.h:9) -/
def i64 (n : Nat) : Int := (n : Int).bmod (2 ^ 64)

/-- `config_push` (src/config/base.cpp:638-674): no handler -/
def Client.cPush (S : Sys) (A : Alloc) (c : Client) : Client × Out Blk := match c.push S with
  | (c', .ok (s, m, obs)) => (c', match A (pushSize m obs) with
    | some b => makePushData (u64 s) m obs b
    | none => .ub)
  | (c', .err e) => (c', .err e)
  | (c', .hang) => (c', .hang)
  | (c', .ub) => (c', .ub)

/-- `config_confirm_pushed` (src/config/base.cpp:676-679) -/
def Client.cConfirm (c : Client) (seqno : Int) (hash : Bytes) : Client := c.confirm seqno (cStr hash)

/-- `config_dump` (src/config/base.cpp:681-687); `ord`: see `Client.dumpBytes` -/
def Client.cDump (S : Sys) (m0 : Bool) (c : Client) (ord : List Bytes) : Client × CBuf := (c.dumped S, toCBuf m0 (c.dumpBytes S ord))

/-- `config_current_hashes` (src/config/base.cpp:693-695) -/
def Client.cHashes (A : Alloc) (c : Client) : Out Blk := cList A c.currentHashes

/-- `config_get_keys` (src/config/base.cpp:697-717): the pointer with what is there, and `*len` -/
def Client.cGetKeys (A : Alloc) (c : Client) : Out (Option Bytes × Nat) :=
  if c.keys = [] then .ok (none, 0) else match A (32 * c.keys.length) with
    | some b => (fillKeys c.keys b.base b).bind fun b => .ok (some b.mem, c.keys.length)
    | none => .ub

/-- `config_add_key`, `config_add_key_low_prio` (src/config/base.cpp:719-724) -/
def Client.cAddKey (S : Sys) (c : Client) (key : Bytes) (high : Bool) : Client × Out Unit := match readN key 32 with
  | .ok k => c.addKey S k high false
  | _ => (c, .ub)

/-- `config_clear_keys` (src/config/base.cpp:725-727): the number is an `int` -/
def Client.cClearKeys (S : Sys) (c : Client) : Client × Int := ((c.clearKeys S false).1, toInt32 c.keys.length)

/-- `config_remove_key` (src/config/base.cpp:728-730) -/
def Client.cRemoveKey (S : Sys) (c : Client) (key : Bytes) : Client × Out Bool := match readN key 32 with
  | .ok k => c.removeKey S k 0 false
  | _ => (c, .ub)

/-- `config_key_count` (src/config/base.cpp:731-733, 419-421) -/
def Client.cKeyCount (c : Client) : Int := toInt32 c.keys.length

/-- `config_has_key` (src/config/base.cpp:734-736, 423-432) -/
def Client.cHasKey (c : Client) (key : Bytes) : Out Bool := (readN key 32).bind fun k => .ok (decide (k ∈ c.keys))

/-- `config_key` (src/config/base.cpp:737-739, include/session/config/base.hpp:1223-1226): the 32 bytes at the pointer; an index out
of range is undefined (there is only an assert) -/
def Client.cKey (c : Client) (i : Nat) : Out Bytes := match c.keys[i]? with
  | some k => readN k 32
  | none => .ub

/-- `c_wrapper_init` (src/config/internal.hpp:15-55), e.g. `contacts_init`, with the constructor (e.g. src/config/contacts.cpp:53-57)
and `load_key` (src/config/base.cpp:528-534): the object, or what is in the caller's error buffer; `dump` is the buffer, or a null
pointer. -/
def cInit (S : Sys) (secret : Bytes) (dump : Option Bytes) (dumplen : Nat) (error what : Bytes) : Out (Client ⊕ Bytes) :=
  (readN secret 64).bind fun sk =>
  Out.bind (match dump with
    | some d => if dumplen = 0 then .ok none else (readN d dumplen).bind fun x => .ok (some x)
    | none => .ok none) fun d =>
  match (match d with
    | some d => Client.restore S d
    | none => .ok (Client.new S)) with
  | .ok c => match c.addKey S (sk.take 32) true false with
    | (c', .ok _) => .ok (.inl c')
    | (_, .err _) => (initError error what).bind fun e => .ok (.inr e)
    | (_, .hang) => .hang
    | (_, .ub) => .ub
  | .err _ => (initError error what).bind fun e => .ok (.inr e)
  | .hang => .hang
  | .ub => .ub

end Verif
