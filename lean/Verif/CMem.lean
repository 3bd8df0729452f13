import Verif.Curve
import Verif.Onion

/-!
# What the C functions hand to the caller: blocks of memory with pointers inside

Models `make_string_list` (src/config/internal.hpp), `config_push`, `config_get_keys` (src/config/base.cpp) and
`to_c_buffer` (src/multi_encrypt.cpp).  A `malloc`ed block is a base address and bytes (with arbitrary contents to begin
with); pointers are addresses, stored in eight little-endian bytes, as on the 64-bit platforms the library is built for.
Access outside the block is undefined behaviour.
-/

namespace Verif

/-- A block of memory -/
structure Blk where
  base : Nat
  mem : Bytes

/-- `memcpy` to an address -/
def Blk.poke (b : Blk) (addr : Nat) (bs : Bytes) : Out Blk :=
  if b.base ≤ addr ∧ addr - b.base + bs.length ≤ b.mem.length then
    .ok { b with mem := b.mem.take (addr - b.base) ++ bs ++ b.mem.drop (addr - b.base + bs.length) }
  else .ub

/-- Reading `n` bytes at an address -/
def Blk.peek (b : Blk) (addr n : Nat) : Out Bytes :=
  if b.base ≤ addr ∧ addr - b.base + n ≤ b.mem.length then .ok ((b.mem.drop (addr - b.base)).take n) else .ub

/-- A pointer, `size_t` or other 64-bit number -/
def Blk.peekWord (b : Blk) (addr : Nat) : Out Nat := (b.peek addr 8).bind fun x => .ok (leNat x)

/-- Writing a pointer, `size_t` or other 64-bit number (little-endian, as on the platforms of the library) -/
def Blk.pokeWord (b : Blk) (addr v : Nat) : Out Blk := b.poke addr (leBytes 8 v)

/-- Reading a C string: undefined behaviour if no NUL comes before the end of the block -/
def Blk.cstr (b : Blk) (addr : Nat) : Out Bytes :=
  if b.base ≤ addr ∧ addr - b.base ≤ b.mem.length ∧ 0 ∈ b.mem.drop (addr - b.base) then .ok (upToNul (b.mem.drop (addr - b.base)))
  else .ub

/-! ### `make_string_list` -/

/-- The size computed (src/config/internal.hpp:104-107); `sizeof(config_string_list)` is 16
(include/session/config/base.h:100-103: the pointer, then the length) -/
def listSize (vals : List Bytes) : Nat := 16 + vals.length * 8 + (vals.map fun v => v.length + 1).sum

/-- The loop (src/config/internal.hpp:120-124): `v.c_str()` is the string and a NUL -/
def fillList : List Bytes → Nat → Nat → Blk → Out Blk
  | [], _, _, b => .ok b
  | v :: vs, nextPtr, nextStr, b =>
    (b.pokeWord nextPtr nextStr).bind fun b =>
    (b.poke nextStr (v ++ [0])).bind fun b =>
    fillList vs (nextPtr + 8) (nextStr + (v.length + 1)) b

/-- `make_string_list` (src/config/internal.hpp:86-127) in a block returned by `malloc` -/
def makeStringList (vals : List Bytes) (b : Blk) : Out Blk :=
  (b.pokeWord (b.base + 8) vals.length).bind fun b =>
  (b.pokeWord b.base (b.base + 16)).bind fun b =>
  fillList vals (b.base + 16) (b.base + 16 + 8 * vals.length) b

/-! ### `config_push` -/

/-- The size computed (src/config/base.cpp:643-651); `sizeof(config_push_data)` is 40 (include/session/config/base.h:165-176:
seqno, config, config_len, obsolete, obsolete_len) -/
def pushSize (data : Bytes) (obs : List Bytes) : Nat :=
  40 + obs.length * 8 + data.length + (obs.map (·.length)).sum + obs.length

/-- The loop (src/config/base.cpp:667-671) -/
def fillObs : List Bytes → Nat → Nat → Blk → Out Blk
  | [], _, _, b => .ok b
  | o :: os, slot, obsptr, b =>
    (b.poke obsptr (o ++ [0])).bind fun b =>
    (b.pokeWord slot obsptr).bind fun b =>
    fillObs os (slot + 8) (obsptr + (o.length + 1)) b

/-- `config_push` after `push` returned (src/config/base.cpp:641-674) -/
def makePushData (seqno : Nat) (data : Bytes) (obs : List Bytes) (b : Blk) : Out Blk :=
  (b.pokeWord b.base seqno).bind fun b =>
  (b.pokeWord (b.base + 24) (b.base + 40)).bind fun b =>
  (b.pokeWord (b.base + 32) obs.length).bind fun b =>
  (b.pokeWord (b.base + 8) (b.base + 40 + 8 * obs.length)).bind fun b =>
  (b.pokeWord (b.base + 16) data.length).bind fun b =>
  (b.poke (b.base + 40 + 8 * obs.length) data).bind fun b =>
  fillObs obs (b.base + 40) (b.base + 40 + 8 * obs.length + data.length) b

/-! ### `config_get_keys` -/

/-- The loop (src/config/base.cpp:711-716) in a block of 32 bytes per key: it reads 32 bytes of each key, whatever the
key's size -/
def fillKeys : List Bytes → Nat → Blk → Out Blk
  | [], _, b => .ok b
  | k :: ks, cur, b =>
    if k.length < 32 then .ub else (b.poke cur (k.take 32)).bind fun b => fillKeys ks (cur + 32) b

end Verif
