import Verif.Client

/-!
# The list of keys in memory

Models `ConfigBase::_keys` (include/session/config/base.hpp:155-156), a `std::vector` of 32-byte arrays, together with arguments that
point into it: `key(i)`, `get_keys()` and `config_key` return views of the elements, not copies, and `add_key`, `remove_key`
and `replace_keys` take views.  What `Client.keys` and the functions of Client.lean on it are to the list as a value, this module
is to the block of memory that holds it.
-/

namespace Verif

/-- The block of memory of the vector: all its slots (its capacity many), of which the first `n` are elements.  A slot that is no
element any more keeps its bytes: the elements are trivially destructible, and the allocator
(include/session/util.hpp:294-315) clears memory only when it is freed. -/
structure Slots where
  mem : List Bytes
  n : Nat
  deriving Repr, DecidableEq

/-- The elements. -/
def Slots.keys (s : Slots) : List Bytes := s.mem.take s.n

/-- A `ustring_view` argument: bytes stored elsewhere, or the view `key(i)` (include/session/config/base.hpp:1223-1226) of a slot. -/
inductive KeyArg where
  | copy (b : Bytes)
  | slot (i : Nat)
  deriving Repr, DecidableEq

/-- What is read through the view now. -/
def KeyArg.read (s : List Bytes) : KeyArg → Bytes
  | .copy b => b
  | .slot i => s.getD i []

/-- `std::remove_if` over `fuel` elements from `i` on, writing from `out` on (src/config/base.cpp:517-522): the predicate reads the
key through the view each time. -/
def removeLoop (a : KeyArg) (mem : List Bytes) (out i : Nat) : Nat → List Bytes × Nat
  | 0 => (mem, out)
  | f + 1 =>
    if a.read mem = mem.getD i [] then removeLoop a mem out (i + 1) f
    else removeLoop a (mem.set out (mem.getD i [])) (out + 1) (i + 1) f

/-- The effect of `remove_key(key, from)` on the memory (src/config/base.cpp:508-529); `erase` of the rest only lowers the size. -/
def Slots.removeKey (s : Slots) (a : KeyArg) (start : Nat) : Slots :=
  if s.n ≤ start then s
  else
    let r := removeLoop a s.mem start start (s.n - start)
    ⟨r.1, r.2⟩

/-- 32 zero bytes, a `Key` that was value-initialised (src/config/base.cpp:462). -/
def zeroKey : Bytes := List.replicate 32 0

/-- `_keys.emplace(pos)` at the start or at the end (src/config/base.cpp:462): within the block if there is room, otherwise in a new
block (of twice the size), in which case the old block is freed (second component `true`). -/
def Slots.emplace (s : Slots) (pos : Nat) : Slots × Bool :=
  if s.n < s.mem.length then (⟨s.mem.take pos ++ zeroKey :: ((s.mem.drop pos).take (s.n - pos) ++ s.mem.drop (s.n + 1)), s.n + 1⟩, false)
  else (⟨s.mem.take pos ++ zeroKey :: ((s.mem.drop pos).take (s.n - pos) ++ List.replicate (s.n - 1) (List.replicate 32 219)), s.n + 1⟩,
    true)

/-- `reserve(64)` of a vector without a block (src/config/base.cpp:454-457); `sodium_malloc` fills with 0xdb. -/
def Slots.reserve (s : Slots) : Slots := if s.mem = [] then ⟨List.replicate 64 (List.replicate 32 219), 0⟩ else s

/-- The effect of `add_key(key, high_priority)` on the memory (src/config/base.cpp:442-469).  Reading through a view of a block that
was freed is undefined behaviour; that reading through a view of an element that was moved is undefined behaviour too, as
far as the C++ standard is concerned, is ignored: the model says what happens, given how `std::vector` moves elements. -/
def Slots.addKey (s : Slots) (a : KeyArg) (high : Bool) : Out Slots :=
  let k := a.read s.mem
  if k.length ≠ 32 then .err .foreign
  else if s.keys.head? = some k then .ok s
  else if !high && decide (k ∈ s.keys) then .ok s
  else
    let s1 := if high then s.reserve.removeKey a 1 else s.reserve
    let pos := if high then 0 else s1.n
    let s2 := (s1.emplace pos).1
    match a, (s1.emplace pos).2 with
    | .slot _, true => .ub
    | _, _ => .ok { s2 with mem := s2.mem.set pos (a.read s2.mem) }

/-- Adding one key after another (src/config/base.cpp:496-498). -/
def Slots.addAll : Slots → List KeyArg → Out Slots
  | s, [] => .ok s
  | s, a :: as => (s.addKey a false).bind fun s' => s'.addAll as

/-- The effect of `replace_keys(new_keys)` on the memory (src/config/base.cpp:482-506). -/
def Slots.replaceKeys (s : Slots) (as : List KeyArg) : Out Slots :=
  match as with
  | [] => .ok (if s.n = 0 then s else ⟨[], 0⟩)
  | _ =>
    if as.any (fun a => decide ((a.read s.mem).length ≠ 32)) then .err .foreign
    else Slots.addAll ⟨s.mem, 0⟩ as

/-- `get_keys()` (src/config/base.cpp:434-440): views of all the elements. -/
def Slots.getKeys (s : Slots) : List KeyArg := (List.range s.n).map .slot

end Verif
