import Verif.Basic
import Mathlib.Logic.Function.Basic

/-!
# Buffers for secrets

Models `sodium_array<unsigned char>` (include/session/util.hpp), which holds secret keys, over a heap of separately
allocated blocks, and the functions of src/util.cpp.  Using a block that is not allocated, freeing one twice and access
beyond its end are undefined behaviour.
-/

namespace Verif

/-- The blocks allocated with `sodium_malloc`: the contents of those not freed -/
structure Heap where
  mem : Nat → Option Bytes
  next : Nat

/-- `sodium_buffer_allocate` (src/util.cpp:6-10) when memory is available; `sodium_malloc` fills the block with 0xdb -/
def Heap.alloc (h : Heap) (n : Nat) : Heap × Nat :=
  ({ mem := Function.update h.mem h.next (some (List.replicate n 0xdb)), next := h.next + 1 }, h.next)

/-- `sodium_buffer_deallocate` (src/util.cpp:12-15) -/
def Heap.free (h : Heap) : Option Nat → Out Heap
  | none => .ok h
  | some b => if (h.mem b).isSome then .ok { h with mem := Function.update h.mem b none } else .ub

/-- `memset` and `memcpy` to the start of a block -/
def Heap.store (h : Heap) (p : Option Nat) (bs : Bytes) : Out Heap := match p with
  | none => .ub
  | some b => match h.mem b with
    | none => .ub
    | some x => if bs.length ≤ x.length then .ok { h with mem := Function.update h.mem b (some (bs ++ x.drop bs.length)) } else .ub

/-- The members of `sodium_array` (include/session/util.hpp:155-157) -/
structure Arr where
  buf : Option Nat
  len : Nat
deriving DecidableEq

/-- `sodium_array()` (include/session/util.hpp:161) -/
def Arr.empty : Arr := ⟨none, 0⟩

/-- `reset()` (include/session/util.hpp:209-219); bytes have no destructors -/
def Arr.reset (h : Heap) (a : Arr) : Out (Heap × Arr) := (h.free a.buf).bind fun h => .ok (h, .empty)

/-- The part common to `sodium_array(length)` and `reset(length)` (include/session/util.hpp:165-189, 224-236), starting from
an empty array: `avail` says whether memory is available, otherwise `std::bad_alloc` is thrown -/
def Arr.make (h : Heap) (n : Nat) (avail : Bool) : Out (Heap × Arr × Bool) :=
  if n = 0 then .ok (h, .empty, true)
  else if avail then
    let (h, b) := h.alloc n
    (h.store (some b) (List.replicate n 0)).bind fun h => .ok (h, ⟨some b, n⟩, true)
  else .ok (h, .empty, false)

/-- `reset(length)` (include/session/util.hpp:221-236); the flag is false if it threw -/
def Arr.resetTo (h : Heap) (a : Arr) (n : Nat) (avail : Bool) : Out (Heap × Arr × Bool) :=
  (a.reset h).bind fun r => Arr.make r.1 n avail

/-- `load(data, length)` (include/session/util.hpp:238-253); `data` must not point into the array, as the comment there says -/
def Arr.load (h : Heap) (a : Arr) (data : Bytes) (avail : Bool) : Out (Heap × Arr × Bool) :=
  (a.resetTo h data.length avail).bind fun r =>
    if r.2.2 = false ∨ data.length = 0 then .ok r
    else (r.1.store r.2.1.buf data).bind fun h => .ok (h, r.2.1, true)

/-- `operator[]` (include/session/util.hpp:255-262): reading and writing an element -/
def Arr.get (h : Heap) (a : Arr) (i : Nat) : Out UInt8 := match a.buf.bind h.mem with
  | none => .ub
  | some x => match x[i]? with
    | some v => .ok v
    | none => .ub

/-- `operator[]` used for writing (include/session/util.hpp:255-262) -/
def Arr.set (h : Heap) (a : Arr) (i : Nat) (v : UInt8) : Out Heap := match a.buf with
  | none => .ub
  | some b => match h.mem b with
    | none => .ub
    | some x => if i < x.length then .ok { h with mem := Function.update h.mem b (some (x.set i v)) } else .ub

/-- `operator=(sodium_array&&)` (include/session/util.hpp:198-204): the function has no return statement, so that reaching
its end is undefined behaviour -/
def Arr.moveAssign (h : Heap) (a other : Arr) : Out (Heap × Arr × Arr) :=
  (h.free a.buf).bind fun h => (fun _ => .ub) (h, other, Arr.empty)

/-! ### Programs -/

/-- The variables of a program: none before construction and after destruction -/
structure SState where
  heap : Heap
  obj : Nat → Option Arr

/-- Operations on the variables.  `avail` is the allocator's answer. -/
inductive SOp where
  | newEmpty (v : Nat)
  | new (v n : Nat) (avail : Bool)
  | moveNew (v w : Nat)
  | reset (v : Nat)
  | resetTo (v n : Nat) (avail : Bool)
  | load (v : Nat) (data : Bytes) (avail : Bool)
  | set (v i : Nat) (x : UInt8)
  | destroy (v : Nat)
deriving DecidableEq

/-- Running one.  Constructors (include/session/util.hpp:161-197), destructor (191) and members; a constructor that throws
leaves the variable unconstructed.  An operation on a variable outside its lifetime is undefined behaviour. -/
def SState.exec (s : SState) : SOp → Out SState
  | .newEmpty v => match s.obj v with
    | none => .ok { s with obj := Function.update s.obj v (some .empty) }
    | some _ => .ub
  | .new v n avail => match s.obj v with
    | none => (Arr.make s.heap n avail).bind fun r =>
      .ok { heap := r.1, obj := if r.2.2 then Function.update s.obj v (some r.2.1) else s.obj }
    | some _ => .ub
  | .moveNew v w => match s.obj v, s.obj w with
    | none, some b => .ok { s with obj := Function.update (Function.update s.obj w (some .empty)) v (some b) }
    | _, _ => .ub
  | .reset v => match s.obj v with
    | some a => (a.reset s.heap).bind fun r => .ok { heap := r.1, obj := Function.update s.obj v (some r.2) }
    | none => .ub
  | .resetTo v n avail => match s.obj v with
    | some a => (a.resetTo s.heap n avail).bind fun r => .ok { heap := r.1, obj := Function.update s.obj v (some r.2.1) }
    | none => .ub
  | .load v data avail => match s.obj v with
    | some a => (a.load s.heap data avail).bind fun r => .ok { heap := r.1, obj := Function.update s.obj v (some r.2.1) }
    | none => .ub
  | .set v i x => match s.obj v with
    | some a => (a.set s.heap i x).bind fun h => .ok { s with heap := h }
    | none => .ub
  | .destroy v => match s.obj v with
    | some a => (a.reset s.heap).bind fun r => .ok { heap := r.1, obj := Function.update s.obj v none }
    | none => .ub

/-- A sequence of operations -/
def SState.run (s : SState) : List SOp → Out SState
  | [] => .ok s
  | op :: ops => (s.exec op).bind fun s => s.run ops

/-- Before any variable is constructed -/
def SState.init : SState := ⟨⟨fun _ => none, 0⟩, fun _ => none⟩

end Verif
