import Mathlib.Data.List.Lex
import Mathlib.Data.Prod.Lex

/-!
# Basic vocabulary of the model

* `Bytes` models `std::string` / `ustring` (src/../include/session/types.hpp:8-18): finite byte
  strings, ordered lexicographically by *unsigned* byte value (`std::char_traits<char>::lt`).
* `Out` is the outcome of a piece of C++ code: a value, a thrown exception, non-termination, or
  undefined behaviour.  The last two are outcomes of their own so that a theorem can say they do
  not happen (or exhibit an input on which they do).
-/

namespace Verif

/-- `std::string` / `session::ustring`: a byte string (include/session/types.hpp:8-18). -/
abbrev Bytes := List UInt8

instance : LinearOrder UInt8 where
  le_refl := UInt8.le_refl
  le_trans := fun _ _ _ => UInt8.le_trans
  lt_iff_le_not_ge := by
    intro a b; simp [UInt8.lt_iff_toNat_lt, UInt8.le_iff_toNat_le]; omega
  le_antisymm := fun _ _ => UInt8.le_antisymm
  le_total := UInt8.le_total
  toDecidableLE := inferInstance
  toDecidableLT := inferInstance
  toDecidableEq := inferInstance

/-- An ASCII literal as bytes (so that keys can be written as characters). -/
def asc (cs : List Char) : Bytes := cs.map fun c => UInt8.ofNat c.toNat

/-- The kinds of C++ exception the modelled code distinguishes
(include/session/config.hpp:46-67).  `foreign` is any exception that is *not* a
`session::config::config_error` (e.g. `oxenc::bt_deserialize_invalid`, `std::runtime_error`,
`std::logic_error`, `std::invalid_argument`), which handlers for `config_error` do not catch. -/
inductive Err where
  | parse        -- config_parse_error
  | badSig       -- signature_error
  | missingSig   -- missing_signature
  | config       -- config_error
  | foreign      -- anything else
deriving DecidableEq, Repr

/-- Outcome of running C++ code. -/
inductive Out (α : Type _) where
  | ok (a : α)
  | err (e : Err)
  | hang
  | ub
deriving DecidableEq, Repr

namespace Out
variable {α β γ : Type _}

/-- Sequencing: what C++ does after `x` returned; an exception, a hang or undefined behaviour of `x` is that of the whole. Part of the modelling language, not of a file. -/
def bind (x : Out α) (f : α → Out β) : Out β :=
  match x with
  | ok a => f a
  | err e => err e
  | hang => hang
  | ub => ub

instance : Monad Out where
  pure := ok
  bind := bind

@[simp] theorem pure_eq (a : α) : (pure a : Out α) = ok a := rfl
@[simp] theorem bind_ok (a : α) (f : α → Out β) : (ok a >>= f) = f a := rfl
@[simp] theorem bind_err (e : Err) (f : α → Out β) : ((err e : Out α) >>= f) = err e := rfl
@[simp] theorem bind_hang (f : α → Out β) : ((hang : Out α) >>= f) = hang := rfl
@[simp] theorem bind_ub (f : α → Out β) : ((ub : Out α) >>= f) = ub := rfl

/-- Inversion of a successful sequential composition. -/
theorem bind_eq_ok {x : Out α} {f : α → Out β} {b : β} :
    (x >>= f) = ok b ↔ ∃ a, x = ok a ∧ f a = ok b := by
  cases x <;> simp

/-- The code neither diverges nor runs into undefined behaviour. -/
def safe : Out α → Bool
  | ok _ => true
  | err _ => true
  | _ => false

/-- The value, when there is one. -/
def toOption : Out α → Option α
  | ok a => some a
  | _ => none

/-- Did it return a value? Part of the modelling language. -/
def isOk : Out α → Bool
  | ok _ => true
  | _ => false

end Out

end Verif
