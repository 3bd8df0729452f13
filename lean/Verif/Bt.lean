import Verif.OMap

/-!
# Bencoding

`oxenc::bt_value`, its encoder and its decoder.  oxenc is an external dependency whose source is not
in /repo (external/oxen-encoding is an empty submodule directory), so this file models its
*documented* wire format (`i<int>e`, `<len>:<bytes>`, `l...e`, `d...e`) as used by
src/config.cpp:206-345,537-564,738-787 and src/config/internal.cpp:138-176.

Simplifications (all recorded in DESIGN.md): integers are mathematical integers, accepted by the
decoder iff they fit in `int64_t` or `uint64_t`; a dict keeps its pairs in wire order (ordering is
checked by the callers, as in the code).
-/

namespace Verif

/-- `oxenc::bt_value`; `bt_list` and `bt_dict` are the payloads of `list` and `dict`. -/
inductive Bt where
  | int (i : Int)
  | str (s : Bytes)
  | list (l : List Bt)
  | dict (d : List (Bytes × Bt))
deriving Repr

/-- `oxenc::bt_dict` -/
abbrev BtDict := List (Bytes × Bt)

mutual
/-- `operator==` of `oxenc::bt_value` (used at src/config.cpp:57-157); the two below are its loops over lists and dicts. -/
def Bt.beq : Bt → Bt → Bool
  | .int a, .int b => a == b
  | .str a, .str b => a == b
  | .list a, .list b => Bt.beqL a b
  | .dict a, .dict b => Bt.beqD a b
  | _, _ => false
termination_by structural x => x
/-- Equality of `oxenc::bt_list`s (with `Bt.beq`). -/
def Bt.beqL : List Bt → List Bt → Bool
  | [], [] => true
  | a :: s, b :: t => Bt.beq a b && Bt.beqL s t
  | _, _ => false
termination_by structural x => x
/-- Equality of `oxenc::bt_dict`s (with `Bt.beq`). -/
def Bt.beqD : List (Bytes × Bt) → List (Bytes × Bt) → Bool
  | [], [] => true
  | (k, a) :: s, (k', b) :: t => k == k' && (Bt.beq a b && Bt.beqD s t)
  | _, _ => false
termination_by structural x => x
end

mutual
theorem Bt.beq_iff : ∀ a b : Bt, Bt.beq a b = true ↔ a = b
  | .int a, b => by cases b <;> simp [Bt.beq]
  | .str a, b => by cases b <;> simp [Bt.beq]
  | .list a, b => by cases b <;> simp [Bt.beq, Bt.beqL_iff]
  | .dict a, b => by cases b <;> simp [Bt.beq, Bt.beqD_iff]
theorem Bt.beqL_iff : ∀ a b : List Bt, Bt.beqL a b = true ↔ a = b
  | [], b => by cases b <;> simp [Bt.beqL]
  | a :: s, b => by cases b <;> simp [Bt.beqL, Bt.beqL_iff s, Bt.beq_iff a]
theorem Bt.beqD_iff : ∀ a b : List (Bytes × Bt), Bt.beqD a b = true ↔ a = b
  | [], b => by cases b <;> simp [Bt.beqD]
  | (k, a) :: s, b => by
    cases b with
    | nil => simp [Bt.beqD]
    | cons x t => obtain ⟨k', v⟩ := x; simp [Bt.beqD, Bt.beqD_iff s, Bt.beq_iff a, and_assoc]
end

instance : DecidableEq Bt := fun a b => decidable_of_iff _ (Bt.beq_iff a b)

/-- Range of integers a `bt_value` can hold (`int64_t` or `uint64_t`). -/
def intOk (i : Int) : Bool := decide (-(2 ^ 63) ≤ i) && decide (i < 2 ^ 64)

/-- Range of `int64_t`. -/
def int64Ok (i : Int) : Bool := decide (-(2 ^ 63) ≤ i) && decide (i < 2 ^ 63)

mutual
/-- All integers anywhere in the value are representable. -/
def Bt.ok : Bt → Bool
  | .int i => intOk i
  | .str _ => true
  | .list l => Bt.okL l
  | .dict d => Bt.okD d
termination_by structural x => x
/-- `Bt.ok` for the elements of a list. -/
def Bt.okL : List Bt → Bool
  | [] => true
  | v :: t => Bt.ok v && Bt.okL t
termination_by structural x => x
/-- `Bt.ok` for the values of a dict. -/
def Bt.okD : List (Bytes × Bt) → Bool
  | [] => true
  | (_, v) :: t => Bt.ok v && Bt.okD t
termination_by structural x => x
end

/-! ### Encoding -/

/-- ASCII digit. -/
def digit (n : Nat) : UInt8 := UInt8.ofNat (48 + n)

/-- The digits of a number, most significant first, before `acc` (the integer printing of `oxenc::bt_list_producer`, as used by src/config.cpp:249-269); `f` bounds the digits. -/
def decCore : Nat → Nat → Bytes → Bytes
  | 0, _, acc => acc
  | f + 1, n, acc =>
    if n / 10 = 0 then digit (n % 10) :: acc
    else decCore f (n / 10) (digit (n % 10) :: acc)

/-- Decimal digits of a natural number (`std::to_chars`). -/
def natDigits (n : Nat) : Bytes := decCore (n + 1) n []

/-- `<len>:<bytes>` -/
def encStr (s : Bytes) : Bytes := natDigits s.length ++ 58 :: s

/-- Decimal digits of an integer. -/
def intDigits (i : Int) : Bytes :=
  if i < 0 then 45 :: natDigits i.natAbs else natDigits i.natAbs

mutual
/-- `oxenc::bt_serialize` / `bt_list_producer` / `bt_dict_producer`. -/
def encV : Bt → Bytes
  | .int i => 105 :: (intDigits i ++ [101])
  | .str s => encStr s
  | .list l => 108 :: (encL l ++ [101])
  | .dict d => 100 :: (encD d ++ [101])
termination_by structural x => x
/-- The elements of a list, one after another (`oxenc::bt_list_producer`, src/config.cpp:249-269). -/
def encL : List Bt → Bytes
  | [] => []
  | v :: t => encV v ++ encL t
termination_by structural x => x
/-- The entries of a dict, keys as strings (`oxenc::bt_dict_producer`, src/config.cpp:249-269). -/
def encD : List (Bytes × Bt) → Bytes
  | [] => []
  | (k, v) :: t => encStr k ++ (encV v ++ encD t)
termination_by structural x => x
end

/-! ### Decoding -/

/-- A byte `oxenc` takes for a digit of a number or string length. -/
def isDigit (c : UInt8) : Bool := decide (48 ≤ c) && decide (c ≤ 57)

/-- Reads the longest run of digits. -/
def scanNat : Nat → Bytes → Nat × Bytes
  | acc, [] => (acc, [])
  | acc, c :: t => if isDigit c then scanNat (acc * 10 + (c.toNat - 48)) t else (acc, c :: t)

/-- Reads `<len>:<bytes>` (`bt_*_consumer::consume_string`). -/
def decStr (bs : Bytes) : Option (Bytes × Bytes) :=
  match bs with
  | [] => none
  | c :: _ =>
    if isDigit c then
      match scanNat 0 bs with
      | (n, 58 :: r) => if n ≤ r.length then some (r.take n, r.drop n) else none
      | _ => none
    else none

/-- Reads the digits of a non-negative integer and the final `e`. -/
def decNatE (bs : Bytes) : Option (Nat × Bytes) :=
  match bs with
  | [] => none
  | c :: _ =>
    if isDigit c then
      match scanNat 0 bs with
      | (n, 101 :: r) => some (n, r)
      | _ => none
    else none

/-- Optional minus sign, digits, `e`. -/
def decSigned (bs : Bytes) : Option (Int × Bytes) :=
  match bs with
  | [] => none
  | c :: t =>
    if c = 45 then (decNatE t).map fun p => (-(p.1 : Int), p.2)
    else (decNatE (c :: t)).map fun p => ((p.1 : Int), p.2)

/-- Reads the rest of an integer after its `i`. -/
def decInt (bs : Bytes) : Option (Int × Bytes) :=
  match decSigned bs with
  | some (i, rest) => if intOk i then some (i, rest) else none
  | none => none

mutual
/-- Reads one value; `none` is a `bt_deserialize_invalid` exception.  The first argument bounds the
recursion and is the input length at the top-level call. -/
def decV : Nat → Bytes → Option (Bt × Bytes)
  | 0, _ => none
  | f + 1, bs =>
    match bs with
    | [] => none
    | c :: t =>
      if c = 105 then (decInt t).map fun p => (.int p.1, p.2)
      else if c = 108 then (decL f t).map fun p => (.list p.1, p.2)
      else if c = 100 then (decD f t).map fun p => (.dict p.1, p.2)
      else (decStr bs).map fun p => (.str p.1, p.2)
/-- The elements of a list up to the `e` (`oxenc::bt_list_consumer`, src/config.cpp:272-311); `f` bounds the depth and length. -/
def decL : Nat → Bytes → Option (List Bt × Bytes)
  | 0, _ => none
  | f + 1, bs =>
    match bs with
    | [] => none
    | c :: t =>
      if c = 101 then some ([], t)
      else match decV f bs with
        | none => none
        | some (v, r) => (decL f r).map fun p => (v :: p.1, p.2)
/-- The entries of a dict up to the `e` (`oxenc::bt_dict_consumer`, src/config.cpp:272-293). -/
def decD : Nat → Bytes → Option (List (Bytes × Bt) × Bytes)
  | 0, _ => none
  | f + 1, bs =>
    match bs with
    | [] => none
    | c :: t =>
      if c = 101 then some ([], t)
      else match decStr bs with
        | none => none
        | some (k, r) => match decV f r with
          | none => none
          | some (v, r') => (decD f r').map fun p => ((k, v) :: p.1, p.2)
end

/-- One entry of a top-level dict as seen by a `bt_dict_consumer`: how many bytes of the message
precede the key (what `consume_signature` hands to its callback), the key and the value. -/
structure TopEntry where
  off : Nat
  key : Bytes
  val : Bt
deriving DecidableEq

/-- Walks a top-level dict after its `d`; `off` is the number of message bytes consumed so far. -/
def decTop : Nat → Nat → Bytes → Option (List TopEntry × Bytes)
  | 0, _, _ => none
  | f + 1, off, bs =>
    match bs with
    | [] => none
    | c :: t =>
      if c = 101 then some ([], t)
      else match decStr bs with
        | none => none
        | some (k, r) => match decV r.length r with
          | none => none
          | some (v, r') =>
            (decTop f (off + (bs.length - r'.length)) r').map fun p =>
              (⟨off, k, v⟩ :: p.1, p.2)

/-! ### Round trips -/

theorem digit_toNat {n : Nat} (h : n < 10) : (digit n).toNat = 48 + n := by
  unfold digit; rw [UInt8.toNat_ofNat']; omega

theorem isDigit_digit {n : Nat} (h : n < 10) : isDigit (digit n) = true := by
  simp only [isDigit, UInt8.le_iff_toNat_le, digit_toNat h, Bool.and_eq_true, decide_eq_true_eq]
  constructor
  · exact Nat.le_add_right 48 n
  · show 48 + n ≤ 57; omega

theorem digit_ne {n : Nat} (h : n < 10) {c : UInt8} (hc : isDigit c = false) : digit n ≠ c := by
  intro e; have := isDigit_digit h; rw [e, hc] at this; exact absurd this (by simp)

theorem scanNat_digit {n : Nat} (h : n < 10) (acc : Nat) (t : Bytes) :
    scanNat acc (digit n :: t) = scanNat (acc * 10 + n) t := by
  rw [scanNat, if_pos (isDigit_digit h), digit_toNat h]
  congr 2; omega

/-- Value of reading `decCore` output. -/
theorem scanNat_decCore (f n : Nat) (acc0 : Nat) (tail : Bytes) (hf : n < f) (h0 : acc0 = 0) :
    scanNat acc0 (decCore f n tail) = scanNat n tail := by
  induction f generalizing n acc0 tail with
  | zero => omega
  | succ f ih =>
    subst h0
    rw [decCore]
    split
    · rename_i h10
      rw [scanNat_digit (Nat.mod_lt _ (by decide))]
      congr 1; omega
    · rename_i h10
      rw [ih (n / 10) 0 _ (by omega) rfl, scanNat_digit (Nat.mod_lt _ (by decide))]
      congr 1; omega

theorem decCore_append (f n : Nat) (acc t : Bytes) :
    decCore f n acc ++ t = decCore f n (acc ++ t) := by
  induction f generalizing n acc with
  | zero => rfl
  | succ f ih =>
    simp only [decCore]
    split
    · rfl
    · rw [ih]; rfl

theorem scanNat_natDigits (n : Nat) (c : UInt8) (hc : isDigit c = false) (t : Bytes) :
    scanNat 0 (natDigits n ++ c :: t) = (n, c :: t) := by
  unfold natDigits
  rw [decCore_append, scanNat_decCore _ _ _ _ (by omega) rfl, List.nil_append, scanNat, if_neg]
  simp [hc]

theorem decCore_head (f n : Nat) (acc : Bytes) (hf : n < f) :
    ∃ d t, d < 10 ∧ decCore f n acc = digit d :: t := by
  induction f generalizing n acc with
  | zero => omega
  | succ f ih =>
    rw [decCore]
    split
    · exact ⟨n % 10, acc, Nat.mod_lt _ (by decide), rfl⟩
    · exact ih _ _ (by omega)

theorem natDigits_head (n : Nat) : ∃ d t, d < 10 ∧ natDigits n = digit d :: t :=
  decCore_head _ _ _ (by omega)

theorem natDigits_length_pos (n : Nat) : 0 < (natDigits n).length := by
  obtain ⟨d, t, _, h⟩ := natDigits_head n
  simp [h]

theorem decStr_encStr (s rest : Bytes) : decStr (encStr s ++ rest) = some (s, rest) := by
  obtain ⟨d, t, hd, h⟩ := natDigits_head s.length
  have hs := scanNat_natDigits s.length 58 (by decide) (s ++ rest)
  unfold encStr
  rw [List.append_assoc, List.cons_append]
  rw [h, List.cons_append] at hs ⊢
  simp only [decStr, isDigit_digit hd, if_true, hs]
  simp

theorem decNatE_natDigits (n : Nat) (rest : Bytes) :
    decNatE (natDigits n ++ 101 :: rest) = some (n, rest) := by
  obtain ⟨d, t, hd, h⟩ := natDigits_head n
  have hs := scanNat_natDigits n 101 (by decide) rest
  rw [h, List.cons_append] at hs ⊢
  simp only [decNatE, isDigit_digit hd, if_true, hs]

theorem decInt_intDigits (i : Int) (h : intOk i = true) (rest : Bytes) :
    decInt (intDigits i ++ 101 :: rest) = some (i, rest) := by
  have key : decSigned (intDigits i ++ 101 :: rest) = some (i, rest) := by
    by_cases hi : i < 0
    · have e : -(i.natAbs : Int) = i := by omega
      simp only [decSigned, intDigits, if_pos hi, List.cons_append, decNatE_natDigits,
        Option.map_some, if_true]
      rw [e]
    · have e : (i.natAbs : Int) = i := by omega
      obtain ⟨d, t, hd, hh⟩ := natDigits_head i.natAbs
      have h1 := decNatE_natDigits i.natAbs rest
      simp only [intDigits, if_neg hi]
      rw [hh, List.cons_append] at h1 ⊢
      simp only [decSigned]
      rw [if_neg (digit_ne hd (by decide)), h1, Option.map_some, e]
  simp [decInt, key, h]

theorem encStr_head (s : Bytes) : ∃ d t, d < 10 ∧ encStr s = digit d :: t := by
  obtain ⟨d, t, hd, h⟩ := natDigits_head s.length
  exact ⟨d, t ++ 58 :: s, hd, by rw [encStr, h]; rfl⟩

theorem encStr_length_pos (s : Bytes) : 0 < (encStr s).length := by
  obtain ⟨d, t, _, h⟩ := encStr_head s
  simp [h]

theorem encV_length_pos (v : Bt) : 0 < (encV v).length := by
  cases v <;> simp [encV, encStr_length_pos]

/-- No encoded value starts with the terminator `e`. -/
theorem encV_head (v : Bt) : ∃ c t, encV v = c :: t ∧ c ≠ 101 := by
  cases v with
  | int i => exact ⟨_, _, by rw [encV], by decide⟩
  | str s =>
    obtain ⟨d, t, hd, h⟩ := encStr_head s
    exact ⟨_, _, by rw [encV, h], digit_ne hd (by decide)⟩
  | list l => exact ⟨_, _, by rw [encV], by decide⟩
  | dict l => exact ⟨_, _, by rw [encV], by decide⟩

mutual
theorem decV_encV : ∀ (v : Bt) (f : Nat) (rest : Bytes), v.ok = true → (encV v).length ≤ f →
    decV f (encV v ++ rest) = some (v, rest)
  | .int i, f, rest, hok, hf => by
    cases f with
    | zero => simp [encV] at hf
    | succ f =>
      simp only [encV, List.cons_append, List.append_assoc, List.nil_append, decV]
      rw [if_pos trivial, decInt_intDigits i (by simpa [Bt.ok] using hok)]; rfl
  | .str s, f, rest, hok, hf => by
    cases f with
    | zero => have := encStr_length_pos s; rw [encV] at hf; omega
    | succ f =>
      obtain ⟨d, t, hd, h⟩ := encStr_head s
      have h1 := decStr_encStr s rest
      rw [encV]
      rw [h, List.cons_append] at h1 ⊢
      simp only [decV]
      rw [if_neg (digit_ne hd (by decide)), if_neg (digit_ne hd (by decide)),
        if_neg (digit_ne hd (by decide)), h1]; rfl
  | .list l, f, rest, hok, hf => by
    cases f with
    | zero => simp [encV] at hf
    | succ f =>
      simp only [encV, List.cons_append, List.append_assoc, List.nil_append, decV]
      rw [if_neg (by decide), if_pos trivial,
        decL_encL l f rest (by simpa [Bt.ok] using hok) (by simp [encV] at hf; omega)]; rfl
  | .dict l, f, rest, hok, hf => by
    cases f with
    | zero => simp [encV] at hf
    | succ f =>
      simp only [encV, List.cons_append, List.append_assoc, List.nil_append, decV]
      rw [if_neg (by decide), if_neg (by decide), if_pos trivial,
        decD_encD l f rest (by simpa [Bt.ok] using hok) (by simp [encV] at hf; omega)]; rfl
theorem decL_encL : ∀ (l : List Bt) (f : Nat) (rest : Bytes), Bt.okL l = true →
    (encL l).length + 1 ≤ f → decL f (encL l ++ 101 :: rest) = some (l, rest)
  | [], f, rest, _, hf => by
    cases f with
    | zero => omega
    | succ f => simp [encL, decL]
  | v :: t, f, rest, hok, hf => by
    cases f with
    | zero => omega
    | succ f =>
      obtain ⟨hv, ht⟩ : v.ok = true ∧ Bt.okL t = true := by simpa [Bt.okL] using hok
      have hl : (encV v).length + (encL t).length ≤ f := by
        simp only [encL, List.length_append] at hf; omega
      have hp := encV_length_pos v
      have h1 := decV_encV v f (encL t ++ 101 :: rest) hv (by omega)
      have h2 := decL_encL t f rest ht (by omega)
      obtain ⟨c, r, hc, hne⟩ := encV_head v
      simp only [encL, List.append_assoc]
      rw [hc, List.cons_append] at h1 ⊢
      simp only [decL]
      rw [if_neg hne, h1]
      simp [h2]
theorem decD_encD : ∀ (l : List (Bytes × Bt)) (f : Nat) (rest : Bytes), Bt.okD l = true →
    (encD l).length + 1 ≤ f → decD f (encD l ++ 101 :: rest) = some (l, rest)
  | [], f, rest, _, hf => by
    cases f with
    | zero => omega
    | succ f => simp [encD, decD]
  | (k, v) :: t, f, rest, hok, hf => by
    cases f with
    | zero => omega
    | succ f =>
      obtain ⟨hv, ht⟩ : v.ok = true ∧ Bt.okD t = true := by simpa [Bt.okD] using hok
      have hl : (encStr k).length + ((encV v).length + (encD t).length) ≤ f := by
        simp only [encD, List.length_append] at hf; omega
      have hp := encV_length_pos v
      have h0 := decStr_encStr k (encV v ++ (encD t ++ 101 :: rest))
      have h1 := decV_encV v f (encD t ++ 101 :: rest) hv (by omega)
      have h2 := decD_encD t f rest ht (by omega)
      obtain ⟨d, r, hd, hc⟩ := encStr_head k
      simp only [encD, List.append_assoc]
      rw [hc, List.cons_append] at h0 ⊢
      simp only [decD]
      rw [if_neg (digit_ne hd (by decide)), h0]
      simp [h1, h2]
end

/-- The entries a consumer sees when walking the encoding of `d` starting at byte `off`. -/
def topEntries : Nat → BtDict → List TopEntry
  | _, [] => []
  | off, (k, v) :: t =>
    ⟨off, k, v⟩ :: topEntries (off + ((encStr k).length + (encV v).length)) t

theorem decTop_encD (d : BtDict) (f off : Nat) (rest : Bytes) (hok : Bt.okD d = true)
    (hf : (encD d).length + 1 ≤ f) :
    decTop f off (encD d ++ 101 :: rest) = some (topEntries off d, rest) := by
  induction d generalizing f off with
  | nil =>
    cases f with
    | zero => omega
    | succ f => simp [encD, decTop, topEntries]
  | cons a t ih =>
    obtain ⟨k, v⟩ := a
    cases f with
    | zero => omega
    | succ f =>
      obtain ⟨hv, ht⟩ : v.ok = true ∧ Bt.okD t = true := by simpa [Bt.okD] using hok
      have hl : (encStr k).length + ((encV v).length + (encD t).length) ≤ f := by
        simp only [encD, List.length_append] at hf; omega
      have hp := encV_length_pos v
      have h0 := decStr_encStr k (encV v ++ (encD t ++ 101 :: rest))
      have h1 := decV_encV v ((encV v ++ (encD t ++ 101 :: rest)).length)
        (encD t ++ 101 :: rest) hv (by simp)
      have h2 := ih f (off + ((encStr k).length + (encV v).length)) ht (by omega)
      obtain ⟨c, r, hc, hne⟩ : ∃ c r, encStr k = c :: r ∧ c ≠ 101 := by
        obtain ⟨d, r, hd, hc⟩ := encStr_head k
        exact ⟨_, _, hc, digit_ne hd (by decide)⟩
      have hlen : (encStr k ++ (encV v ++ (encD t ++ 101 :: rest))).length
          - (encD t ++ 101 :: rest).length = (encStr k).length + (encV v).length := by
        simp only [List.length_append]; omega
      simp only [encD, List.append_assoc]
      generalize hbs : encStr k ++ (encV v ++ (encD t ++ 101 :: rest)) = bs at *
      have hbs' : ∃ r', bs = c :: r' := ⟨_, by rw [← hbs, hc]; rfl⟩
      obtain ⟨r', rfl⟩ := hbs'
      simp only [decTop]
      rw [if_neg hne, h0]
      simp only [h1, hlen, h2, Option.map_some, topEntries]

end Verif
