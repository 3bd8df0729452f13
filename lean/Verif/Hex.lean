import Verif.Basic
import Mathlib.Tactic.IntervalCases

/-!
# Hex encoding and session ids

Models `oxenc::is_hex`, `oxenc::from_hex`, `oxenc::to_hex` (oxen-encoding, an external library whose
source is not in /repo: lower-case output, either case accepted on input, `from_hex` called only on
strings that passed `is_hex`) and `check_session_id` / `session_id_to_bytes`
(src/config/internal.cpp:14-26).
-/

namespace Verif

/-- `oxenc::is_hex_digit` -/
def isHexDigit (c : UInt8) : Bool :=
  (48 ≤ c && c ≤ 57) || (97 ≤ c && c ≤ 102) || (65 ≤ c && c ≤ 70)

/-- `oxenc::from_hex_digit` -/
def hexVal (c : UInt8) : UInt8 :=
  if 48 ≤ c ∧ c ≤ 57 then c - 48
  else if 97 ≤ c ∧ c ≤ 102 then c - 87
  else if 65 ≤ c ∧ c ≤ 70 then c - 55
  else 0

/-- The digit `oxenc::to_hex` writes for a value below 16. -/
def hexDigit (v : UInt8) : UInt8 := if v < 10 then v + 48 else v + 87

/-- `oxenc::is_hex`: an even number of hex digits -/
def isHex (s : Bytes) : Bool := s.length % 2 == 0 && s.all isHexDigit

/-- `oxenc::from_hex` -/
def fromHex : Bytes → Bytes
  | a :: b :: t => (hexVal a * 16 + hexVal b) :: fromHex t
  | _ => []

/-- `oxenc::to_hex` -/
def toHex : Bytes → Bytes
  | [] => []
  | b :: t => hexDigit (b / 16) :: hexDigit (b % 16) :: toHex t

/-- `make_lc` (src/config/internal.cpp:58-62) on one character -/
def lowerC (c : UInt8) : UInt8 := if 65 ≤ c ∧ c ≤ 90 then c + 32 else c

/-- `make_lc` (src/config/internal.cpp:58-62) -/
def lower (s : Bytes) : Bytes := s.map lowerC

/-- `check_session_id(session_id, prefix)` (src/config/internal.cpp:14-20): does not throw. -/
def checkId (s pre : Bytes) : Bool :=
  s.length == 64 + pre.length && isHex s && s.take pre.length == pre

/-- `session_id_to_bytes` (src/config/internal.cpp:22-25); throws `std::invalid_argument`. -/
def idBytes (s pre : Bytes) : Out Bytes :=
  if checkId s pre then .ok (fromHex s) else .err .foreign

/-! ### Facts -/

theorem forall_uint8 {P : UInt8 → Prop} (h : ∀ n : Fin 256, P (UInt8.ofNat n.val)) (c : UInt8) : P c := by
  have := h ⟨c.toNat, c.toNat_lt⟩
  simpa using this

theorem hexDigit_val (c : UInt8) : isHexDigit c = true → hexVal c < 16 ∧
    hexDigit (hexVal c) = lowerC c := by
  revert c; apply forall_uint8; decide +kernel

theorem byte_split (b : UInt8) : isHexDigit (hexDigit (b / 16)) = true ∧
    isHexDigit (hexDigit (b % 16)) = true ∧
    hexVal (hexDigit (b / 16)) * 16 + hexVal (hexDigit (b % 16)) = b := by
  revert b; apply forall_uint8; decide +kernel

theorem byte_join (x y : UInt8) (hx : x < 16) (hy : y < 16) :
    (x * 16 + y) / 16 = x ∧ (x * 16 + y) % 16 = y := by
  have key : ∀ m n : Fin 16, (UInt8.ofNat m.val * 16 + UInt8.ofNat n.val) / 16 = UInt8.ofNat m.val ∧
    (UInt8.ofNat m.val * 16 + UInt8.ofNat n.val) % 16 = UInt8.ofNat n.val := by decide +kernel
  have := key ⟨x.toNat, by simpa [UInt8.lt_iff_toNat_lt] using hx⟩
    ⟨y.toNat, by simpa [UInt8.lt_iff_toNat_lt] using hy⟩
  simpa using this

theorem fromHex_toHex : ∀ b : Bytes, fromHex (toHex b) = b
  | [] => rfl
  | b :: t => by
    simp only [toHex, fromHex, fromHex_toHex t, (byte_split b).2.2]

theorem toHex_length : ∀ b : Bytes, (toHex b).length = 2 * b.length
  | [] => rfl
  | b :: t => by simp only [toHex, List.length_cons, toHex_length t]; omega

theorem toHex_isHex (b : Bytes) : isHex (toHex b) = true := by
  unfold isHex
  rw [Bool.and_eq_true]
  constructor
  · rw [toHex_length]; simp
  · induction b with
    | nil => rfl
    | cons a t ih =>
      simp only [toHex, List.all_cons, (byte_split a).1, (byte_split a).2.1, ih, Bool.and_self]

theorem fromHex_length : ∀ s : Bytes, (fromHex s).length = s.length / 2
  | [] => rfl
  | [_] => by simp [fromHex]
  | a :: b :: t => by
    simp only [fromHex, List.length_cons, fromHex_length t]; omega

/-- Decoding and encoding again gives the lower-case spelling. -/
theorem toHex_fromHex : ∀ s : Bytes, isHex s = true → toHex (fromHex s) = lower s
  | [], _ => rfl
  | [_], h => by simp [isHex] at h
  | a :: b :: t, h => by
    simp only [isHex, List.length_cons, List.all_cons, Bool.and_eq_true, beq_iff_eq] at h
    have ht : isHex t = true := by
      simp only [isHex, Bool.and_eq_true, beq_iff_eq]
      exact ⟨by omega, h.2.2.2⟩
    obtain ⟨ha, ha'⟩ := hexDigit_val a h.2.1
    obtain ⟨hb, hb'⟩ := hexDigit_val b h.2.2.1
    obtain ⟨j1, j2⟩ := byte_join _ _ ha hb
    simp only [fromHex, toHex, j1, j2, ha', hb', toHex_fromHex t ht, lower, List.map_cons]

theorem lowerC_hexDigit (b : UInt8) : b < 16 → lowerC (hexDigit b) = hexDigit b := by
  revert b; apply forall_uint8; decide +kernel

theorem lowerC_idem (b : UInt8) : lowerC (lowerC b) = lowerC b := by
  revert b; apply forall_uint8; decide +kernel

theorem lower_idem (s : Bytes) : lower (lower s) = lower s := by
  simp [lower, lowerC_idem]

theorem isHexDigit_lowerC (b : UInt8) : isHexDigit (lowerC b) = isHexDigit b := by
  revert b; apply forall_uint8; decide +kernel

theorem hexVal_lowerC (b : UInt8) : isHexDigit b = true → hexVal (lowerC b) = hexVal b := by
  revert b; apply forall_uint8; decide +kernel

theorem isHex_lower (s : Bytes) : isHex (lower s) = isHex s := by
  simp only [isHex, lower, List.length_map, List.all_map, Function.comp_def, isHexDigit_lowerC]

theorem fromHex_lower : ∀ s : Bytes, isHex s = true → fromHex (lower s) = fromHex s
  | [], _ => rfl
  | [_], h => by simp [isHex] at h
  | a :: b :: t, h => by
    simp only [isHex, List.length_cons, List.all_cons, Bool.and_eq_true, beq_iff_eq] at h
    have ht : isHex t = true := by
      simp only [isHex, Bool.and_eq_true, beq_iff_eq]
      exact ⟨by omega, h.2.2.2⟩
    have := fromHex_lower t ht
    simp only [lower, List.map_cons] at this ⊢
    simp only [fromHex, hexVal_lowerC a h.2.1, hexVal_lowerC b h.2.2.1, this]

/-- Two valid spellings denote the same bytes exactly if they agree up to case. -/
theorem fromHex_inj {s t : Bytes} (hs : isHex s = true) (ht : isHex t = true) :
    fromHex s = fromHex t ↔ lower s = lower t := by
  constructor
  · intro h; rw [← toHex_fromHex s hs, ← toHex_fromHex t ht, h]
  · intro h; rw [← fromHex_lower s hs, ← fromHex_lower t ht, h]

/-! ### Session ids -/

/-- The prefix of user ids: "05" -/
def pre05 : Bytes := [48, 53]
/-- The prefix of group ids: "03" -/
def pre03 : Bytes := [48, 51]

theorem idBytes_ok {s pre b : Bytes} (h : idBytes s pre = .ok b) :
    b = fromHex s ∧ isHex s = true ∧ s.length = 64 + pre.length ∧ s.take pre.length = pre := by
  unfold idBytes at h
  split at h
  · rename_i hc
    simp only [checkId, Bool.and_eq_true, beq_iff_eq] at hc
    exact ⟨(Out.ok.inj h).symm, hc.1.2, hc.1.1, hc.2⟩
  · cases h

theorem idBytes_len {s b pre : Bytes} (hp : pre.length = 2) (h : idBytes s pre = .ok b) :
    b.length = 33 := by
  obtain ⟨rfl, _, h3, _⟩ := idBytes_ok h
  rw [fromHex_length, h3, hp]

/-- The hex spelling of 33 bytes starting with the right byte is a valid id and decodes to them. -/
theorem idBytes_toHex05 {b : Bytes} (hl : b.length = 33) (hh : b.head? = some 5) :
    idBytes (toHex b) pre05 = .ok b := by
  have : checkId (toHex b) pre05 = true := by
    simp only [checkId, Bool.and_eq_true, beq_iff_eq, toHex_length, hl, toHex_isHex]
    refine ⟨⟨rfl, trivial⟩, ?_⟩
    cases b with
    | nil => cases hl
    | cons a t =>
      simp only [List.head?_cons, Option.some.injEq] at hh
      subst hh
      simp only [toHex]
      show List.take 2 (_ :: _ :: _) = _
      rw [List.take_succ_cons, List.take_succ_cons, List.take_zero]
      decide +kernel
  unfold idBytes
  rw [if_pos this, fromHex_toHex]

theorem idBytes_head05 {s b : Bytes} (h : idBytes s pre05 = .ok b) : b.head? = some 5 := by
  obtain ⟨rfl, h2, h3, h4⟩ := idBytes_ok h
  match s, h4 with
  | [], h4 => cases h4
  | [_], h4 => cases h4
  | a :: c :: t, h4 =>
    simp only [pre05, List.length_cons, List.length_nil, Nat.zero_add, Nat.reduceAdd,
      List.take_succ_cons, List.take_zero, List.cons.injEq, and_true] at h4
    obtain ⟨rfl, rfl⟩ := h4
    simp only [fromHex, List.head?_cons, Option.some.injEq]
    decide +kernel

theorem idBytes_toHex03 {b : Bytes} (hl : b.length = 33) (hh : b.head? = some 3) :
    idBytes (toHex b) pre03 = .ok b := by
  have : checkId (toHex b) pre03 = true := by
    simp only [checkId, Bool.and_eq_true, beq_iff_eq, toHex_length, hl, toHex_isHex]
    refine ⟨⟨rfl, trivial⟩, ?_⟩
    cases b with
    | nil => cases hl
    | cons a t =>
      simp only [List.head?_cons, Option.some.injEq] at hh
      subst hh
      simp only [toHex]
      show List.take 2 (_ :: _ :: _) = _
      rw [List.take_succ_cons, List.take_succ_cons, List.take_zero]
      decide +kernel
  unfold idBytes
  rw [if_pos this, fromHex_toHex]

theorem idBytes_head03 {s b : Bytes} (h : idBytes s pre03 = .ok b) : b.head? = some 3 := by
  obtain ⟨rfl, h2, h3, h4⟩ := idBytes_ok h
  match s, h4 with
  | [], h4 => cases h4
  | [_], h4 => cases h4
  | a :: c :: t, h4 =>
    simp only [pre03, List.length_cons, List.length_nil, Nat.zero_add, Nat.reduceAdd,
      List.take_succ_cons, List.take_zero, List.cons.injEq, and_true] at h4
    obtain ⟨rfl, rfl⟩ := h4
    simp only [fromHex, List.head?_cons, Option.some.injEq]
    decide +kernel

/-- Same bytes, same id up to the case of the hex digits. -/
theorem idBytes_same {s t b pre : Bytes} (hs : idBytes s pre = .ok b) (ht : idBytes t pre = .ok b) :
    lower s = lower t := by
  obtain ⟨h1, h2, _⟩ := idBytes_ok hs
  obtain ⟨k1, k2, _⟩ := idBytes_ok ht
  exact (fromHex_inj h2 k2).1 (h1.symm.trans k1)

end Verif
