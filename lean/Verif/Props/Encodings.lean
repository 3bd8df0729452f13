import Verif.Encodings
import Verif.Props.Community
import Verif.Props.Construct
import Verif.Props.Onion
import Verif.Props.CEnc

/-!
# Public keys in text form (C122)
-/

namespace Verif

/-! ### Digits -/

theorem b64Dig_char : ∀ n, n < 64 → b64Dig (b64Char n) = some n := by decide +kernel

theorem b32zVal_char : ∀ n, n < 32 → b32zVal (b32zChar n) = some n := by decide +kernel

theorem b64Char_ne : ∀ n, n < 64 → b64Char n ≠ 61 ∧ b64Char n ≠ 63 := by decide +kernel

theorem b32zChar_ne : ∀ n, n < 32 → b32zChar n ≠ 63 := by decide +kernel

/-- The digits of base64, without padding -/
def b64Digits : Bytes → List Nat
  | [] => []
  | [a] => [a.toNat / 4, a.toNat % 4 * 16]
  | [a, b] => [a.toNat / 4, a.toNat % 4 * 16 + b.toNat / 16, b.toNat % 16 * 4]
  | a :: b :: c :: t => a.toNat / 4 :: (a.toNat % 4 * 16 + b.toNat / 16) :: (b.toNat % 16 * 4 + c.toNat / 64) :: c.toNat % 64 :: b64Digits t

def b64Pad (n : Nat) : Bytes := if n % 3 = 1 then [61, 61] else if n % 3 = 2 then [61] else []

theorem toB64_digits : ∀ x : Bytes, toB64 x = (b64Digits x).map b64Char ++ b64Pad x.length
  | [] => rfl
  | [a] => rfl
  | [a, b] => rfl
  | a :: b :: c :: t => by
    have : b64Pad (a :: b :: c :: t).length = b64Pad t.length := by
      have h : (a :: b :: c :: t).length % 3 = t.length % 3 := by simp only [List.length_cons]; omega
      unfold b64Pad; simp only [h]
    rw [this]
    simp only [toB64, b64Digits, List.map_cons, List.cons_append]
    rw [toB64_digits t]

theorem b64Digits_lt : ∀ x : Bytes, ∀ d ∈ b64Digits x, d < 64
  | [], d, h => by cases h
  | [a], d, h => by
    have := a.toNat_lt
    simp only [b64Digits, List.mem_cons, List.not_mem_nil, or_false] at h
    rcases h with rfl | rfl <;> omega
  | [a, b], d, h => by
    have := a.toNat_lt
    have := b.toNat_lt
    simp only [b64Digits, List.mem_cons, List.not_mem_nil, or_false] at h
    rcases h with rfl | rfl | rfl <;> omega
  | a :: b :: c :: t, d, h => by
    have := a.toNat_lt
    have := b.toNat_lt
    have := c.toNat_lt
    simp only [b64Digits, List.mem_cons] at h
    rcases h with rfl | rfl | rfl | rfl | h
    iterate 4 omega
    exact b64Digits_lt t d h

theorem b64Bytes_digits : ∀ x : Bytes, b64Bytes (b64Digits x) = x
  | [] => rfl
  | [a] => by
    have := a.toNat_lt
    simp only [b64Digits, b64Bytes]
    rw [ofNat_eq (a := a) (by omega)]
  | [a, b] => by
    have := a.toNat_lt
    have := b.toNat_lt
    simp only [b64Digits, b64Bytes]
    rw [ofNat_eq (a := a) (by omega), ofNat_eq (a := b) (by omega)]
  | a :: b :: c :: t => by
    have := a.toNat_lt
    have := b.toNat_lt
    have := c.toNat_lt
    simp only [b64Digits, b64Bytes]
    rw [ofNat_eq (a := a) (by omega), ofNat_eq (a := b) (by omega), ofNat_eq (a := c) (by omega), b64Bytes_digits t]

theorem mapM_digits {f : UInt8 → Option Nat} {g : Nat → UInt8} {k : Nat} (h : ∀ n, n < k → f (g n) = some n) :
    ∀ l : List Nat, (∀ d ∈ l, d < k) → (l.map g).mapM f = some l
  | [], _ => rfl
  | d :: t, hl => by
    rw [List.map_cons, List.mapM_cons, h d (hl d (by simp)), mapM_digits h t fun e he => hl e (by simp [he])]
    rfl

theorem b64Digits_length : ∀ x : Bytes, (b64Digits x).length = x.length / 3 * 4 + (if x.length % 3 = 0 then 0 else x.length % 3 + 1)
  | [] => rfl
  | [a] => by simp [b64Digits]
  | [a, b] => by simp [b64Digits]
  | a :: b :: c :: t => by
    simp only [b64Digits, List.length_cons]
    rw [b64Digits_length t, show (t.length + 1 + 1 + 1) % 3 = t.length % 3 by omega,
      show (t.length + 1 + 1 + 1) / 3 = t.length / 3 + 1 by omega]
    omega

theorem strip_digits (x : Bytes) : b64Strip (toB64 x) = (b64Digits x).map b64Char := by
  have hl := b64Digits_length x
  have hne : ∀ c ∈ (b64Digits x).map b64Char, c ≠ 61 := by
    intro c hc
    obtain ⟨d, hd, rfl⟩ := List.mem_map.1 hc
    exact (b64Char_ne d (b64Digits_lt x d hd)).1
  rw [toB64_digits]
  have hml : ((b64Digits x).map b64Char).length = (b64Digits x).length := List.length_map _
  generalize (b64Digits x).map b64Char = w at *
  generalize (b64Digits x).length = n at *
  unfold b64Strip
  have h3 : x.length % 3 = 0 ∨ x.length % 3 = 1 ∨ x.length % 3 = 2 := by omega
  rcases h3 with h3 | h3 | h3
  · have hp : b64Pad x.length = [] := by unfold b64Pad; rw [h3]; rfl
    rw [hp, List.append_nil]
    have hno : ∀ k, 0 < k → w.drop (w.length - k) ≠ List.replicate k 61 := by
      intro k hk he
      have : (61 : UInt8) ∈ w := by
        have hm : (61 : UInt8) ∈ w.drop (w.length - k) := by rw [he]; simp; omega
        exact List.mem_of_mem_drop hm
      exact hne _ this rfl
    have h2 : w.drop (w.length - 2) ≠ [61, 61] := hno 2 (by omega)
    have h1 : w.drop (w.length - 1) ≠ [61] := hno 1 (by omega)
    simp only [h2, h1, if_false, ite_self]
  · have hp : b64Pad x.length = [61, 61] := by unfold b64Pad; rw [if_pos h3]
    have hn : n = x.length / 3 * 4 + 2 := by rw [hl, if_neg (by omega), h3]
    rw [hp, if_pos (by simp only [List.length_append, List.length_cons, List.length_nil]; omega),
      if_pos (by simp)]
    simp
  · have hp : b64Pad x.length = [61] := by unfold b64Pad; rw [if_neg (by omega), if_pos h3]
    have hn : n = x.length / 3 * 4 + 3 := by rw [hl, if_neg (by omega), h3]
    have hw : ∃ w' c, w = w' ++ [c] := by
      rcases List.eq_nil_or_concat w with h | ⟨w', c, h⟩
      · rw [h] at hml; simp at hml; omega
      · exact ⟨w', c, by rw [h, List.concat_eq_append]⟩
    obtain ⟨w', c, rfl⟩ := hw
    have hc : c ≠ 61 := hne c (by simp)
    rw [hp, if_pos (by simp only [List.length_append, List.length_cons, List.length_nil] at *; omega)]
    rw [if_neg, if_pos (by simp)]
    · have : (w' ++ [c] ++ [61]).length - 1 = (w' ++ [c]).length := by simp
      rw [this, List.take_left]
    · have : (w' ++ [c] ++ [61]).length - 2 = w'.length := by simp
      rw [this, List.append_assoc, List.drop_left]
      simp [hc]

/-- What `to_base64` writes, `from_base64` reads, with and without the padding. -/
theorem fromB64_toB64 (x : Bytes) : fromB64 (toB64 x) = some x ∧ fromB64 (b64Strip (toB64 x)) = some x := by
  have hl := b64Digits_length x
  have key : ∀ s, b64Strip s = (b64Digits x).map b64Char → fromB64 s = some x := by
    intro s hs
    unfold fromB64
    rw [hs, if_neg (by rw [List.length_map, hl]; split <;> omega), mapM_digits b64Dig_char _ (b64Digits_lt x)]
    simp only [Option.map_some, b64Bytes_digits]
  refine ⟨key _ (strip_digits x), key _ ?_⟩
  rw [strip_digits]
  have hne : ∀ k, 0 < k → ((b64Digits x).map b64Char).drop (((b64Digits x).map b64Char).length - k) ≠ List.replicate k 61 := by
    intro k hk he
    have hm : (61 : UInt8) ∈ ((b64Digits x).map b64Char).drop (((b64Digits x).map b64Char).length - k) := by rw [he]; simp; omega
    obtain ⟨d, hd, hc⟩ := List.mem_map.1 (List.mem_of_mem_drop hm)
    exact (b64Char_ne d (b64Digits_lt x d hd)).1 hc
  have h2 : ((b64Digits x).map b64Char).drop (((b64Digits x).map b64Char).length - 2) ≠ [61, 61] := hne 2 (by omega)
  have h1 : ((b64Digits x).map b64Char).drop (((b64Digits x).map b64Char).length - 1) ≠ [61] := hne 1 (by omega)
  unfold b64Strip
  simp only [h2, h1, if_false, ite_self]

/-! ### base32z -/

/-- The digits of base32z -/
def b32zDigits : Bytes → List Nat
  | [] => []
  | [a] => [a.toNat / 8, a.toNat % 8 * 4]
  | [a, b] => [a.toNat / 8, a.toNat % 8 * 4 + b.toNat / 64, b.toNat / 2 % 32, b.toNat % 2 * 16]
  | [a, b, c] => [a.toNat / 8, a.toNat % 8 * 4 + b.toNat / 64, b.toNat / 2 % 32, b.toNat % 2 * 16 + c.toNat / 16, c.toNat % 16 * 2]
  | [a, b, c, d] => [a.toNat / 8, a.toNat % 8 * 4 + b.toNat / 64, b.toNat / 2 % 32, b.toNat % 2 * 16 + c.toNat / 16,
      c.toNat % 16 * 2 + d.toNat / 128, d.toNat / 4 % 32, d.toNat % 4 * 8]
  | a :: b :: c :: d :: e :: t => a.toNat / 8 :: (a.toNat % 8 * 4 + b.toNat / 64) :: b.toNat / 2 % 32 ::
      (b.toNat % 2 * 16 + c.toNat / 16) :: (c.toNat % 16 * 2 + d.toNat / 128) :: d.toNat / 4 % 32 ::
      (d.toNat % 4 * 8 + e.toNat / 32) :: e.toNat % 32 :: b32zDigits t

theorem toB32z_digits : ∀ x : Bytes, toB32z x = (b32zDigits x).map b32zChar
  | [] => rfl
  | [a] => rfl
  | [a, b] => rfl
  | [a, b, c] => rfl
  | [a, b, c, d] => rfl
  | a :: b :: c :: d :: e :: t => by
    simp only [toB32z, b32zDigits, List.map_cons]
    rw [toB32z_digits t]

theorem b32zDigits_lt : ∀ x : Bytes, ∀ d ∈ b32zDigits x, d < 32
  | [], d, h => by cases h
  | [a], y, h => by
    have := a.toNat_lt
    simp only [b32zDigits, List.mem_cons, List.not_mem_nil, or_false] at h
    rcases h with rfl | rfl <;> omega
  | [a, b], y, h => by
    have := a.toNat_lt
    have := b.toNat_lt
    simp only [b32zDigits, List.mem_cons, List.not_mem_nil, or_false] at h
    rcases h with rfl | rfl | rfl | rfl <;> omega
  | [a, b, c], y, h => by
    have := a.toNat_lt
    have := b.toNat_lt
    have := c.toNat_lt
    simp only [b32zDigits, List.mem_cons, List.not_mem_nil, or_false] at h
    rcases h with rfl | rfl | rfl | rfl | rfl <;> omega
  | [a, b, c, d], y, h => by
    have := a.toNat_lt
    have := b.toNat_lt
    have := c.toNat_lt
    have := d.toNat_lt
    simp only [b32zDigits, List.mem_cons, List.not_mem_nil, or_false] at h
    rcases h with rfl | rfl | rfl | rfl | rfl | rfl | rfl <;> omega
  | a :: b :: c :: d :: e :: t, y, h => by
    have := a.toNat_lt
    have := b.toNat_lt
    have := c.toNat_lt
    have := d.toNat_lt
    have := e.toNat_lt
    simp only [b32zDigits, List.mem_cons] at h
    rcases h with rfl | rfl | rfl | rfl | rfl | rfl | rfl | rfl | h
    iterate 8 omega
    exact b32zDigits_lt t y h

theorem b32zBytes_digits : ∀ x : Bytes, b32zBytes (b32zDigits x) = x
  | [] => rfl
  | [a] => by
    have := a.toNat_lt
    simp only [b32zDigits, b32zBytes]
    rw [ofNat_eq (a := a) (by omega)]
  | [a, b] => by
    have := a.toNat_lt
    have := b.toNat_lt
    simp only [b32zDigits, b32zBytes]
    rw [ofNat_eq (a := a) (by omega), ofNat_eq (a := b) (by omega)]
  | [a, b, c] => by
    have := a.toNat_lt
    have := b.toNat_lt
    have := c.toNat_lt
    simp only [b32zDigits, b32zBytes]
    rw [ofNat_eq (a := a) (by omega), ofNat_eq (a := b) (by omega), ofNat_eq (a := c) (by omega)]
  | [a, b, c, d] => by
    have := a.toNat_lt
    have := b.toNat_lt
    have := c.toNat_lt
    have := d.toNat_lt
    simp only [b32zDigits, b32zBytes]
    rw [ofNat_eq (a := a) (by omega), ofNat_eq (a := b) (by omega), ofNat_eq (a := c) (by omega), ofNat_eq (a := d) (by omega)]
  | a :: b :: c :: d :: e :: t => by
    have := a.toNat_lt
    have := b.toNat_lt
    have := c.toNat_lt
    have := d.toNat_lt
    have := e.toNat_lt
    simp only [b32zDigits, b32zBytes]
    rw [ofNat_eq (a := a) (by omega), ofNat_eq (a := b) (by omega), ofNat_eq (a := c) (by omega), ofNat_eq (a := d) (by omega),
      ofNat_eq (a := e) (by omega), b32zBytes_digits t]

theorem b32zDigits_length : ∀ x : Bytes, (b32zDigits x).length = (x.length * 8 + 4) / 5
  | [] => rfl
  | [a] => by simp [b32zDigits]
  | [a, b] => by simp [b32zDigits]
  | [a, b, c] => by simp [b32zDigits]
  | [a, b, c, d] => by simp [b32zDigits]
  | a :: b :: c :: d :: e :: t => by
    simp only [b32zDigits, List.length_cons]
    rw [b32zDigits_length t]
    omega

theorem toB32z_length (x : Bytes) : (toB32z x).length = (x.length * 8 + 4) / 5 := by
  rw [toB32z_digits, List.length_map, b32zDigits_length]

/-- What `to_base32z` writes, `from_base32z` reads. -/
theorem fromB32z_toB32z (x : Bytes) : fromB32z (toB32z x) = some x := by
  unfold fromB32z
  rw [if_neg (by rw [toB32z_length]; omega), toB32z_digits, mapM_digits b32zVal_char _ (b32zDigits_lt x)]
  simp only [Option.map_some, b32zBytes_digits]

/-! ### Lengths of what is decoded -/

theorem b64Bytes_length : ∀ l : List Nat, l.length % 4 ≠ 1 → (b64Bytes l).length = l.length * 3 / 4
  | [], _ => rfl
  | [_], h => absurd rfl h
  | [_, _], _ => by simp [b64Bytes]
  | [_, _, _], _ => by simp [b64Bytes]
  | a :: b :: c :: d :: t, h => by
    simp only [b64Bytes, List.length_cons] at h ⊢
    rw [b64Bytes_length t (by omega)]
    omega

theorem b32zBytes_length : ∀ l : List Nat, l.length % 8 ≠ 1 → l.length % 8 ≠ 3 → l.length % 8 ≠ 6 → (b32zBytes l).length = l.length * 5 / 8
  | [], _, _, _ => rfl
  | [_], h, _, _ => absurd rfl h
  | [_, _], _, _, _ => by simp [b32zBytes]
  | [_, _, _], _, h, _ => absurd rfl h
  | [_, _, _, _], _, _, _ => by simp [b32zBytes]
  | [_, _, _, _, _], _, _, _ => by simp [b32zBytes]
  | [_, _, _, _, _, _], _, _, h => absurd rfl h
  | [_, _, _, _, _, _, _], _, _, _ => by simp [b32zBytes]
  | a :: b :: c :: d :: e :: f :: g :: h :: t, h1, h2, h3 => by
    simp only [b32zBytes, List.length_cons] at h1 h2 h3 ⊢
    rw [b32zBytes_length t (by omega) (by omega) (by omega)]
    omega

theorem mapM_length {α β : Type} {f : α → Option β} : ∀ {l : List α} {m : List β}, l.mapM f = some m → m.length = l.length
  | [], m, h => by cases h; rfl
  | a :: t, m, h => by
    rw [List.mapM_cons] at h
    cases ha : f a with
    | none => rw [ha] at h; cases h
    | some b =>
      cases ht : t.mapM f with
      | none => rw [ha, ht] at h; cases h
      | some u => rw [ha, ht] at h; cases h; simp [mapM_length ht]

theorem fromB64_length {s b : Bytes} (h : fromB64 s = some b) : b.length = (b64Strip s).length * 3 / 4 := by
  unfold fromB64 at h
  by_cases hl : (b64Strip s).length % 4 = 1
  · rw [if_pos hl] at h; cases h
  · rw [if_neg hl] at h
    obtain ⟨m, hm, rfl⟩ := Option.map_eq_some_iff.1 h
    have := mapM_length hm
    rw [b64Bytes_length m (by omega), this]

theorem fromB32z_length {s b : Bytes} (h : fromB32z s = some b) : b.length = s.length * 5 / 8 := by
  unfold fromB32z at h
  by_cases hl : s.length % 8 = 1 ∨ s.length % 8 = 3 ∨ s.length % 8 = 6
  · rw [if_pos hl] at h; cases h
  · rw [if_neg hl] at h
    obtain ⟨m, hm, rfl⟩ := Option.map_eq_some_iff.1 h
    have := mapM_length hm
    rw [b32zBytes_length m (by omega) (by omega) (by omega), this]

/-- The length of what base64 text of the accepted lengths decodes to: 32 bytes, or 31 if it ends in two `=`. -/
theorem fromB64_key {s b : Bytes} (hs : s.length = 43 ∨ (s.length = 44 ∧ s.getLast? = some 61)) (h : fromB64 s = some b) :
    b.length = if s.drop (s.length - 2) = [61, 61] ∧ s.length = 44 then 31 else 32 := by
  rw [fromB64_length h]
  unfold b64Strip
  rcases hs with hs | ⟨hs, he⟩
  · rw [if_neg (by omega), if_neg (by omega)]; omega
  · rw [if_pos (by omega)]
    by_cases h2 : s.drop (s.length - 2) = [61, 61]
    · rw [if_pos h2, if_pos ⟨h2, hs⟩, List.length_take]; omega
    · have h1 : s.drop (s.length - 1) = [61] := by
        obtain ⟨t, rfl⟩ := List.getLast?_eq_some_iff.1 he
        simp
      rw [if_neg h2, if_pos h1, if_neg (fun hh => h2 hh.1), List.length_take]; omega

/-! ### C122 -/

/-- The text forms of a key: hex (letters of either case), base64 with and without the padding, base32z (letters of either
case) -/
def KeyForm (pk enc : Bytes) : Prop :=
  lower enc = toHex pk ∨ enc = toB64 pk ∨ enc = (toB64 pk).dropLast ∨ lower enc = toB32z pk

theorem b32zVal_lower (c : UInt8) : b32zVal (lowerC c) = b32zVal c := by
  revert c; apply forall_uint8; decide +kernel

theorem fromB32z_lower (s : Bytes) : fromB32z (lower s) = fromB32z s := by
  unfold fromB32z
  have : (lower s).mapM b32zVal = s.mapM b32zVal := by
    unfold lower
    induction s with
    | nil => rfl
    | cons c t ih => rw [List.map_cons, List.mapM_cons, List.mapM_cons, b32zVal_lower, ih]
  rw [this, show (lower s).length = s.length from List.length_map _]

theorem lowerC_63 (c : UInt8) : lowerC c = 63 ↔ c = 63 := by
  revert c; apply forall_uint8; decide +kernel

theorem b64_dropLast {pk : Bytes} (h : pk.length = 32) : b64Strip (toB64 pk) = (toB64 pk).dropLast ∧ (toB64 pk).getLast? = some 61 ∧
    (toB64 pk).length = 44 := by
  have hd := toB64_digits pk
  have hp : b64Pad pk.length = [61] := by rw [h]; rfl
  rw [strip_digits, hd, hp]
  refine ⟨by simp, by simp, ?_⟩
  rw [List.length_append, List.length_map, b64Digits_length, h]; rfl

/-- The form of a key gives the key in the two decoders, and has no `?` in it. -/
theorem keyForm_cases {pk enc : Bytes} (h : pk.length = 32) (hf : KeyForm pk enc) :
    (enc.length = 64 ∧ isHex enc = true ∧ fromHex enc = pk) ∨
    ((enc.length = 43 ∨ (enc.length = 44 ∧ enc.getLast? = some 61)) ∧ fromB64 enc = some pk) ∨
    (enc.length = 52 ∧ fromB32z enc = some pk) := by
  obtain ⟨d1, d2, d3⟩ := b64_dropLast h
  obtain ⟨e1, e2⟩ := fromB64_toB64 pk
  rcases hf with hf | hf | hf | hf
  · have hx : isHex enc = true := by rw [← isHex_lower, hf, toHex_isHex]
    refine .inl ⟨?_, hx, ?_⟩
    · rw [← show (lower enc).length = enc.length from List.length_map _, hf, toHex_length, h]
    · rw [← fromHex_lower enc hx, hf, fromHex_toHex]
  · subst hf; exact .inr (.inl ⟨.inr ⟨d3, d2⟩, e1⟩)
  · subst hf
    exact .inr (.inl ⟨.inl (by rw [List.length_dropLast, d3]), by rw [← d1]; exact e2⟩)
  · refine .inr (.inr ⟨?_, ?_⟩)
    · rw [← show (lower enc).length = enc.length from List.length_map _, hf, toB32z_length, h]
    · rw [← fromB32z_lower, hf, fromB32z_toB32z]

theorem keyForm_no_query {pk enc : Bytes} (hf : KeyForm pk enc) : (63 : UInt8) ∉ enc := by
  have hl : ∀ s : Bytes, (63 : UInt8) ∉ lower s → (63 : UInt8) ∉ s := by
    intro s hs hm
    exact hs (List.mem_map.2 ⟨63, hm, (lowerC_63 63).2 rfl⟩)
  have h64 : (63 : UInt8) ∉ toB64 pk := by
    rw [toB64_digits]
    intro hm
    rcases List.mem_append.1 hm with hm | hm
    · obtain ⟨d, hd, hc⟩ := List.mem_map.1 hm
      exact (b64Char_ne d (b64Digits_lt pk d hd)).2 hc
    · unfold b64Pad at hm
      split at hm
      · simp at hm
      · split at hm <;> simp at hm
  rcases hf with hf | hf | hf | hf
  · exact hl _ (by rw [hf]; exact question_not_in_hex pk)
  · rw [hf]; exact h64
  · rw [hf]; exact fun hm => h64 (List.mem_of_mem_dropLast hm)
  · refine hl _ ?_
    rw [hf, toB32z_digits]
    intro hm
    obtain ⟨d, hd, hc⟩ := List.mem_map.1 hm
    exact b32zChar_ne d (b32zDigits_lt pk d hd) hc

theorem oxenc_unfold (pk : Bytes) : oxenc.decodePubkey pk =
    if pk.length = 64 ∧ isHex pk = true then .ok (fromHex pk)
    else if (pk.length = 43 ∨ (pk.length = 44 ∧ pk.getLast? = some 61)) ∧ (fromB64 pk).isSome then .ok ((fromB64 pk).getD [])
    else if pk.length = 52 ∧ (fromB32z pk).isSome then .ok ((fromB32z pk).getD []) else .err .foreign := rfl

theorem oxenc_decode {pk enc : Bytes} (h : pk.length = 32) (hf : KeyForm pk enc) : oxenc.decodePubkey enc = .ok pk := by
  rw [oxenc_unfold]
  rcases keyForm_cases h hf with ⟨a, b, c⟩ | ⟨a, b⟩ | ⟨a, b⟩
  · rw [if_pos ⟨a, b⟩, c]
  · rw [if_neg (by omega), if_pos ⟨a, by rw [b]; rfl⟩, b]; rfl
  · rw [if_neg (by omega), if_neg (by omega), if_pos ⟨a, by rw [b]; rfl⟩, b]; rfl

theorem into32_self {b : Bytes} (h : b.length = 32) : into32 b = b := by
  unfold into32; exact List.take_left' h

/-- **C122.** Whatever text form a key is given in, `set_pubkey`, `community`'s constructors (`decode_pubkey`) and the
onion-request parser (`parse_*_pubkey`) read the same key; the latter also takes the 32 bytes themselves. -/
theorem key_form_read (P : OPrims) (h64 : P.b64 = fromB64) (h32 : P.b32z = fromB32z) {pk enc : Bytes} (h : pk.length = 32)
    (hf : KeyForm pk enc) : oxenc.decodePubkey enc = .ok pk ∧ parsePubkey P enc = pk ∧ parsePubkey P pk = pk := by
  have h3 : parsePubkey P pk = pk := by simp only [parsePubkey, h, if_true]
  refine ⟨?_, ?_, h3⟩
  · exact oxenc_decode h hf
  · simp only [parsePubkey, h64, h32]
    rcases keyForm_cases h hf with ⟨a, b, c⟩ | ⟨a, b⟩ | ⟨a, b⟩
    · rw [if_neg (by omega), if_pos ⟨a, b⟩, c]
    · rw [if_neg (by omega), if_neg (by omega), if_pos a, b]; simp [into32_self h]
    · rw [if_neg (by omega), if_neg (by omega), if_neg (by omega), if_pos a, b]; simp [into32_self h]

/-- **C122.** A community URL may give the key in any of the forms, after either form of the path: the parsed server, room and
key are the same, also through the C interface. -/
theorem full_url_any_form {b r v pk enc : Bytes} (hb : canonUrl b = .ok b) (hr : canonRoom r = .ok v) (hpk : pk.length = 32)
    (hf : KeyForm pk enc) :
    oxenc.parseFull (b ++ 47 :: r ++ sQuery ++ enc) = .ok (b, r, pk) ∧
    oxenc.parseFull (b ++ sR ++ r ++ sQuery ++ enc) = .ok (b, r, pk) ∧
    oxenc.parsePartial (b ++ 47 :: r ++ sQuery ++ enc) = .ok (b, r, some pk) ∧
    oxenc.cParseFull (b ++ 47 :: r ++ sQuery ++ enc) = .ok (some (b, r, pk)) := by
  have hdec : oxenc.decodePubkey enc = .ok pk := oxenc_decode hpk hf
  have hsp : ∀ a, oxenc.splitPubkey (a ++ sQuery ++ enc) = .ok (a, some pk) := by
    intro a
    have h1 : rfindSub sQuery (a ++ sQuery ++ enc) = some (a, enc) :=
      rfindSub_last (x := 63) (q := [112, 117, 98, 108, 105, 99, 95, 107, 101, 121, 61]) a (by decide) (keyForm_no_query hf)
    unfold Codecs.splitPubkey
    simp only [h1, hdec, Out.bind_ok]
  have e : b ++ 47 :: r ++ sQuery ++ enc = (b ++ 47 :: r) ++ sQuery ++ enc := rfl
  have p1 : oxenc.parsePartial (b ++ 47 :: r ++ sQuery ++ enc) = .ok (b, r, some pk) := by
    unfold Codecs.parsePartial
    rw [e, hsp]
    simp only [Out.bind_ok, splitRoom_full hb hr, hb]
  have p2 : oxenc.parseFull (b ++ 47 :: r ++ sQuery ++ enc) = .ok (b, r, pk) := by
    unfold Codecs.parseFull
    rw [p1]; rfl
  refine ⟨p2, ?_, p1, ?_⟩
  · unfold Codecs.parseFull Codecs.parsePartial
    rw [hsp]
    simp only [Out.bind_ok, splitRoom_r hr, hb]
  · have h1 : b.length ≤ 267 := by
      obtain ⟨_, _, _, _, _, _, _, _, _, _, _, h⟩ := (canonical_url_iff _ _).1 hb; exact h
    have h2 := ((canonical_room_iff _ _).1 hr).2.2.1
    unfold Codecs.cParseFull
    rw [p2]
    have h3 : b.length ≤ baseUrlMax ∧ r.length ≤ roomMax ∧ pk.length ≤ 32 := ⟨h1, h2, by omega⟩
    simp only [h3]; rfl

/-- **C122.** A community looked up or made by server, room and a key in any text form is the one looked up by
the 32 bytes; a conversation looked up that way is the same for every form. -/
theorem comm_any_form (c : Client) {base room pk enc : Bytes} (hpk : pk.length = 32) (hf : KeyForm pk enc) :
    c.ucommOrEnc oxenc base room enc = c.ucommOr base room pk ∧
    c.commConvoEnc oxenc base room enc = c.commConvoEnc oxenc base room (toHex pk) ∧
    (canonRoom room = .ok room → (∃ b, canonUrl base = .ok b) → c.commConvoEnc oxenc base room enc = c.commConvo base room pk) := by
  have hdec : oxenc.decodePubkey enc = .ok pk := oxenc_decode hpk hf
  have hdec' : oxenc.decodePubkey (toHex pk) = .ok pk := oxenc_decode hpk (.inl (by
    rw [← toHex_fromHex _ (toHex_isHex pk), fromHex_toHex]))
  refine ⟨?_, ?_, ?_⟩
  · unfold Client.ucommOrEnc Client.ucommOr
    rw [hdec, hpk]; rfl
  · unfold Client.commConvoEnc
    rw [hdec, hdec']
  · rintro hr ⟨b, hb⟩
    unfold Client.commConvoEnc Client.commConvo
    rw [hdec, hb, hr, hpk]; rfl

/-- The decoders give at most 32 bytes for text of the accepted lengths: with this, `c_parse_in_bounds_partial` speaks
about the library's decoders. -/
theorem oxenc_fits : (∀ s b, (s.length = 43 ∨ (s.length = 44 ∧ s.getLast? = some 61)) → oxenc.b64 s = some b → b.length ≤ 32) ∧
    (∀ s b, s.length = 52 → oxenc.b32z s = some b → b.length ≤ 32) := by
  refine ⟨fun s b hs h => ?_, fun s b hs h => ?_⟩
  · rw [fromB64_key hs h]; split <;> omega
  · rw [fromB32z_length h, hs]

/-- **C53** with the library's decoders: whatever the URL, the server fits its buffer and so does the key, and both C parsers
stay inside the buffers unless the room has more than 64 characters. -/
theorem c_parse_oxenc_partial (u : Bytes) :
    (∀ b r pk, oxenc.parseFull u = .ok (b, r, pk) → b.length ≤ 267 ∧ pk.length ≤ 32 ∧ canonUrl b = .ok b) ∧
    (oxenc.cParseFull u = .ub ↔ ∃ b r pk, oxenc.parseFull u = .ok (b, r, pk) ∧ 64 < r.length) :=
  c_parse_in_bounds_partial oxenc oxenc_fits.1 oxenc_fits.2 u

/-- **C122.** What is accepted is 32 bytes long: anything else is refused (`decode_pubkey` throws), or read as the key of
zeros by the onion-request parser.  Except (bug, and why this is partial) text of 44 characters ending in `==`: see
`short_key_accepted`. -/
theorem key_length_partial (P : OPrims) (h64 : P.b64 = fromB64) (h32 : P.b32z = fromB32z) (s : Bytes) :
    (parsePubkey P s).length = 32 ∧
    (∀ k, oxenc.decodePubkey s = .ok k → k.length = 32 ∨ (k.length = 31 ∧ s.length = 44 ∧ s.drop 42 = [61, 61])) ∧
    (oxenc.decodePubkey s = .err .foreign ∨ ∃ k, oxenc.decodePubkey s = .ok k) ∧
    (s.length ≠ 32 → oxenc.decodePubkey s = .err .foreign → parsePubkey P s = List.replicate 32 0) ∧
    (s.length ≠ 32 → ∀ k, oxenc.decodePubkey s = .ok k → k.length = 32 → parsePubkey P s = k) := by
  have hz : (List.replicate 32 (0 : UInt8)).length = 32 := rfl
  have hi : ∀ b, (into32 b).length = 32 := by intro b; simp [into32]
  rw [oxenc_unfold]
  simp only [parsePubkey, h64, h32]
  by_cases h1 : s.length = 64 ∧ isHex s = true
  · have hn : s.length ≠ 32 := by omega
    have hl : (fromHex s).length = 32 := by rw [fromHex_length, h1.1]
    simp only [if_neg hn, if_pos h1]
    refine ⟨hl, fun k hk => .inl ?_, .inr ⟨_, rfl⟩, fun _ h => (by cases h), fun _ k hk _ => Out.ok.inj hk⟩
    rw [← Out.ok.inj hk]; exact hl
  · simp only [if_neg h1]
    by_cases h2 : s.length = 43 ∨ (s.length = 44 ∧ s.getLast? = some 61)
    · have hn : s.length ≠ 32 := by omega
      have hn2 : s.length ≠ 52 := by omega
      simp only [if_neg hn, hn2, false_and, if_false, h2, true_and]
      cases hb : fromB64 s with
      | none => simp
      | some b =>
        simp only [Option.isSome_some, if_true, Option.getD_some, Option.map_some]
        have hk := fromB64_key h2 hb
        refine ⟨hi b, fun k e => ?_, .inr ⟨_, rfl⟩, fun _ h => (by cases h), fun _ k e hl => ?_⟩
        · rw [← Out.ok.inj e]
          split at hk
          · rename_i hh
            have h44 := hh.2
            exact .inr ⟨hk, h44, by rw [h44] at hh; exact hh.1⟩
          · exact .inl hk
        · rw [← Out.ok.inj e] at hl ⊢; exact into32_self hl
    · simp only [h2, false_and, if_false]
      by_cases h3 : s.length = 52
      · have hn : s.length ≠ 32 := by omega
        simp only [h3, if_true, true_and]
        cases hb : fromB32z s with
        | none => simp
        | some b =>
          simp only [Option.isSome_some, if_true, Option.getD_some, Option.map_some]
          have hk : b.length = 32 := by rw [fromB32z_length hb, h3]
          refine ⟨hi b, fun k e => .inl ?_, .inr ⟨_, rfl⟩, fun _ h => (by cases h), fun _ k e hl => ?_⟩
          · rw [← Out.ok.inj e]; exact hk
          · rw [← Out.ok.inj e] at hl ⊢; exact into32_self hl
      · simp only [h3, false_and, if_false]
        refine ⟨?_, fun k e => (by cases e), (by simp), fun hn _ => (by rw [if_neg hn]), fun _ k e => (by cases e)⟩
        split
        · assumption
        · exact hz

/-- C122 is false of the code in one case: 42 digits and `==` are taken for a key, of 31 bytes; the C interface then says that
it has written a key and leaves the last byte of the caller's buffer as it was. -/
theorem short_key_accepted : ∃ s u : Bytes, s.length = 44 ∧ (∃ k, oxenc.decodePubkey s = .ok k ∧ k.length = 31) ∧
    (∃ b r k, oxenc.cParseFull u = .ok (some (b, r, k)) ∧ k.length = 31) := by
  refine ⟨List.replicate 42 65 ++ [61, 61], sHttps ++ sSep ++ [97, 98, 46, 99] ++ 47 :: [97] ++ sQuery ++ (List.replicate 42 65 ++ [61, 61]),
    by decide, ⟨List.replicate 31 0, by decide +kernel, by decide⟩,
    ⟨sHttps ++ sSep ++ [97, 98, 46, 99], [97], List.replicate 31 0, by decide +kernel, by decide⟩⟩

/-- **C122.** The text forms name the key: two keys with a form in common are the same key. -/
theorem key_form_inj {a b enc : Bytes} (ha : a.length = 32) (hb : b.length = 32) (h1 : KeyForm a enc) (h2 : KeyForm b enc) : a = b := by
  rcases keyForm_cases ha h1 with ⟨x, _, y⟩ | ⟨x, y⟩ | ⟨x, y⟩ <;> rcases keyForm_cases hb h2 with ⟨z, _, w⟩ | ⟨z, w⟩ | ⟨z, w⟩
  · rw [← y, w]
  · omega
  · omega
  · omega
  · rw [y] at w; exact Option.some.inj w
  · omega
  · omega
  · omega
  · rw [y] at w; exact Option.some.inj w

/-- **C122.** The key types of the onion-request code: `from_hex` accepts exactly hex of the right length, `from_bytes` exactly
strings of the right length, each gives back what `hex()` or the bytes of a key say, and a snode's address is 58 characters,
and its own. -/
theorem onion_key_types (n : Nat) (s pk : Bytes) (hpk : pk.length = n) :
    ((∃ k, keyFromHex n s = .ok k) ↔ isHex s = true ∧ s.length = 2 * n) ∧
    (∀ k, keyFromHex n s = .ok k → k.length = n ∧ toHex k = lower s) ∧
    keyFromHex n (toHex pk) = .ok pk ∧
    (∀ k, keyFromBytes n s = .ok k ↔ s.length = n ∧ k = s) ∧
    (∀ q, snodeAddress q = snodeAddress pk → q = pk) ∧
    (n = 32 → (snodeAddress pk).length = 58) := by
  refine ⟨?_, ?_, ?_, ?_, ?_, ?_⟩
  · unfold keyFromHex
    by_cases h1 : isHex s = false
    · rw [if_pos h1]; simp [h1]
    · rw [if_neg h1]
      have h1' : isHex s = true := by simpa using h1
      by_cases h2 : s.length ≠ 2 * n
      · rw [if_pos h2]; simp [h2]
      · rw [if_neg h2]; simp [h1']; omega
  · intro k h
    unfold keyFromHex at h
    by_cases h1 : isHex s = false
    · rw [if_pos h1] at h; cases h
    · rw [if_neg h1] at h
      by_cases h2 : s.length ≠ 2 * n
      · rw [if_pos h2] at h; cases h
      · rw [if_neg h2] at h
        rw [← Out.ok.inj h]
        refine ⟨by rw [fromHex_length]; omega, toHex_fromHex s (by simpa using h1)⟩
  · unfold keyFromHex
    rw [if_neg (by rw [toHex_isHex]; simp), if_neg (by rw [toHex_length]; omega), fromHex_toHex]
  · intro k
    unfold keyFromBytes
    by_cases h2 : s.length ≠ n
    · rw [if_pos h2]; simp [h2]
    · rw [if_neg h2]
      constructor
      · intro h; exact ⟨by omega, (Out.ok.inj h).symm⟩
      · intro h; rw [h.2]
  · intro q h
    have h' := List.append_cancel_right h
    have := fromB32z_toB32z q
    rw [h', fromB32z_toB32z] at this
    exact (Option.some.inj this).symm
  · intro h
    unfold snodeAddress
    rw [List.length_append, toB32z_length, hpk, h]; rfl

/-- A key and its forms -/
def exFormKey : Bytes := (List.range 32).map fun i => UInt8.ofNat (7 * i + 3)

example : exFormKey.length = 32 ∧ KeyForm exFormKey (toHex exFormKey) ∧ KeyForm exFormKey ((toHex exFormKey).map fun c => if 97 ≤ c then c - 32 else c) ∧
    KeyForm exFormKey (toB64 exFormKey) ∧ KeyForm exFormKey (toB64 exFormKey).dropLast ∧ KeyForm exFormKey (toB32z exFormKey) ∧
    toB64 [77, 97, 110] = asc ['T', 'W', 'F', 'u'] ∧ toB32z [0x5e, 0x91] = asc ['m', '4', 'e', 'o'] := by
  refine ⟨rfl, .inl ?_, .inl ?_, .inr (.inl rfl), .inr (.inr (.inl rfl)), .inr (.inr (.inr ?_)), ?_, ?_⟩ <;> decide +kernel

/-! ### The text forms, bit by bit -/

/-- The `w` lowest bits of a number, the highest first -/
def toBits : Nat → Nat → List Bool
  | 0, _ => []
  | w + 1, n => decide (n / 2 ^ w % 2 = 1) :: toBits w n

/-- The bits of a byte string -/
def bitsOf (x : Bytes) : List Bool := x.flatMap fun b => toBits 8 b.toNat

/-- `s` is the byte string `x` written with `w` bits to a letter: the bits of `x`, then fewer than `w` zero bits, are the bits of the
positions of the letters in the alphabet. -/
def WrittenIn (alphabet : List Char) (w : Nat) (x s : Bytes) : Prop :=
  ∃ (ds : List Nat) (z : Nat), z < w ∧ bitsOf x ++ List.replicate z false = ds.flatMap (toBits w) ∧
    ds.map (fun d => (asc alphabet)[d]?) = s.map some

theorem writtenIn_of {abc : List Char} {w : Nat} {x : Bytes} {ds : List Nat} {ch : Nat → UInt8} {z : Nat} (hz : z < w)
    (hb : bitsOf x ++ List.replicate z false = ds.flatMap (toBits w)) (hd : ∀ d ∈ ds, d < 2 ^ w)
    (hc : ∀ d, d < 2 ^ w → (asc abc)[d]? = some (ch d)) : WrittenIn abc w x (ds.map ch) := by
  refine ⟨ds, z, hz, hb, ?_⟩
  rw [List.map_map]
  exact List.map_congr_left fun d h => hc d (hd d h)

theorem b32z_bits : ∀ x : Bytes, ∃ z, z < 5 ∧ bitsOf x ++ List.replicate z false = (b32zDigits x).flatMap (toBits 5)
  | [] => ⟨0, by omega, rfl⟩
  | [a] => by
    refine ⟨2, by omega, ?_⟩
    have := a.toNat_lt
    simp only [bitsOf, b32zDigits, List.flatMap_cons, List.flatMap_nil, toBits, List.cons_append, List.nil_append, List.append_nil,
      List.replicate, List.cons.injEq, Nat.reducePow, decide_eq_decide, and_true, Bool.false_eq, decide_eq_false_iff_not]
    refine ⟨?_, ?_, ?_, ?_, ?_, ?_, ?_, ?_, ?_, ?_⟩ <;> omega
  | [a, b] => by
    refine ⟨4, by omega, ?_⟩
    have := a.toNat_lt
    have := b.toNat_lt
    simp only [bitsOf, b32zDigits, List.flatMap_cons, List.flatMap_nil, toBits, List.cons_append, List.nil_append, List.append_nil,
      List.replicate, List.cons.injEq, Nat.reducePow, decide_eq_decide, and_true, Bool.false_eq, decide_eq_false_iff_not]
    repeat' apply And.intro
    all_goals omega
  | [a, b, c] => by
    refine ⟨1, by omega, ?_⟩
    have := a.toNat_lt
    have := b.toNat_lt
    have := c.toNat_lt
    simp only [bitsOf, b32zDigits, List.flatMap_cons, List.flatMap_nil, toBits, List.cons_append, List.nil_append, List.append_nil,
      List.replicate, List.cons.injEq, Nat.reducePow, decide_eq_decide, and_true, Bool.false_eq, decide_eq_false_iff_not]
    repeat' apply And.intro
    all_goals omega
  | [a, b, c, d] => by
    refine ⟨3, by omega, ?_⟩
    have := a.toNat_lt
    have := b.toNat_lt
    have := c.toNat_lt
    have := d.toNat_lt
    simp only [bitsOf, b32zDigits, List.flatMap_cons, List.flatMap_nil, toBits, List.cons_append, List.nil_append, List.append_nil,
      List.replicate, List.cons.injEq, Nat.reducePow, decide_eq_decide, and_true, Bool.false_eq, decide_eq_false_iff_not]
    repeat' apply And.intro
    all_goals omega
  | a :: b :: c :: d :: e :: t => by
    obtain ⟨z, hz, ih⟩ := b32z_bits t
    refine ⟨z, hz, ?_⟩
    have := a.toNat_lt
    have := b.toNat_lt
    have := c.toNat_lt
    have := d.toNat_lt
    have := e.toNat_lt
    simp only [bitsOf, b32zDigits, List.flatMap_cons, List.append_assoc] at ih ⊢
    rw [ih]
    simp only [toBits, List.cons_append, List.nil_append,
      List.cons.injEq, Nat.reducePow, decide_eq_decide, and_true]
    repeat' apply And.intro
    all_goals omega

theorem b64_bits : ∀ x : Bytes, ∃ z, z < 6 ∧ bitsOf x ++ List.replicate z false = (b64Digits x).flatMap (toBits 6)
  | [] => ⟨0, by omega, rfl⟩
  | [a] => by
    refine ⟨4, by omega, ?_⟩
    have := a.toNat_lt
    simp only [bitsOf, b64Digits, List.flatMap_cons, List.flatMap_nil, toBits, List.cons_append, List.nil_append, List.append_nil,
      List.replicate, List.cons.injEq, Nat.reducePow, decide_eq_decide, and_true, Bool.false_eq, decide_eq_false_iff_not]
    repeat' apply And.intro
    all_goals omega
  | [a, b] => by
    refine ⟨2, by omega, ?_⟩
    have := a.toNat_lt
    have := b.toNat_lt
    simp only [bitsOf, b64Digits, List.flatMap_cons, List.flatMap_nil, toBits, List.cons_append, List.nil_append, List.append_nil,
      List.replicate, List.cons.injEq, Nat.reducePow, decide_eq_decide, and_true, Bool.false_eq, decide_eq_false_iff_not]
    repeat' apply And.intro
    all_goals omega
  | a :: b :: c :: t => by
    obtain ⟨z, hz, ih⟩ := b64_bits t
    refine ⟨z, hz, ?_⟩
    have := a.toNat_lt
    have := b.toNat_lt
    have := c.toNat_lt
    simp only [bitsOf, b64Digits, List.flatMap_cons, List.append_assoc] at ih ⊢
    rw [ih]
    simp only [toBits, List.cons_append, List.nil_append,
      List.cons.injEq, Nat.reducePow, decide_eq_decide, and_true]
    repeat' apply And.intro
    all_goals omega

theorem hex_written : ∀ x : Bytes, WrittenIn "0123456789abcdef".toList 4 x (toHex x) := by
  intro x
  have h : ∃ ds : List Nat, bitsOf x ++ List.replicate 0 false = ds.flatMap (toBits 4) ∧
      ds.map (fun d => (asc "0123456789abcdef".toList)[d]?) = (toHex x).map some := by
    induction x with
    | nil => exact ⟨[], rfl, rfl⟩
    | cons a t ih =>
      obtain ⟨ds, h1, h2⟩ := ih
      refine ⟨a.toNat / 16 :: a.toNat % 16 :: ds, ?_, ?_⟩
      · have := a.toNat_lt
        simp only [bitsOf, List.flatMap_cons, List.append_assoc] at h1 ⊢
        rw [h1]
        simp only [toBits, List.cons_append, List.nil_append,
          List.cons.injEq, Nat.reducePow, decide_eq_decide, and_true]
        repeat' apply And.intro
        all_goals omega
      · unfold toHex
        rw [List.map_cons, List.map_cons, h2, List.map_cons, List.map_cons]
        have := forall_uint8 (P := fun a => ((asc "0123456789abcdef".toList)[a.toNat / 16]? == some (hexDigit (a / 16)) &&
          (asc "0123456789abcdef".toList)[a.toNat % 16]? == some (hexDigit (a % 16))) = true) (by decide +kernel) a
        simp only [Bool.and_eq_true, beq_iff_eq] at this
        rw [this.1, this.2]
  obtain ⟨ds, h1, h2⟩ := h
  exact ⟨ds, 0, by omega, h1, h2⟩

/-- C122.  The three text forms: hex is 4 bits to a letter, base32z 5 bits, base64 6 bits and then padding to a multiple of four
characters, with these alphabets. -/
theorem text_forms (x : Bytes) :
    WrittenIn "0123456789abcdef".toList 4 x (toHex x) ∧
    WrittenIn "ybndrfg8ejkmcpqxot1uwisza345h769".toList 5 x (toB32z x) ∧
    ∃ s p, WrittenIn "ABCDEFGHIJKLMNOPQRSTUVWXYZabcdefghijklmnopqrstuvwxyz0123456789+/".toList 6 x s ∧
      toB64 x = s ++ List.replicate p 61 ∧ p < 3 ∧ (toB64 x).length % 4 = 0 := by
  refine ⟨hex_written x, ?_, ?_⟩
  · obtain ⟨z, hz, hb⟩ := b32z_bits x
    rw [toB32z_digits]
    exact writtenIn_of hz hb (b32zDigits_lt x) (by decide +kernel)
  · obtain ⟨z, hz, hb⟩ := b64_bits x
    have hl := b64Digits_length x
    refine ⟨(b64Digits x).map b64Char, if x.length % 3 = 0 then 0 else 3 - x.length % 3,
      writtenIn_of hz hb (b64Digits_lt x) (by decide +kernel), ?_, ?_, ?_⟩
    · rw [toB64_digits]
      congr 1
      unfold b64Pad
      have h3 : x.length % 3 = 0 ∨ x.length % 3 = 1 ∨ x.length % 3 = 2 := by omega
      rcases h3 with h | h | h <;> simp [h]
    · split <;> omega
    · rw [toB64_digits, List.length_append, List.length_map, hl]
      unfold b64Pad
      have h3 : x.length % 3 = 0 ∨ x.length % 3 = 1 ∨ x.length % 3 = 2 := by omega
      rcases h3 with h | h | h <;> simp [h] <;> omega

example : toHex [251, 7] = asc "fb07".toList ∧ toB32z [251, 7] = asc "9cdo".toList ∧ toB64 [251, 7] = asc "+wc=".toList := by
  decide +kernel

end Verif
