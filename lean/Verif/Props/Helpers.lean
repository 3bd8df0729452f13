import Verif.Helpers
import Verif.Records
import Verif.Props.Contacts

/-!
# Helper functions
-/

namespace Verif

/-- C113.  `string_iequal` compares up to the case of letters. -/
theorem string_iequal_spec : ∀ s t : Bytes, stringIequal s t = true ↔ lower s = lower t
  | [], [] => by simp [stringIequal]
  | a :: s, b :: t => by
    have := string_iequal_spec s t
    simp only [stringIequal, Bool.and_eq_true, beq_iff_eq, this, lower, List.map_cons, List.cons.injEq]
  | [], b :: t => by simp [stringIequal, lower]
  | a :: s, [] => by simp [stringIequal, lower]

/-- C113.  `end_with` tells whether the second string is a suffix of the first. -/
theorem end_with_spec (s p : Bytes) : endWith s p = true ↔ p <:+ s := by
  unfold endWith
  simp only [Bool.and_eq_true, decide_eq_true_eq, beq_iff_eq]
  constructor
  · rintro ⟨_, h⟩; rw [← h]; exact List.drop_suffix _ _
  · rintro ⟨a, rfl⟩
    refine ⟨by simp, ?_⟩
    have : (a ++ p).length - p.length = a.length := by simp
    rw [this, List.drop_left]

/-- **C113, what fails.** `starts_with` does not look at the beginning of the string: it holds exactly if the string consists of
the prefix preceded by as many bytes, so that no non-empty string starts with itself. -/
theorem starts_with_wrong (s p : Bytes) :
    (startsWith s p = true ↔ ∃ a, a.length = p.length ∧ s = a ++ p) ∧ (p ≠ [] → startsWith p p = false) := by
  have h : startsWith s p = true ↔ ∃ a, a.length = p.length ∧ s = a ++ p := by
    unfold startsWith
    simp only [Bool.and_eq_true, decide_eq_true_eq, beq_iff_eq]
    constructor
    · rintro ⟨h1, h2⟩
      exact ⟨s.take p.length, by simp; omega, by conv_lhs => rw [← List.take_append_drop p.length s, h2]⟩
    · rintro ⟨a, ha, rfl⟩
      exact ⟨by simp, by rw [← ha, List.drop_left]⟩
  refine ⟨h, fun hp => ?_⟩
  unfold startsWith
  rw [List.drop_length]
  cases p with
  | nil => exact absurd rfl hp
  | cons a t => simp

/-- **C113, what fails.** `SessionID::hex` never gives a session id: for every key the functions taking one refuse it, whereas they
accept the key in hex after `05`. -/
theorem session_id_hex_wrong {pk : Bytes} (h : pk.length = 32) :
    checkId (sessionIdHex pk) pre05 = false ∧ checkId (toHex (5 :: pk)) pre05 = true := by
  refine ⟨?_, (checkId_toHex (by simp [h])).2 rfl⟩
  unfold checkId sessionIdHex
  have h2 : ((5 :: toHex pk).length == 64 + pre05.length) = false := by
    rw [List.length_cons, toHex_length, h]; rfl
  rw [h2]; rfl

example : stringIequal [104, 84, 116, 80] [72, 116, 116, 112] = true ∧ endWith [1, 2, 3] [2, 3] = true ∧ endWith [2, 3] [1, 2, 3] = false := by
  decide

end Verif
