import Verif.Blinding

/-!
# Lemmas about keys and blinding, and a small curve that satisfies the assumptions
-/

namespace Verif

variable {G : Type} [AddCommGroup G] [DecidableEq G] {C : SCurve G}

theorem clampSc_length (b : Bytes) : (clampSc b).length = b.length := by simp [clampSc]

theorem clampSc_idem {b : Bytes} (hb : b.length = 32) : clampSc (clampSc b) = clampSc b := by
  have h0 : ∀ z : UInt8, z &&& 248 &&& 248 = z &&& 248 :=
    forall_uint8 (P := fun z => z &&& 248 &&& 248 = z &&& 248) (by decide +kernel)
  have h1 : ∀ t : UInt8, ((t &&& 127) ||| 64) &&& 127 ||| 64 = (t &&& 127) ||| 64 :=
    forall_uint8 (P := fun t => ((t &&& 127) ||| 64) &&& 127 ||| 64 = (t &&& 127) ||| 64) (by decide +kernel)
  have g0 : (clampSc b).getD 0 0 = b.getD 0 0 &&& 248 := by
    unfold clampSc
    simp [List.getD_eq_getElem?_getD, List.getElem?_set, hb]
  have g31 : (clampSc b).getD 31 0 = (b.getD 31 0 &&& 127) ||| 64 := by
    unfold clampSc
    simp [List.getD_eq_getElem?_getD, List.getElem?_set, hb]
  show ((clampSc b).set 0 ((clampSc b).getD 0 0 &&& 248)).set 31 (((clampSc b).getD 31 0 &&& 127) ||| 64) = clampSc b
  rw [g0, g31, h0, h1]
  unfold clampSc
  generalize b.getD 0 0 &&& 248 = u
  generalize (b.getD 31 0 &&& 127) ||| 64 = v
  rw [List.set_comm u v (by decide : (0 : Nat) ≠ 31), List.set_set, List.set_comm v u (by decide : (31 : Nat) ≠ 0),
    List.set_set]

theorem SCurve.Good.shaTake (h : C.Good) (m : Bytes) : ((C.sha512 m).take 32).length = 32 := by
  rw [List.length_take, h.shaLen]; rfl

theorem SCurve.Good.edScalar_length (h : C.Good) (sk : Bytes) : (C.edScalar sk).length = 32 := by
  unfold Curve.edScalar
  rw [clampSc_length, h.shaTake]

theorem SCurve.Good.edScalar_lt (h : C.Good) (sk : Bytes) : leNat (C.edScalar sk) < 2 ^ 255 :=
  (clamp_form (h.shaTake _)).1

theorem SCurve.Good.edScalar_clamped (h : C.Good) (sk : Bytes) : clampSc (C.edScalar sk) = C.edScalar sk :=
  clampSc_idem (h.shaTake _)

theorem SCurve.Good.edSk_eq (h : C.Good) (seed : Bytes) : C.edSk seed = seed ++ C.enc (C.pub seed) := by
  unfold Curve.edSk Curve.baseMul Curve.pub
  rw [Nat.mod_eq_of_lt (h.edScalar_lt seed)]

theorem SCurve.Good.edScalar_edSk (_h : C.Good) {seed : Bytes} (hs : seed.length = 32) :
    C.edScalar (C.edSk seed) = C.edScalar seed := by
  unfold Curve.edScalar Curve.edSk
  rw [List.take_append_of_le_length (by rw [hs])]

theorem Curve.edSk_length {seed : Bytes} (hs : seed.length = 32) : (C.edSk seed).length = 64 := by
  simp [Curve.edSk, Curve.baseMul, hs]

theorem SCurve.Good.edSk_drop (h : C.Good) {seed : Bytes} (hs : seed.length = 32) :
    (C.edSk seed).drop 32 = C.enc (C.pub seed) := by
  rw [h.edSk_eq, List.drop_left' hs]

theorem Curve.edSk_take {seed : Bytes} (hs : seed.length = 32) : (C.edSk seed).take 32 = seed := by
  unfold Curve.edSk
  rw [List.take_append_of_le_length (by rw [hs]), List.take_of_length_le (by rw [hs])]

/-- A seed, or the secret key made from it. -/
def Curve.IsKey {G : Type} [AddCommGroup G] (C : Curve G) (seed sk : Bytes) : Prop :=
  seed.length = 32 ∧ (sk = seed ∨ sk = C.edSk seed)

omit [DecidableEq G] in
theorem Curve.IsKey.fullSk {C : Curve G} {seed sk : Bytes} (hk : C.IsKey seed sk) : C.fullSk sk = .ok (C.edSk seed) := by
  obtain ⟨hs, rfl | rfl⟩ := hk
  · unfold Curve.fullSk; rw [if_pos hs]
  · have hl : (C.edSk seed).length = 64 := by simp [Curve.edSk, Curve.baseMul, hs]
    unfold Curve.fullSk
    rw [if_neg (by omega), if_pos hl]

omit [DecidableEq G] in
theorem Curve.fullSk_edSk {C : Curve G} {seed : Bytes} (hs : seed.length = 32) : C.fullSk (C.edSk seed) = .ok (C.edSk seed) :=
  Curve.IsKey.fullSk ⟨hs, .inr rfl⟩

theorem SCurve.Good.factor15_lt (h : C.Good) (s : Bytes) : leNat (C.factor15 s) < C.L := by
  unfold SCurve.factor15
  rw [h.c.leNat_scReduce]
  exact Nat.mod_lt _ h.c.LPrime.pos

theorem SCurve.Good.factor25_lt (h : C.Good) (x s : Bytes) : leNat (C.factor25 x s) < C.L := by
  unfold SCurve.factor25
  rw [h.c.leNat_scReduce]
  exact Nat.mod_lt _ h.c.LPrime.pos

theorem SCurve.Good.smul_ne (h : C.Good) {n : Nat} {P : G} (hn : n < C.L) (h0 : n ≠ 0) (hP : P ≠ 0) : n • P ≠ 0 := by
  intro e
  rcases h.c.smul_eq_zero e with hz | hz
  · rw [Nat.mod_eq_of_lt hn] at hz; exact h0 hz
  · exact hP hz

theorem SCurve.Good.pointMul_enc (h : C.Good) {k : Bytes} {P : G} (hk : leNat k < C.L) (h0 : leNat k ≠ 0) (hP : P ≠ 0) :
    C.pointMul k (C.enc P) = some (C.enc (leNat k • P)) := by
  unfold Curve.pointMul
  rw [h.c.dec_enc hP]
  dsimp only
  rw [h.c.small hk, if_neg (h.smul_ne hk h0 hP)]

/-- The product of scalars acts as the multiple of the multiple. -/
theorem SCurve.Good.scMul_smul (h : C.Good) (k a : Bytes) (P : G) :
    leNat (C.scMul k a) • P = leNat k • (leNat a • P) := by
  rw [h.c.leNat_scMul, h.c.smul_mod, Nat.mul_comm, mul_nsmul]

theorem SCurve.Good.baseMul_scMul (h : C.Good) (k a : Bytes) :
    C.baseMul (C.scMul k a) = C.enc (leNat k • (leNat a • C.B)) := by
  rw [h.c.baseMul_small, h.scMul_smul]
  rw [h.c.leNat_scMul]
  exact Nat.mod_lt _ h.c.LPrime.pos

theorem flipTop_cons (x : UInt8) (b : Bytes) : flipTop 32 (x :: b) = x :: flipTop 31 b := by
  simp [flipTop]

/-! ### A small curve -/

/-- A group of five elements.  (Its multiples are computed by multiplication, so that examples with large
scalars can be evaluated.) -/
def Five := Fin 5
deriving DecidableEq, Fintype

instance (n : Nat) : OfNat Five n := ⟨(⟨n % 5, Nat.mod_lt _ (by decide)⟩ : Fin 5)⟩

instance : Add Five := ⟨fun a b => (⟨(a.val + b.val) % 5, Nat.mod_lt _ (by decide)⟩ : Fin 5)⟩

instance : Zero Five := ⟨(⟨0, by decide⟩ : Fin 5)⟩

instance : Neg Five := ⟨fun a => (⟨(5 - a.val) % 5, Nat.mod_lt _ (by decide)⟩ : Fin 5)⟩

/-- A multiple -/
def fiveMul (n : Nat) (a : Five) : Five := (⟨n * a.val % 5, Nat.mod_lt _ (by decide)⟩ : Fin 5)

instance : AddCommGroup Five where
  nsmul := fiveMul
  zsmul := zsmulRec
  add_assoc := by decide +kernel
  zero_add := by decide +kernel
  add_zero := by decide +kernel
  add_comm := by decide +kernel
  neg_add_cancel := by decide +kernel
  nsmul_zero := by decide +kernel
  nsmul_succ := by
    intro n a
    apply Fin.ext
    show (n + 1) * a.val % 5 = (n * a.val % 5 + a.val) % 5
    rw [Nat.add_mul, Nat.one_mul, Nat.mod_add_mod]

/-- The y-coordinate on the small curve -/
def toyY (P : Five) : ZMod 7 := if P = 0 then 1 else if P = 1 ∨ P = 4 then 2 else 3

/-- A group of five points over the field with seven elements: not a curve, but the properties used here
hold.  The hash functions are numbers modulo a power of two. -/
def toyCurve0 : Curve (Five) where
  p := 7
  L := 5
  B := 1
  y := toyY
  sgn P := decide (P = 3 ∨ P = 4)
  dec b := [1, 2, 3, 4].find? fun P => leBytes 32 ((toyY P).val + if decide (P = 3 ∨ P = 4) then 2 ^ 255 else 0) == b
  sha512 m := leBytes 64 (leNat m * 3 + 2 + 2 ^ 256 * 7)

/-- The small curve with its hash functions -/
def toyCurve : SCurve (Five) where
  toCurve := toyCurve0
  blake n k m := leBytes n (leNat k + leNat m + 1)
  blakeP k m := leBytes 64 (leNat k + leNat m + 1)

theorem toyCurve0_good : toyCurve0.Good where
  pPrime := by show Nat.Prime 7; exact Nat.prime_seven
  pOdd := by decide
  pLt := by show 7 < 2 ^ 255; norm_num
  LPrime := by show Nat.Prime 5; exact Nat.prime_five
  LLt := by show 5 < 2 ^ 253; norm_num
  order := by decide
  B0 := by decide
  yNeg := by decide
  y0 := by decide
  sgn0 := by decide
  sgnNeg := by decide
  ySgn := by decide
  decEnc := by
    have key : ∀ P Q : Five, toyCurve0.enc P = toyCurve0.enc Q → P = Q := by decide +kernel
    intro b P
    show [1, 2, 3, 4].find? (fun P => toyCurve0.enc P == b) = some P ↔ _
    constructor
    · intro e
      have h1 := List.find?_some e
      have h2 := List.mem_of_find?_eq_some e
      refine ⟨?_, ((by simpa using h1 : toyCurve0.enc P = b)).symm⟩
      rintro rfl
      revert h2
      decide
    · rintro ⟨h0, rfl⟩
      have : ∀ P : Five, P ≠ 0 → [1, 2, 3, 4].find? (fun Q => toyCurve0.enc Q == toyCurve0.enc P) = some P := by
        decide +kernel
      exact this P h0

theorem toyCurve_good : toyCurve.Good where
  c := toyCurve0_good
  shaLen := fun _ => leBytes_length _ _
  blakeLen := fun _ _ _ => leBytes_length _ _

end Verif
