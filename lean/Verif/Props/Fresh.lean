import Verif.Props.CStructs
import Verif.Props.Exclude
/-! C70: each rekey makes a key of its own. -/
namespace Verif

theorem decCore_len : ∀ (f n k : Nat) (acc : Bytes), 0 < k → n < 10 ^ k → (decCore f n acc).length ≤ k + acc.length
  | 0, n, k, acc, _, _ => by simp [decCore]
  | f + 1, n, k, acc, hk, h => by
    unfold decCore
    split
    · rw [List.length_cons]; omega
    · rename_i hd
      obtain ⟨j, rfl⟩ : ∃ j, k = j + 1 := ⟨k - 1, by omega⟩
      have h2 : n / 10 < 10 ^ j := by
        rw [Nat.div_lt_iff_lt_mul (by decide)]; rwa [Nat.pow_succ] at h
      have hj : 0 < j := by
        rcases Nat.eq_zero_or_pos j with rfl | hj
        · simp at h2; omega
        · exact hj
      have := decCore_len f (n / 10) j (digit (n % 10) :: acc) hj h2
      rw [List.length_cons] at this
      omega

theorem intDigits_len {i : Int} (h : intOk i = true) : 1 ≤ (intDigits i).length ∧ (intDigits i).length ≤ 21 := by
  refine ⟨intDigits_pos i, ?_⟩
  simp only [intOk, Bool.and_eq_true, decide_eq_true_eq] at h
  have h2 : (natDigits i.natAbs).length ≤ 20 := by
    have := decCore_len (i.natAbs + 1) i.natAbs 20 [] (by decide) (by omega)
    simpa [natDigits] using this
  unfold intDigits
  split
  · rw [List.length_cons]; omega
  · omega

theorem intDigits_inj {i j : Int} (hi : intOk i = true) (hj : intOk j = true) (h : intDigits i = intDigits j) : i = j := by
  have h1 := decInt_intDigits i hi []
  rw [h, decInt_intDigits j hj []] at h1
  exact ((Prod.mk.inj (Option.some.inj h1)).1).symm

theorem flatten_len {n : Nat} : ∀ {l : List Bytes}, (∀ x ∈ l, x.length = n) → l.flatten.length = n * l.length
  | [], _ => by simp
  | a :: t, h => by
    rw [List.flatten_cons, List.length_append, h a (by simp), flatten_len (fun x hx => h x (by simp [hx])), List.length_cons,
      Nat.mul_succ]
    omega

theorem flatten_inj {n : Nat} (hn : 0 < n) : ∀ {l m : List Bytes}, (∀ x ∈ l, x.length = n) → (∀ x ∈ m, x.length = n) →
    l.flatten = m.flatten → l = m
  | [], [], _, _, _ => rfl
  | [], b :: t, _, hm, h => by
    have := hm b (by simp)
    have h2 := congrArg List.length h
    rw [List.flatten_cons, List.length_append] at h2; simp only [List.flatten_nil, List.length_nil] at h2; omega
  | a :: t, [], hl, _, h => by
    have := hl a (by simp)
    have h2 := congrArg List.length h
    rw [List.flatten_cons, List.length_append] at h2; simp only [List.flatten_nil, List.length_nil] at h2; omega
  | a :: t, b :: u, hl, hm, h => by
    rw [List.flatten_cons, List.flatten_cons] at h
    obtain ⟨h1, h2⟩ := List.append_inj h ((hl a (by simp)).trans (hm b (by simp)).symm)
    rw [h1, flatten_inj hn (fun x hx => hl x (by simp [hx])) (fun x hx => hm x (by simp [hx])) h2]

theorem sessionIdPks_len : ∀ {ids pks : List Bytes}, sessionIdPks ids = .ok pks → ∀ x ∈ ids, x.length = 66
  | [], _, _ => by simp
  | s :: t, pks, h => by
    simp only [sessionIdPks] at h
    obtain ⟨p, h1, h2⟩ := Out.bind_eq_ok.1 h
    obtain ⟨q, h3, h4⟩ := Out.bind_eq_ok.1 h2
    unfold sessionIdPk at h1
    obtain ⟨b, h5, _⟩ := Out.bind_eq_ok.1 h1
    intro x hx
    rcases List.mem_cons.1 hx with rfl | hx
    · cases hc : checkId x pre05 with
      | true => exact (checkId_facts rfl hc).1
      | false => rw [idBytes_bad hc] at h5; cases h5
    · exact sessionIdPks_len h3 x hx

/-- **Each rekey makes a key of its own.** For one group, the key (and the nonce) of a rekey is a hash of a text
from which the list of members and the generation can be read back: two rekeys that differ in either hash two
different texts, so their keys differ unless the hash itself collides on those two texts. -/
theorem rekey_fresh {P : GPrims} {e : GEnv} {sk : Bytes} (hP : P.Good) (he : OwnKey P e sk) :
    ∃ text : List Bytes → Int → Bytes,
      (∀ ids gen ids' gen', (∀ x ∈ ids, x.length = 66) → (∀ x ∈ ids', x.length = 66) → intOk gen = true →
        intOk gen' = true → text ids gen = text ids' gen' → ids = ids' ∧ gen = gen') ∧
      ∀ {s s' : GKeys} {ids : List Bytes} {msg : Bytes}, s.rekey P e ids = .ok (s', msg) →
        (∀ x ∈ ids, x.length = 66) ∧ s'.pendingKey = (P.hashN 56 kGen (text ids s'.pendingGen)).take 32 ∧
        ∃ cts junk, IsRekey P sk ids s'.pendingKey s'.pendingGen msg ((P.hashN 56 kGen (text ids s'.pendingGen)).drop 32) cts junk := by
  refine ⟨fun ids gen => ids.flatten ++ intStr gen ++ seedHash P sk kSeed, ?_, ?_⟩
  · intro ids gen ids' gen' h1 h2 h3 h4 h
    have h5 := List.append_cancel_right h
    have hl := congrArg List.length h5
    have d1 := intDigits_len h3
    have d2 := intDigits_len h4
    simp only [List.length_append, intStr, flatten_len h1, flatten_len h2] at hl
    obtain ⟨h6, h7⟩ := List.append_inj h5 (by rw [flatten_len h1, flatten_len h2]; omega)
    exact ⟨flatten_inj (by decide) h1 h2 h6, intDigits_inj h3 h4 h7⟩
  · intro s s' ids msg h
    obtain ⟨gen, pks, h1, h2, h3, h4⟩ := rekey_is hP he h
    obtain ⟨sk', gx, gen', pks', a1, a2, a3, a4, a5, a6⟩ := rekey_msg h
    have hs : sk' = sk := by
      obtain ⟨he1, _⟩ := he
      rw [he1] at a1; exact (Option.some.inj a1).symm
    rw [h1] at a3; cases Out.ok.inj a3
    subst hs
    have hg : s'.pendingGen = gen := by rw [a5]
    refine ⟨sessionIdPks_len h2, ?_, ?_⟩
    · rw [hg, a5]; rfl
    · rw [hg] at h4 ⊢; exact ⟨_, _, h4⟩

/-- Two rekeys of one group in sequence: the second has another generation than every key held before. -/
example {P : GPrims} (hP : P.Good) {s s' t t' : GKeys} {e : GEnv} {sk : Bytes} (he : OwnKey P e sk) {ids ids' : List Bytes} {m m' : Bytes}
    (h : s.rekey P e ids = .ok (s', m)) (h' : t.rekey P e ids' = .ok (t', m')) (hi : intOk s'.pendingGen = true)
    (hj : intOk t'.pendingGen = true) (hd : ids ≠ ids' ∨ s'.pendingGen ≠ t'.pendingGen) :
    ∃ x y, x ≠ y ∧ s'.pendingKey = (P.hashN 56 kGen x).take 32 ∧ t'.pendingKey = (P.hashN 56 kGen y).take 32 := by
  obtain ⟨text, h1, h2⟩ := rekey_fresh hP he
  obtain ⟨a1, a2, _⟩ := h2 h
  obtain ⟨b1, b2, _⟩ := h2 h'
  refine ⟨_, _, fun hxy => ?_, a2, b2⟩
  obtain ⟨c1, c2⟩ := h1 _ _ _ _ a1 b1 hi hj hxy
  rcases hd with hd | hd
  · exact hd c1
  · exact hd c2

/-- The toy group of `Props/GroupWitness` meets the hypotheses, and its first rekey has such a key. -/
example : ∃ s' msg, GKeys.init.rekey toyG gAdmin gIds = .ok (s', msg) ∧ s'.pendingGen = 0 ∧ ∃ x, s'.pendingKey = (toyG.hashN 56 kGen x).take 32 := by
  obtain ⟨s', msg, h, h2, _⟩ := toy_rekey
  obtain ⟨text, _, h3⟩ := rekey_fresh toyG_good gAdmin_own
  exact ⟨s', msg, h, h2, _, (h3 h).2.1⟩

end Verif
