import Verif.ParseSound

/-! Helper lemmas: decoding a value looks only at the bytes it consumes. -/

namespace Verif

theorem scanNat_local {bs : Bytes} {a n : Nat} {x : UInt8} {r : Bytes}
    (h : scanNat a bs = (n, x :: r)) :
    ∃ c, bs = c ++ x :: r ∧ ∀ r', scanNat a (c ++ x :: r') = (n, x :: r') := by
  induction bs generalizing a with
  | nil => simp [scanNat] at h
  | cons d t ih =>
    simp only [scanNat] at h
    split at h
    · rename_i hd
      obtain ⟨c, h1, h2⟩ := ih h
      exact ⟨d :: c, by rw [h1]; rfl, fun r' => by
        simp only [List.cons_append, scanNat, hd, if_true]; exact h2 r'⟩
    · rename_i hd
      simp only [Prod.mk.injEq, List.cons.injEq] at h
      obtain ⟨rfl, rfl, rfl⟩ := h
      exact ⟨[], rfl, fun r' => by simp [scanNat, hd]⟩

theorem decStr_local {bs s r : Bytes} (h : decStr bs = some (s, r)) :
    ∃ c, c ≠ [] ∧ bs = c ++ r ∧ ∀ r', decStr (c ++ r') = some (s, r') := by
  cases bs with
  | nil => simp [decStr] at h
  | cons d t =>
    simp only [decStr] at h
    split at h
    · rename_i hd
      split at h
      · rename_i n q hs
        split at h
        · rename_i hn
          simp only [Option.some.injEq, Prod.mk.injEq] at h
          obtain ⟨rfl, rfl⟩ := h
          obtain ⟨c, h1, h2⟩ := scanNat_local hs
          refine ⟨c ++ 58 :: q.take n, by simp, ?_, fun r' => ?_⟩
          · rw [h1]; simp
          · cases c with
            | nil =>
              simp only [List.nil_append, List.cons.injEq] at h1
              rw [h1.1] at hd; exact absurd hd (by decide)
            | cons d' c' =>
              simp only [List.cons_append, List.cons.injEq] at h1
              have := h2 (q.take n ++ r')
              simp only [List.cons_append, List.append_assoc] at this ⊢
              simp only [decStr, ← h1.1, hd, if_true]
              rw [← h1.1] at this
              rw [this]
              simp [List.length_take, Nat.min_eq_left hn]
        · cases h
      · cases h
    · cases h

theorem decNatE_local {bs : Bytes} {n : Nat} {r : Bytes} (h : decNatE bs = some (n, r)) :
    ∃ c, bs = c ++ r ∧ c ≠ [] ∧ ∀ r', decNatE (c ++ r') = some (n, r') := by
  cases bs with
  | nil => simp [decNatE] at h
  | cons d t =>
    simp only [decNatE] at h
    split at h
    · rename_i hd
      split at h
      · rename_i n' q hs
        simp only [Option.some.injEq, Prod.mk.injEq] at h
        obtain ⟨rfl, rfl⟩ := h
        obtain ⟨c, h1, h2⟩ := scanNat_local hs
        refine ⟨c ++ [101], by rw [h1]; simp, by simp, fun r' => ?_⟩
        cases c with
        | nil =>
          simp only [List.nil_append, List.cons.injEq] at h1
          rw [h1.1] at hd; exact absurd hd (by decide)
        | cons d' c' =>
          simp only [List.cons_append, List.cons.injEq] at h1
          have := h2 r'
          simp only [List.cons_append, List.append_assoc, List.nil_append] at this ⊢
          simp only [decNatE, ← h1.1, hd, if_true]
          rw [← h1.1] at this
          rw [this]
          rfl
      · cases h
    · cases h

theorem decInt_local {bs : Bytes} {i : Int} {r : Bytes} (h : decInt bs = some (i, r)) :
    ∃ c, bs = c ++ r ∧ ∀ r', decInt (c ++ r') = some (i, r') := by
  have key : ∀ bs i r, decSigned bs = some (i, r) →
      ∃ c, bs = c ++ r ∧ ∀ r', decSigned (c ++ r') = some (i, r') := by
    intro bs i r h
    cases bs with
    | nil => simp [decSigned] at h
    | cons d t =>
      simp only [decSigned] at h
      split at h
      · rename_i hd
        obtain ⟨⟨n, q⟩, hp, e⟩ := Option.map_eq_some_iff.1 h
        simp only [Prod.mk.injEq] at e
        obtain ⟨rfl, rfl⟩ := e
        obtain ⟨c, h1, _, h2⟩ := decNatE_local hp
        exact ⟨d :: c, by rw [h1]; rfl, fun r' => by simp [decSigned, hd, h2 r']⟩
      · rename_i hd
        obtain ⟨⟨n, q⟩, hp, e⟩ := Option.map_eq_some_iff.1 h
        simp only [Prod.mk.injEq] at e
        obtain ⟨rfl, rfl⟩ := e
        obtain ⟨c, h1, hne, h2⟩ := decNatE_local hp
        cases c with
        | nil => exact absurd rfl hne
        | cons d' c' =>
          simp only [List.cons_append, List.cons.injEq] at h1
          refine ⟨d' :: c', by rw [h1.1, h1.2]; rfl, fun r' => ?_⟩
          have := h2 r'
          simp only [List.cons_append] at this ⊢
          have hd' : ¬ d' = 45 := h1.1 ▸ hd
          simp [decSigned, hd', this]
  simp only [decInt] at h
  split at h
  · rename_i i' r0 hs
    split at h
    · rename_i hi
      simp only [Option.some.injEq, Prod.mk.injEq] at h
      obtain ⟨rfl, rfl⟩ := h
      obtain ⟨c, h1, h2⟩ := key _ _ _ hs
      exact ⟨c, h1, fun r' => by simp [decInt, h2 r', hi]⟩
    · cases h
  · cases h

theorem dec_local (f : Nat) :
    (∀ bs v r, decV f bs = some (v, r) → ∃ c, c ≠ [] ∧ bs = c ++ r ∧
      ∀ f' r', c.length ≤ f' → decV f' (c ++ r') = some (v, r')) ∧
    (∀ bs l r, decL f bs = some (l, r) → ∃ c, c ≠ [] ∧ bs = c ++ r ∧
      ∀ f' r', c.length ≤ f' → decL f' (c ++ r') = some (l, r')) ∧
    (∀ bs l r, decD f bs = some (l, r) → ∃ c, c ≠ [] ∧ bs = c ++ r ∧
      ∀ f' r', c.length ≤ f' → decD f' (c ++ r') = some (l, r')) := by
  induction f with
  | zero => refine ⟨?_, ?_, ?_⟩ <;> intro _ _ _ h <;> simp [decV, decL, decD] at h
  | succ f ih =>
    obtain ⟨iV, iL, iD⟩ := ih
    refine ⟨?_, ?_, ?_⟩
    · intro bs v r h
      cases bs with
      | nil => simp [decV] at h
      | cons d t =>
        simp only [decV] at h
        split at h
        · rename_i hd
          obtain ⟨⟨i, q⟩, hp, e⟩ := Option.map_eq_some_iff.1 h
          simp only [Prod.mk.injEq] at e
          obtain ⟨rfl, rfl⟩ := e
          obtain ⟨c, h1, h2⟩ := decInt_local hp
          refine ⟨d :: c, by simp, by rw [h1]; rfl, fun f' r' hf => ?_⟩
          cases f' with
          | zero => simp at hf
          | succ f' => simp [decV, hd, h2 r']
        · rename_i hd1
          split at h
          · rename_i hd
            obtain ⟨⟨i, q⟩, hp, e⟩ := Option.map_eq_some_iff.1 h
            simp only [Prod.mk.injEq] at e
            obtain ⟨rfl, rfl⟩ := e
            obtain ⟨c, _, h1, h2⟩ := iL _ _ _ hp
            refine ⟨d :: c, by simp, by rw [h1]; rfl, fun f' r' hf => ?_⟩
            cases f' with
            | zero => simp at hf
            | succ f' =>
              have := h2 f' r' (by simpa using hf)
              simp [decV, hd, this]
          · rename_i hd2
            split at h
            · rename_i hd
              obtain ⟨⟨i, q⟩, hp, e⟩ := Option.map_eq_some_iff.1 h
              simp only [Prod.mk.injEq] at e
              obtain ⟨rfl, rfl⟩ := e
              obtain ⟨c, _, h1, h2⟩ := iD _ _ _ hp
              refine ⟨d :: c, by simp, by rw [h1]; rfl, fun f' r' hf => ?_⟩
              cases f' with
              | zero => simp at hf
              | succ f' =>
                have := h2 f' r' (by simpa using hf)
                simp [decV, hd, this]
            · rename_i hd3
              obtain ⟨⟨i, q⟩, hp, e⟩ := Option.map_eq_some_iff.1 h
              simp only [Prod.mk.injEq] at e
              obtain ⟨rfl, rfl⟩ := e
              obtain ⟨c, hne, h1, h2⟩ := decStr_local hp
              refine ⟨c, hne, h1, fun f' r' hf => ?_⟩
              cases c with
              | nil => exact absurd rfl hne
              | cons d' c' =>
                simp only [List.cons_append, List.cons.injEq] at h1
                cases f' with
                | zero => simp at hf
                | succ f' =>
                  have := h2 r'
                  simp only [List.cons_append] at this ⊢
                  rw [h1.1] at hd1 hd2 hd3
                  simp [decV, hd1, hd2, hd3, this]
    · intro bs v r h
      cases bs with
      | nil => simp [decL] at h
      | cons d t =>
        simp only [decL] at h
        split at h
        · rename_i hd
          simp only [Option.some.injEq, Prod.mk.injEq] at h
          obtain ⟨rfl, rfl⟩ := h
          refine ⟨[d], by simp, rfl, fun f' r' hf => ?_⟩
          cases f' with
          | zero => simp at hf
          | succ f' => simp [decL, hd]
        · rename_i hd
          split at h
          · cases h
          · rename_i v' r0 hv
            obtain ⟨⟨l, q⟩, hp, e⟩ := Option.map_eq_some_iff.1 h
            simp only [Prod.mk.injEq] at e
            obtain ⟨rfl, rfl⟩ := e
            obtain ⟨c1, n1, h1, g1⟩ := iV _ _ _ hv
            obtain ⟨c2, n2, h2, g2⟩ := iL _ _ _ hp
            refine ⟨c1 ++ c2, by simp [n1], by rw [h1, h2]; simp, fun f' r' hf => ?_⟩
            have l1 := List.length_pos_iff.2 n1
            have l2 := List.length_pos_iff.2 n2
            simp only [List.length_append] at hf
            cases f' with
            | zero => omega
            | succ f' =>
              cases c1 with
              | nil => exact absurd rfl n1
              | cons d' c' =>
                simp only [List.cons_append, List.cons.injEq] at h1
                have e1 := g1 f' (c2 ++ r') (by omega)
                have e2 := g2 f' r' (by omega)
                simp only [List.cons_append, List.append_assoc] at e1 ⊢
                rw [h1.1] at hd
                simp [decL, hd, e1, e2]
    · intro bs v r h
      cases bs with
      | nil => simp [decD] at h
      | cons d t =>
        simp only [decD] at h
        split at h
        · rename_i hd
          simp only [Option.some.injEq, Prod.mk.injEq] at h
          obtain ⟨rfl, rfl⟩ := h
          refine ⟨[d], by simp, rfl, fun f' r' hf => ?_⟩
          cases f' with
          | zero => simp at hf
          | succ f' => simp [decD, hd]
        · rename_i hd
          split at h
          · cases h
          · rename_i k r00 hk
            split at h
            · cases h
            · rename_i v' r0 hv
              obtain ⟨⟨l, q⟩, hp, e⟩ := Option.map_eq_some_iff.1 h
              simp only [Prod.mk.injEq] at e
              obtain ⟨rfl, rfl⟩ := e
              obtain ⟨c0, n0, h0, g0⟩ := decStr_local hk
              obtain ⟨c1, n1, h1, g1⟩ := iV _ _ _ hv
              obtain ⟨c2, n2, h2, g2⟩ := iD _ _ _ hp
              refine ⟨c0 ++ (c1 ++ c2), by simp [n0], by rw [h0, h1, h2]; simp, fun f' r' hf => ?_⟩
              have l0 := List.length_pos_iff.2 n0
              have l1 := List.length_pos_iff.2 n1
              have l2 := List.length_pos_iff.2 n2
              simp only [List.length_append] at hf
              cases f' with
              | zero => omega
              | succ f' =>
                cases c0 with
                | nil => exact absurd rfl n0
                | cons d' c' =>
                  simp only [List.cons_append, List.cons.injEq] at h0
                  have e0 := g0 (c1 ++ (c2 ++ r'))
                  have e1 := g1 f' (c2 ++ r') (by omega)
                  have e2 := g2 f' r' (by omega)
                  simp only [List.cons_append, List.append_assoc] at e0 ⊢
                  rw [h0.1] at hd
                  simp [decD, hd, e0, e1, e2]

/-- The entries before byte `body.length` depend only on `body`. -/
theorem decTop_prefix {f1 f2 off : Nat} {body w1 w2 : Bytes} {p1 p2 : List TopEntry}
    {e1 e2 : TopEntry} {r1 r2 : Bytes}
    (h1 : decTop f1 off (body ++ w1) = some (p1 ++ [e1], r1))
    (h2 : decTop f2 off (body ++ w2) = some (p2 ++ [e2], r2))
    (o1 : e1.off = off + body.length) (o2 : e2.off = off + body.length) : p1 = p2 := by
  have first : ∀ {f off : Nat} {bs : Bytes} {es : List TopEntry} {r : Bytes},
      decTop f off bs = some (es, r) → es ≠ [] → ∃ f' c v k r', f = f' + 1 ∧ c ≠ [] ∧ bs = c ++ r' ∧
        (∀ x, ∃ q, decStr (c ++ x) = some (k, q) ∧ decV q.length q = some (v, x)) ∧
        (∃ d t, c = d :: t ∧ d ≠ 101) ∧
        ∃ es', es = ⟨off, k, v⟩ :: es' ∧ decTop f' (off + c.length) r' = some (es', r) := by
    intro f off bs es r h hne
    cases f with
    | zero => simp [decTop] at h
    | succ f =>
      cases bs with
      | nil => simp [decTop] at h
      | cons d t =>
        simp only [decTop] at h
        split at h
        · cases h; exact absurd rfl hne
        · rename_i hd
          split at h
          · cases h
          · rename_i k q hk
            split at h
            · cases h
            · rename_i v r' hv
              obtain ⟨⟨l, z⟩, hp, e⟩ := Option.map_eq_some_iff.1 h
              simp only [Prod.mk.injEq] at e
              obtain ⟨rfl, rfl⟩ := e
              obtain ⟨c0, n0, h0, g0⟩ := decStr_local hk
              obtain ⟨c1, n1, h1, g1⟩ := (dec_local _).1 _ _ _ hv
              have hcat : d :: t = (c0 ++ c1) ++ r' := by rw [h0, h1]; simp
              refine ⟨f, c0 ++ c1, v, k, r', rfl, by simp [n0], hcat, ?_, ?_, l, rfl, ?_⟩
              · intro x
                refine ⟨c1 ++ x, ?_, g1 _ x (by simp)⟩
                rw [List.append_assoc]; exact g0 _
              · cases c0 with
                | nil => exact absurd rfl n0
                | cons d' c' =>
                  simp only [List.cons_append, List.cons.injEq] at hcat
                  exact ⟨d', c' ++ c1, rfl, hcat.1 ▸ hd⟩
              · rw [hcat] at hp
                have : ((c0 ++ c1) ++ r').length - r'.length = (c0 ++ c1).length := by
                  simp only [List.length_append]; omega
                rwa [this] at hp
  have offs : ∀ {f off : Nat} {bs : Bytes} {p : List TopEntry} {e : TopEntry} {r : Bytes},
      decTop f off bs = some (p ++ [e], r) → off ≤ e.off ∧ (e.off = off → p = []) := by
    intro f
    induction f with
    | zero => intro off bs p e r h; simp [decTop] at h
    | succ f ih =>
      intro off bs p e r h
      obtain ⟨f', c, v, k, r', hf, hc, _, _, _, es', he, hn⟩ := first h (by simp)
      obtain rfl : f = f' := by omega
      cases p with
      | nil =>
        simp only [List.nil_append, List.cons.injEq] at he
        rw [he.1]; exact ⟨le_refl _, fun _ => rfl⟩
      | cons a p =>
        simp only [List.cons_append, List.cons.injEq] at he
        rw [← he.2] at hn
        have := (ih hn).1
        have := List.length_pos_iff.2 hc
        exact ⟨by omega, fun _ => by omega⟩
  induction p1 generalizing f1 f2 off body p2 with
  | nil =>
    obtain ⟨f', c, v, k, r', _, _, _, _, _, es', he, _⟩ := first h1 (by simp)
    simp only [List.nil_append, List.cons.injEq] at he
    have hoff : e1.off = off := by rw [he.1]
    exact ((offs h2).2 (by omega)).symm
  | cons a p1 ih =>
    obtain ⟨f', c, v, k, r', hf, hc, hcat, hdec, ⟨d, t, hdt, hd⟩, es', he, hn⟩ := first h1 (by simp)
    simp only [List.cons_append, List.cons.injEq] at he
    have hge : off + c.length ≤ e1.off := by
      rw [← he.2] at hn
      exact (offs hn).1
    -- the first entry lies inside the body
    have hpre : ∃ b', body = c ++ b' ∧ r' = b' ++ w1 := by
      have h3 : c.length ≤ body.length := by omega
      rcases List.append_eq_append_iff.1 hcat with ⟨x, hx1, hx2⟩ | ⟨x, hx1, hx2⟩
      · have : x = [] := by
          have := congrArg List.length hx1
          simp only [List.length_append] at this
          exact List.length_eq_zero_iff.1 (by omega)
        subst this
        exact ⟨[], by simpa using hx1.symm, by simpa using hx2.symm⟩
      · exact ⟨x, hx1, hx2⟩
    obtain ⟨b', rfl, rfl⟩ := hpre
    cases p2 with
    | nil =>
      obtain ⟨_, _, _, _, _, _, _, _, _, _, es2, he2, _⟩ := first h2 (by simp)
      simp only [List.nil_append, List.cons.injEq] at he2
      have hoff : e2.off = off := by rw [he2.1]
      have := List.length_pos_iff.2 hc
      simp only [List.length_append] at o2
      omega
    | cons a2 p2 =>
      cases f2 with
      | zero => simp [decTop] at h2
      | succ f2 =>
        obtain ⟨q, hq1, hq2⟩ := hdec (b' ++ w2)
        have hbs : (c ++ b') ++ w2 = d :: (t ++ (b' ++ w2)) := by rw [hdt]; simp
        rw [hbs] at h2
        simp only [decTop, hd, if_false] at h2
        rw [hdt, List.cons_append] at hq1
        rw [hq1] at h2
        simp only [hq2] at h2
        obtain ⟨⟨l, z⟩, hp, e⟩ := Option.map_eq_some_iff.1 h2
        simp only [Prod.mk.injEq, List.cons_append, List.cons.injEq] at e
        obtain ⟨⟨ha2, rfl⟩, rfl⟩ := e
        have hlen : (d :: (t ++ (b' ++ w2))).length - (b' ++ w2).length = c.length := by
          rw [hdt]; simp only [List.length_cons, List.length_append]; omega
        rw [hlen] at hp
        rw [← he.2] at hn
        have := ih (body := b') hn hp (by rw [o1]; simp; omega) (by rw [o2]; simp; omega)
        rw [this, he.1, ha2]

end Verif
