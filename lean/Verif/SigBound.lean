import Verif.Local

/-! Helper lemmas: the fields of a message depend only on the entries before the signature. -/

namespace Verif

/-- `F` treats the last entry, a signature, as opaque. -/
def SigOpaque {α : Type} (F : List TopEntry → Out (α × List TopEntry)) : Prop :=
  ∀ pre e1 x r, e1.key = kSig → F (pre ++ [e1]) = .ok (x, r) → ∃ pre', r = pre' ++ [e1] ∧
    ∀ e2 : TopEntry, e2.key = kSig → F (pre ++ [e2]) = .ok (x, pre' ++ [e2])

theorem loadUnknowns_opaque (prev til : Bytes) (ht : til ≤ kSig) (u : BtDict) :
    SigOpaque (loadUnknowns prev til u) := by
  intro pre
  induction pre generalizing u with
  | nil =>
    intro e1 x r hk h
    simp only [List.nil_append, loadUnknowns, hk, not_lt.2 ht, if_false, Out.ok.injEq,
      Prod.mk.injEq] at h
    obtain ⟨rfl, rfl⟩ := h
    exact ⟨[], rfl, fun e2 h2 => by simp [loadUnknowns, h2, not_lt.2 ht]⟩
  | cons a t ih =>
    intro e1 x r hk h
    simp only [List.cons_append, loadUnknowns] at h ⊢
    split at h
    · rename_i h1
      split at h
      · cases h
      · rename_i h2
        obtain ⟨pre', g1, g2⟩ := ih _ e1 x r hk h
        exact ⟨pre', g1, fun e2 he => by rw [if_pos h1, if_neg h2]; exact g2 e2 he⟩
    · rename_i h1
      simp only [Out.ok.injEq, Prod.mk.injEq] at h
      obtain ⟨rfl, rfl⟩ := h
      exact ⟨a :: t, rfl, fun e2 _ => by rw [if_neg h1]; rfl⟩

theorem takeSeq_opaque : SigOpaque takeSeq := by
  intro pre e1 x r hk h
  obtain ⟨hi, off, he⟩ := takeSeq_ok h
  cases pre with
  | nil =>
    simp only [List.nil_append, List.cons.injEq] at he
    rw [he.1] at hk; simp only at hk; exact absurd hk (by decide)
  | cons a t =>
    simp only [List.cons_append, List.cons.injEq] at he
    obtain ⟨rfl, rfl⟩ := he
    exact ⟨t, rfl, fun e2 _ => by simp [takeSeq, hi]⟩

theorem takeData_opaque : SigOpaque takeData := by
  intro pre e1 x r hk h
  obtain ⟨hi, off, he⟩ := takeData_ok h
  cases pre with
  | nil =>
    simp only [List.nil_append, List.cons.injEq] at he
    rw [he.1] at hk; simp only at hk; exact absurd hk (by decide)
  | cons a t =>
    simp only [List.cons_append, List.cons.injEq] at he
    obtain ⟨rfl, rfl⟩ := he
    refine ⟨t, rfl, fun e2 _ => ?_⟩
    simp only [takeData, List.cons_append, if_true]
    rw [parseD_bt x none hi (by simp)]
    rfl

theorem takeLag_opaque (s lag : Int) : SigOpaque (takeLag s lag) := by
  intro pre e1 x r hk h
  cases pre with
  | nil =>
    have hne : kSig ≠ kLag := by decide
    simp only [List.nil_append, takeLag, hk, hne, if_false, Out.ok.injEq, Prod.mk.injEq] at h
    obtain ⟨rfl, rfl⟩ := h
    exact ⟨[], rfl, fun e2 h2 => by simp [takeLag, h2, hne]⟩
  | cons a t =>
    simp only [List.cons_append, takeLag] at h ⊢
    split at h
    · rename_i h1
      split at h
      · rename_i rows hv
        obtain ⟨y, hy, h⟩ := Out.bind_eq_ok.1 h
        simp only [Out.ok.injEq, Prod.mk.injEq] at h
        obtain ⟨rfl, rfl⟩ := h
        refine ⟨t, rfl, fun e2 _ => ?_⟩
        rw [if_pos h1]; simp [hv, hy]
      · cases h
    · rename_i h1
      simp only [Out.ok.injEq, Prod.mk.injEq] at h
      obtain ⟨rfl, rfl⟩ := h
      exact ⟨a :: t, rfl, fun e2 _ => by rw [if_neg h1]; rfl⟩

theorem takeDiff_opaque : SigOpaque takeDiff := by
  intro pre e1 x r hk h
  cases pre with
  | nil =>
    have hne : kSig ≠ kDiff := by decide
    simp only [List.nil_append, takeDiff, hk, hne, if_false, Out.ok.injEq, Prod.mk.injEq] at h
    obtain ⟨rfl, rfl⟩ := h
    exact ⟨[], rfl, fun e2 h2 => by simp [takeDiff, h2, hne]⟩
  | cons a t =>
    simp only [List.cons_append, takeDiff] at h ⊢
    split at h
    · rename_i h1
      split at h
      · rename_i rows hv
        obtain ⟨y, hy, h⟩ := Out.bind_eq_ok.1 h
        simp only [Out.ok.injEq, Prod.mk.injEq] at h
        obtain ⟨rfl, rfl⟩ := h
        refine ⟨t, rfl, fun e2 _ => ?_⟩
        rw [if_pos h1]; simp [hv, hy]
      · cases h
    · rename_i h1
      simp only [Out.ok.injEq, Prod.mk.injEq] at h
      obtain ⟨rfl, rfl⟩ := h
      exact ⟨a :: t, rfl, fun e2 _ => by rw [if_neg h1]; rfl⟩

/-- The fields of a message that matter to a user. -/
abbrev Content := Dict × BtDict × List (SH × BtDict) × BtDict × Int

/-- A notion of the proofs: those fields of a message. -/
def Msg.content (m : Msg) : Content := (m.data, m.diff, m.lagged, m.unknown, m.seqno)

theorem parseEntries_content {env : Env} {t1 t2 : Bool} {b1 b2 : Bytes} {pre : List TopEntry}
    {e1 e2 : TopEntry} (k1 : e1.key = kSig) (k2 : e2.key = kSig) {m1 m2 : Msg}
    (h1 : parseEntries env t1 b1 (pre ++ [e1]) = .ok m1)
    (h2 : parseEntries env t2 b2 (pre ++ [e2]) = .ok m2) : m1.content = m2.content := by
  have c1 : kData ≤ kSig := by decide
  have c2 : kLag ≤ kSig := by decide
  have c3 : kDiff ≤ kSig := by decide
  unfold parseEntries at h1 h2
  obtain ⟨⟨s, r1⟩, a1, h1⟩ := Out.bind_eq_ok.1 h1
  obtain ⟨p1, rfl, b1'⟩ := takeSeq_opaque _ _ _ _ k1 a1
  rw [b1' e2 k2] at h2
  simp only [Out.bind_ok] at h1 h2
  obtain ⟨⟨u, r2⟩, a2, h1⟩ := Out.bind_eq_ok.1 h1
  obtain ⟨p2, rfl, b2'⟩ := loadUnknowns_opaque _ _ c1 _ _ _ _ _ k1 a2
  rw [b2' e2 k2] at h2
  simp only [Out.bind_ok] at h1 h2
  obtain ⟨⟨d, r3⟩, a3, h1⟩ := Out.bind_eq_ok.1 h1
  obtain ⟨p3, rfl, b3'⟩ := takeData_opaque _ _ _ _ k1 a3
  rw [b3' e2 k2] at h2
  simp only [Out.bind_ok] at h1 h2
  obtain ⟨⟨u2, r4⟩, a4, h1⟩ := Out.bind_eq_ok.1 h1
  obtain ⟨p4, rfl, b4'⟩ := loadUnknowns_opaque _ _ c2 _ _ _ _ _ k1 a4
  rw [b4' e2 k2] at h2
  simp only [Out.bind_ok] at h1 h2
  obtain ⟨⟨lg, r5⟩, a5, h1⟩ := Out.bind_eq_ok.1 h1
  obtain ⟨p5, rfl, b5'⟩ := takeLag_opaque _ _ _ _ _ _ k1 a5
  rw [b5' e2 k2] at h2
  simp only [Out.bind_ok] at h1 h2
  obtain ⟨⟨u3, r6⟩, a6, h1⟩ := Out.bind_eq_ok.1 h1
  obtain ⟨p6, rfl, b6'⟩ := loadUnknowns_opaque _ _ c3 _ _ _ _ _ k1 a6
  rw [b6' e2 k2] at h2
  simp only [Out.bind_ok] at h1 h2
  obtain ⟨⟨df, r7⟩, a7, h1⟩ := Out.bind_eq_ok.1 h1
  obtain ⟨p7, rfl, b7'⟩ := takeDiff_opaque _ _ _ _ k1 a7
  rw [b7' e2 k2] at h2
  simp only [Out.bind_ok] at h1 h2
  obtain ⟨⟨u4, r8⟩, a8, h1⟩ := Out.bind_eq_ok.1 h1
  obtain ⟨p8, rfl, b8'⟩ := loadUnknowns_opaque _ _ (le_refl _) _ _ _ _ _ k1 a8
  rw [b8' e2 k2] at h2
  simp only [Out.bind_ok] at h1 h2
  obtain ⟨v1, _, h1⟩ := Out.bind_eq_ok.1 h1
  obtain ⟨v2, _, h2⟩ := Out.bind_eq_ok.1 h2
  cases h1; cases h2; rfl

/-- `body` is the signed part of the accepted bytes `bs`. -/
def SignedPart (env : Env) (trust : Bool) (bs : Bytes) (m : Msg) (body : Bytes) : Prop :=
  ∃ w f pre e r, bs = 100 :: (body ++ w) ∧ decTop f 1 (body ++ w) = some (pre ++ [e], r) ∧
    e.off = 1 + body.length ∧ e.key = kSig ∧ parseEntries env trust bs (pre ++ [e]) = .ok m

theorem SignedPart.content {env : Env} {t1 t2 : Bool} {b1 b2 : Bytes} {m1 m2 : Msg} {body : Bytes}
    (h1 : SignedPart env t1 b1 m1 body) (h2 : SignedPart env t2 b2 m2 body) :
    m1.content = m2.content := by
  obtain ⟨w1, f1, p1, e1, r1, rfl, a1, o1, k1, q1⟩ := h1
  obtain ⟨w2, f2, p2, e2, r2, rfl, a2, o2, k2, q2⟩ := h2
  have := decTop_prefix a1 a2 o1 o2
  subst this
  exact parseEntries_content k1 k2 q1 q2

theorem decTop_off {f off : Nat} {bs : Bytes} {es : List TopEntry} {r : Bytes}
    (h : decTop f off bs = some (es, r)) : ∀ e ∈ es, off ≤ e.off ∧ e.off ≤ off + bs.length := by
  induction f generalizing off bs es r with
  | zero => simp [decTop] at h
  | succ f ih =>
    cases bs with
    | nil => simp [decTop] at h
    | cons c t =>
      simp only [decTop] at h
      split at h
      · cases h; simp
      · split at h
        · cases h
        · rename_i k r0 hk
          split at h
          · cases h
          · rename_i v r' hv
            obtain ⟨⟨l', r''⟩, hp, e⟩ := Option.map_eq_some_iff.1 h
            cases e
            obtain ⟨p0, h0⟩ := decStr_suffix hk
            obtain ⟨p1, h1⟩ := (dec_suffix _).1 _ _ _ hv
            have hl : r'.length ≤ (c :: t).length := by
              rw [h0, h1]; simp only [List.length_append]; omega
            intro e he
            rcases List.mem_cons.1 he with rfl | he
            · simp
            · have := ih hp e he
              omega

theorem signedPart_of_ok {env : Env} {v : Bytes → Bytes → Bool} (hv : env.verifier = some v)
    {trust : Bool} {bs : Bytes} {m : Msg} (h : parseMsg env trust bs = .ok m) :
    ∃ body sig, SignedPart env trust bs m body ∧ (100 :: body) <+: bs ∧ sig.length = 64 ∧
      v (100 :: body) sig = true ∧ m.vsig = some sig := by
  unfold parseMsg at h
  split at h
  · rename_i b t
    split at h
    · rename_i es r hd
      obtain ⟨_, _, _, _, hs, _, _⟩ := parseEntries_ok (decTop_ok hd) h
      obtain ⟨sig, pre, e, rfl, h1, h2, h3, h4, h5⟩ := hs v hv
      have ho := decTop_off hd e (by simp)
      have htake : (100 :: b :: t).take e.off = 100 :: (b :: t).take (e.off - 1) := by
        obtain ⟨n, hn⟩ : ∃ n, e.off = n + 1 := ⟨e.off - 1, by omega⟩
        rw [hn]; rfl
      refine ⟨(b :: t).take (e.off - 1), sig,
        ⟨(b :: t).drop (e.off - 1), _, pre, e, r, by rw [List.take_append_drop],
          by rw [List.take_append_drop]; exact hd, ?_, h3, h⟩, ?_, h2, ?_, h1⟩
      · rw [List.length_take, Nat.min_eq_left (by omega)]; omega
      · rw [← htake]; exact List.take_prefix _ _
      · rw [← htake]; exact h5
    · cases h
  · cases h

end Verif
