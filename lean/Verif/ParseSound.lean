import Verif.MsgLemmas

/-! Helper lemmas: what is known of a message that the parser accepted. -/

namespace Verif

theorem loadUnknowns_ok {prev til : Bytes} {es es' : List TopEntry} {u u' : BtDict}
    (h : loadUnknowns prev til u es = .ok (u', es')) :
    ∃ pre, es = pre ++ es' ∧ u' = u ++ pre.map (fun e => (e.key, norm e.val)) ∧
      (KSorted u → KSorted u') ∧ (∀ e ∈ pre, prev < e.key ∧ e.key < til) ∧
      (∀ e r, es' = e :: r → ¬ e.key < til) := by
  induction es generalizing u with
  | nil =>
    simp only [loadUnknowns, Out.ok.injEq, Prod.mk.injEq] at h
    obtain ⟨rfl, rfl⟩ := h
    exact ⟨[], by simp⟩
  | cons e r ih =>
    simp only [loadUnknowns] at h
    split at h
    · rename_i hlt
      split at h
      · cases h
      · rename_i hord
        simp only [Bool.or_eq_true, decide_eq_true_eq, not_or, not_le] at hord
        obtain ⟨pre, h1, h2, h3, h4, h5⟩ := ih h
        refine ⟨e :: pre, by simp [h1], by simp [h2], ?_, ?_, h5⟩
        · intro hs
          apply h3
          refine List.pairwise_append.2 ⟨hs, by simp, ?_⟩
          intro a ha b hb
          rw [List.mem_singleton] at hb
          subst hb
          cases hl : u.getLast? with
          | none => rw [List.getLast?_eq_none_iff] at hl; subst hl; simp at ha
          | some x =>
            rw [hl] at hord
            have hx : x.1 < e.key := by
              have := hord.2; simpa [outOfOrder] using this
            obtain ⟨t, rfl⟩ := List.getLast?_eq_some_iff.1 hl
            rcases List.mem_append.1 ha with ha | ha
            · exact lt_trans ((List.pairwise_append.1 hs).2.2 a ha x (by simp)) hx
            · rw [List.mem_singleton] at ha; subst ha; exact hx
        · intro x hx
          rcases List.mem_cons.1 hx with rfl | hx
          · exact ⟨hord.1, hlt⟩
          · exact h4 x hx
    · rename_i hlt
      simp only [Out.ok.injEq, Prod.mk.injEq] at h
      obtain ⟨rfl, rfl⟩ := h
      exact ⟨[], by simp, by simp, fun h => h, by simp, by rintro e' r' ⟨⟩; exact hlt⟩

theorem diffOk_of_load {d d' : BtDict} (hok : Bt.okD d = true) (h : loadD none d = .ok d') :
    diffOk d' := by
  have := (loadD_ok d none d' h).1
  subst this; exact ⟨h, hok⟩

theorem parseLagged_ok {cur lag : Int} {rows : List Bt} {last : Option SH}
    {l : List (SH × BtDict)} (hok : Bt.okL rows = true)
    (h : parseLagged cur lag last rows = .ok l) :
    KSorted l ∧ (∀ y, last = some y → ∀ p ∈ l, y < p.1) ∧
      ∀ p ∈ l, int64Ok p.1.1 = true ∧ p.1.2.length = 32 ∧ diffOk p.2 ∧
        cur - lag < p.1.1 ∧ p.1.1 < cur := by
  induction rows generalizing last l with
  | nil => simp only [parseLagged, Out.ok.injEq] at h; subst h; simp
  | cons row t ih =>
    simp only [Bt.okL, Bool.and_eq_true] at hok
    unfold parseLagged at h
    split at h
    · rename_i s rest
      split at h
      · cases h
      · rename_i h64
        split at h
        · cases h
        · rename_i hlt
          split at h
          · cases h
          · split at h
            · exact ih hok.2 h
            · rename_i hgt
              split at h
              · rename_i hh rest2
                split at h
                · cases h
                · rename_i hlen
                  split at h
                  · cases h
                  · rename_i hord
                    split at h
                    · rename_i d rest3
                      obtain ⟨d', hd, h⟩ := Out.bind_eq_ok.1 h
                      split at h
                      · cases h
                      · obtain ⟨r, hr, h⟩ := Out.bind_eq_ok.1 h
                        cases h
                        obtain ⟨a1, a2, a3⟩ := ih hok.2 hr
                        have hdok : diffOk d' := by
                          refine diffOk_of_load ?_ hd
                          have := hok.1
                          simp only [Bt.ok, Bt.okL, Bool.and_eq_true] at this
                          exact this.2.2.1
                        refine ⟨kSorted_cons.2 ⟨fun b hb => a2 _ rfl b hb, a1⟩, ?_, ?_⟩
                        · rintro y rfl p hp
                          have hy : y < toLex (s, hh) := by simpa [outOfOrder] using hord
                          rcases List.mem_cons.1 hp with rfl | hp
                          · exact hy
                          · exact lt_trans hy (a2 _ rfl p hp)
                        · intro p hp
                          rcases List.mem_cons.1 hp with rfl | hp
                          · refine ⟨?_, ?_, hdok, ?_, ?_⟩
                            · show int64Ok s = true; simpa using h64
                            · show hh.length = 32; simpa using hlen
                            · show cur - lag < s; omega
                            · show s < cur; omega
                          · exact a3 p hp
                    · cases h
              · cases h
    · cases h

/-! ### what was consumed is a prefix -/

theorem scanNat_suffix (bs : Bytes) (a : Nat) : ∃ pre, bs = pre ++ (scanNat a bs).2 := by
  induction bs generalizing a with
  | nil => exact ⟨[], rfl⟩
  | cons c t ih =>
    simp only [scanNat]
    split
    · obtain ⟨pre, h⟩ := ih (a * 10 + (c.toNat - 48)); exact ⟨c :: pre, by simp [← h]⟩
    · exact ⟨[], rfl⟩

theorem decStr_suffix {bs s r : Bytes} (h : decStr bs = some (s, r)) : ∃ pre, bs = pre ++ r := by
  unfold decStr at h
  split at h
  · cases h
  · rename_i c t
    split at h
    · split at h
      · rename_i n r' hs
        split at h
        · cases h
          obtain ⟨pre, hp⟩ := scanNat_suffix (c :: t) 0
          rw [hs] at hp
          refine ⟨pre ++ 58 :: r'.take n, ?_⟩
          rw [hp]; simp
        · cases h
      · cases h
    · cases h

theorem decNatE_suffix {bs : Bytes} {n : Nat} {r : Bytes} (h : decNatE bs = some (n, r)) :
    ∃ pre, bs = pre ++ r := by
  unfold decNatE at h
  split at h
  · cases h
  · rename_i c t
    split at h
    · split at h
      · rename_i n r' hs
        cases h
        obtain ⟨pre, hp⟩ := scanNat_suffix (c :: t) 0
        rw [hs] at hp
        exact ⟨pre ++ [101], by rw [hp]; simp⟩
      · cases h
    · cases h

theorem decInt_suffix {bs : Bytes} {i : Int} {r : Bytes} (h : decInt bs = some (i, r)) :
    ∃ pre, bs = pre ++ r := by
  simp only [decInt] at h
  split at h
  · rename_i j rest hs
    split at h
    · cases h
      unfold decSigned at hs
      split at hs
      · cases hs
      · rename_i c t
        split at hs
        · obtain ⟨p, hp, e⟩ := Option.map_eq_some_iff.1 hs
          cases e
          obtain ⟨pre, hh⟩ := decNatE_suffix hp
          exact ⟨c :: pre, by rw [hh]; simp⟩
        · obtain ⟨p, hp, e⟩ := Option.map_eq_some_iff.1 hs
          cases e
          exact decNatE_suffix hp
    · cases h
  · cases h

theorem dec_suffix (f : Nat) :
    (∀ bs v r, decV f bs = some (v, r) → ∃ pre, bs = pre ++ r) ∧
    (∀ bs l r, decL f bs = some (l, r) → ∃ pre, bs = pre ++ r) ∧
    (∀ bs d r, decD f bs = some (d, r) → ∃ pre, bs = pre ++ r) := by
  induction f with
  | zero => refine ⟨?_, ?_, ?_⟩ <;> intros <;> simp_all [decV, decL, decD]
  | succ f ih =>
    obtain ⟨i1, i2, i3⟩ := ih
    refine ⟨?_, ?_, ?_⟩
    · intro bs v r h
      cases bs with
      | nil => simp [decV] at h
      | cons c t =>
        simp only [decV] at h
        split at h
        · obtain ⟨p, hp, e⟩ := Option.map_eq_some_iff.1 h
          cases e; obtain ⟨pre, hh⟩ := decInt_suffix hp; exact ⟨c :: pre, by rw [hh]; simp⟩
        · split at h
          · obtain ⟨p, hp, e⟩ := Option.map_eq_some_iff.1 h
            cases e; obtain ⟨pre, hh⟩ := i2 _ _ _ hp; exact ⟨c :: pre, by rw [hh]; simp⟩
          · split at h
            · obtain ⟨p, hp, e⟩ := Option.map_eq_some_iff.1 h
              cases e; obtain ⟨pre, hh⟩ := i3 _ _ _ hp; exact ⟨c :: pre, by rw [hh]; simp⟩
            · obtain ⟨p, hp, e⟩ := Option.map_eq_some_iff.1 h
              cases e; exact decStr_suffix hp
    · intro bs l r h
      cases bs with
      | nil => simp [decL] at h
      | cons c t =>
        simp only [decL] at h
        split at h
        · cases h; exact ⟨[c], rfl⟩
        · split at h
          · cases h
          · rename_i v r' hv
            obtain ⟨p, hp, e⟩ := Option.map_eq_some_iff.1 h
            cases e
            obtain ⟨p1, h1⟩ := i1 _ _ _ hv
            obtain ⟨p2, h2⟩ := i2 _ _ _ hp
            exact ⟨p1 ++ p2, by rw [h1, h2]; simp⟩
    · intro bs l r h
      cases bs with
      | nil => simp [decD] at h
      | cons c t =>
        simp only [decD] at h
        split at h
        · cases h; exact ⟨[c], rfl⟩
        · split at h
          · cases h
          · rename_i k r0 hk
            split at h
            · cases h
            · rename_i v r' hv
              obtain ⟨p, hp, e⟩ := Option.map_eq_some_iff.1 h
              cases e
              obtain ⟨p0, h0⟩ := decStr_suffix hk
              obtain ⟨p1, h1⟩ := i1 _ _ _ hv
              obtain ⟨p2, h2⟩ := i3 _ _ _ hp
              exact ⟨p0 ++ (p1 ++ p2), by rw [h0, h1, h2]; simp⟩

/-- Where an entry sits in the message. -/
theorem decTop_entry {f off : Nat} {bs msg : Bytes} {es : List TopEntry} {r : Bytes}
    (h : decTop f off bs = some (es, r)) (hm : msg.drop off = bs) :
    ∀ pre e post, es = pre ++ e :: post → ∃ r1 r2,
      decStr (msg.drop e.off) = some (e.key, r1) ∧ decV r1.length r1 = some (e.val, r2) ∧
      (post = [] → r2 = 101 :: r) := by
  induction f generalizing off bs es r with
  | zero => simp [decTop] at h
  | succ f ih =>
    cases bs with
    | nil => simp [decTop] at h
    | cons c t =>
      simp only [decTop] at h
      split at h
      · cases h; intro pre e post he; simp at he
      · split at h
        · cases h
        · rename_i k r0 hk
          split at h
          · cases h
          · rename_i v r' hv
            obtain ⟨p, hp, e⟩ := Option.map_eq_some_iff.1 h
            obtain ⟨l', r''⟩ := p
            cases e
            obtain ⟨p0, h0⟩ := decStr_suffix hk
            obtain ⟨p1, h1⟩ := (dec_suffix _).1 _ _ _ hv
            have hdrop : msg.drop (off + ((c :: t).length - r'.length)) = r' := by
              have e1 : c :: t = (p0 ++ p1) ++ r' := by rw [h0, h1]; simp
              have e2 : ((p0 ++ p1) ++ r').length - r'.length = (p0 ++ p1).length := by
                simp only [List.length_append]; omega
              rw [← List.drop_drop, hm, e1, e2, List.drop_left]
            intro pre e post he
            cases pre with
            | nil =>
              simp only [List.nil_append, List.cons.injEq] at he
              obtain ⟨rfl, rfl⟩ := he
              refine ⟨r0, r', by rw [hm]; exact hk, hv, ?_⟩
              rintro rfl
              cases f with
              | zero => simp [decTop] at hp
              | succ f =>
                cases r' with
                | nil => simp [decTop] at hp
                | cons c' t' =>
                  simp only [decTop] at hp
                  split at hp
                  · rename_i hc; cases hp; rw [hc]
                  · split at hp
                    · cases hp
                    · split at hp
                      · cases hp
                      · obtain ⟨q, hq, e⟩ := Option.map_eq_some_iff.1 hp
                        simp at e
            | cons a pre =>
              simp only [List.cons_append, List.cons.injEq] at he
              exact ih hp hdrop pre e post he.2

theorem decV_str {n : Nat} {r : Bytes} {s r2 : Bytes} (h : decV n r = some (.str s, r2)) :
    decStr r = some (s, r2) := by
  cases n with
  | zero => simp [decV] at h
  | succ n =>
    cases r with
    | nil => simp [decV] at h
    | cons c t =>
      simp only [decV] at h
      split at h
      · obtain ⟨p, hp, e⟩ := Option.map_eq_some_iff.1 h; cases e
      · split at h
        · obtain ⟨p, hp, e⟩ := Option.map_eq_some_iff.1 h; cases e
        · split at h
          · obtain ⟨p, hp, e⟩ := Option.map_eq_some_iff.1 h; cases e
          · obtain ⟨p, hp, e⟩ := Option.map_eq_some_iff.1 h; cases e; exact hp

/-! ### the theorem -/

/-- Everything that is known of an accepted message. -/
structure Accepted (env : Env) (trust : Bool) (bs : Bytes) (m : Msg) : Prop where
  wf : MsgWF m
  window : ∀ p ∈ m.lagged, m.seqno - env.lag < p.1.1 ∧ p.1.1 < m.seqno
  hash : m.hash = env.H bs
  signed : ∀ v, env.verifier = some v → ∃ sig n rest tail, m.vsig = some sig ∧ sig.length = 64 ∧
    v (bs.take n) sig = true ∧ decStr (bs.drop n) = some (kSig, rest) ∧
    decStr rest = some (sig, 101 :: tail)
  unsigned : env.verifier = none → trust = false → m.vsig = none
  unmerged : m.unmerged = -1

theorem verifySig_ok {env : Env} {trust : Bool} {bs : Bytes} {es : List TopEntry}
    {vs : Option Bytes} (h : verifySig env trust bs es = .ok vs) :
    (∀ s, vs = some s → s.length = 64) ∧
    (∀ v, env.verifier = some v → ∃ sig e, es = [e] ∧ vs = some sig ∧ sig.length = 64 ∧
      e.key = kSig ∧ e.val = .str sig ∧ v (bs.take e.off) sig = true) ∧
    (env.verifier = none → trust = false → vs = none) ∧
    (∀ e ∈ es, e.key = kSig) := by
  cases es with
  | nil =>
    simp only [verifySig] at h
    split at h
    · cases h
    · rename_i hv
      cases h
      refine ⟨by simp, ?_, by simp, by simp⟩
      intro v hv'; rw [hv'] at hv; simp at hv
  | cons e r =>
    simp only [verifySig] at h
    split at h
    · rename_i hk
      split at h
      · rename_i sig hval
        split at h
        · cases h
        · rename_i hlen
          have hlen : sig.length = 64 := by simpa using hlen
          split at h
          · rename_i v hv
            split at h
            · rename_i hvv
              split at h
              · rename_i hr
                cases h; subst hr
                refine ⟨by rintro s ⟨⟩; exact hlen, ?_, by simp [hv], by simpa using hk⟩
                rintro v' hv'
                rw [hv] at hv'; cases hv'
                exact ⟨sig, e, rfl, rfl, hlen, hk, hval, hvv⟩
              · cases h
            · cases h
          · rename_i hv
            split at h
            · rename_i hr
              cases h; subst hr
              refine ⟨?_, by simp [hv], ?_, by simpa using hk⟩
              · intro s hs
                split at hs
                · cases hs; exact hlen
                · cases hs
              · intro _ ht; simp [ht]
            · cases h
      · cases h
    · split at h <;> cases h

theorem takeSeq_ok {es r : List TopEntry} {s : Int} (h : takeSeq es = .ok (s, r)) :
    int64Ok s = true ∧ ∃ off, es = ⟨off, kSeq, .int s⟩ :: r := by
  unfold takeSeq at h
  split at h
  · rename_i off k i r'
    split at h
    · rename_i hc
      simp only [Bool.and_eq_true, decide_eq_true_eq] at hc
      cases h
      exact ⟨hc.1, off, by rw [hc.2]⟩
    · cases h
  · cases h

theorem takeData_ok {es r : List TopEntry} {d : Dict} (h : takeData es = .ok (d, r)) :
    wfD d = true ∧ ∃ off, es = ⟨off, kData, .dict (dictBt d)⟩ :: r := by
  unfold takeData at h
  split at h
  · rename_i off k i r'
    split at h
    · rename_i hc
      obtain ⟨x, hx, h⟩ := Out.bind_eq_ok.1 h
      cases h
      obtain ⟨h1, h2, _⟩ := parseD_ok _ _ _ hx
      exact ⟨h2, off, by rw [hc, h1]⟩
    · cases h
  · cases h

theorem takeLag_ok {cur lag : Int} {es r : List TopEntry} {l : List (SH × BtDict)}
    (hok : ∀ e ∈ es, e.val.ok = true) (h : takeLag cur lag es = .ok (l, r)) :
    KSorted l ∧ (∀ p ∈ l, int64Ok p.1.1 = true ∧ p.1.2.length = 32 ∧ diffOk p.2 ∧
        cur - lag < p.1.1 ∧ p.1.1 < cur) ∧
      (∃ pre, es = pre ++ r ∧ ∀ e ∈ pre, e.key = kLag) ∧
      (l = [] ∧ r = es ∧ (∀ e ∈ es.head?, e.key ≠ kLag) ∨
        ∃ off rows, es = ⟨off, kLag, .list rows⟩ :: r ∧ parseLagged cur lag none rows = .ok l) := by
  cases es with
  | nil => simp [takeLag] at h
  | cons e t =>
    simp only [takeLag] at h
    split at h
    · rename_i hk
      split at h
      · rename_i rows hv
        obtain ⟨x, hx, h⟩ := Out.bind_eq_ok.1 h
        cases h
        have ho := hok e List.mem_cons_self
        rw [hv] at ho
        obtain ⟨a, _, b⟩ := parseLagged_ok (by simpa [Bt.ok] using ho) hx
        refine ⟨a, b, ⟨[e], rfl, by simpa using hk⟩, .inr ⟨e.off, rows, ?_, hx⟩⟩
        cases e; simp_all
      · cases h
    · rename_i hk
      cases h
      exact ⟨by simp, by simp, ⟨[], rfl, by simp⟩, .inl ⟨rfl, rfl, by simpa using hk⟩⟩

theorem takeDiff_ok {es r : List TopEntry} {d : BtDict}
    (hok : ∀ e ∈ es, e.val.ok = true) (h : takeDiff es = .ok (d, r)) :
    diffOk d ∧ (∃ pre, es = pre ++ r ∧ ∀ e ∈ pre, e.key = kDiff) ∧
      (d = [] ∧ r = es ∧ (∀ e ∈ es.head?, e.key ≠ kDiff) ∨
        ∃ off, es = ⟨off, kDiff, .dict d⟩ :: r) := by
  cases es with
  | nil => simp [takeDiff] at h
  | cons e t =>
    simp only [takeDiff] at h
    split at h
    · rename_i hk
      split at h
      · rename_i dd hv
        obtain ⟨x, hx, h⟩ := Out.bind_eq_ok.1 h
        cases h
        have ho := hok e List.mem_cons_self
        rw [hv] at ho
        have hl := (loadD_ok _ _ _ hx).1
        refine ⟨diffOk_of_load (by simpa [Bt.ok] using ho) hx, ⟨[e], rfl, by simpa using hk⟩,
          .inr ⟨e.off, ?_⟩⟩
        subst hl
        cases e; simp_all
      · cases h
    · rename_i hk
      cases h
      exact ⟨⟨rfl, rfl⟩, ⟨[], rfl, by simp⟩, .inl ⟨rfl, rfl, by simpa using hk⟩⟩

/-- The shape of the entries of an accepted message. -/
theorem parseEntries_ok {env : Env} {trust : Bool} {bs : Bytes} {es : List TopEntry} {m : Msg}
    (hok : ∀ e ∈ es, e.val.ok = true) (h : parseEntries env trust bs es = .ok m) :
    MsgWF m ∧ (∀ p ∈ m.lagged, m.seqno - env.lag < p.1.1 ∧ p.1.1 < m.seqno) ∧
    m.hash = env.H bs ∧ m.unmerged = -1 ∧
    (∀ v, env.verifier = some v → ∃ sig pre e, es = pre ++ [e] ∧ m.vsig = some sig ∧
      sig.length = 64 ∧ e.key = kSig ∧ e.val = .str sig ∧ v (bs.take e.off) sig = true) ∧
    (env.verifier = none → trust = false → m.vsig = none) ∧
    (∀ p, p ∈ m.unknown ↔ ∃ e ∈ es, unkKeyOk e.key = true ∧ p = (e.key, norm e.val)) := by
  unfold parseEntries at h
  obtain ⟨⟨s, e1⟩, h1, h⟩ := Out.bind_eq_ok.1 h
  obtain ⟨⟨u1, e2⟩, h2, h⟩ := Out.bind_eq_ok.1 h
  obtain ⟨⟨d, e3⟩, h3, h⟩ := Out.bind_eq_ok.1 h
  obtain ⟨⟨u2, e4⟩, h4, h⟩ := Out.bind_eq_ok.1 h
  obtain ⟨⟨lg, e5⟩, h5, h⟩ := Out.bind_eq_ok.1 h
  obtain ⟨⟨u3, e6⟩, h6, h⟩ := Out.bind_eq_ok.1 h
  obtain ⟨⟨df, e7⟩, h7, h⟩ := Out.bind_eq_ok.1 h
  obtain ⟨⟨u4, e8⟩, h8, h⟩ := Out.bind_eq_ok.1 h
  obtain ⟨vs, h9, h⟩ := Out.bind_eq_ok.1 h
  cases h
  obtain ⟨hs, o1, rfl⟩ := takeSeq_ok h1
  obtain ⟨p1, rfl, rfl, s1, k1, n1⟩ := loadUnknowns_ok h2
  obtain ⟨hd, o3, rfl⟩ := takeData_ok h3
  obtain ⟨p2, rfl, rfl, s2, k2, n2⟩ := loadUnknowns_ok h4
  have hok5 : ∀ e ∈ e4, e.val.ok = true := fun e he => hok e (by simp only [List.mem_cons, List.mem_append, he, or_true])
  obtain ⟨l1, l2, ⟨q5, rfl, hq5⟩, _⟩ := takeLag_ok hok5 h5
  obtain ⟨p3, rfl, rfl, s3, k3, n3⟩ := loadUnknowns_ok h6
  have hok7 : ∀ e ∈ e6, e.val.ok = true := fun e he => hok e (by simp only [List.mem_cons, List.mem_append, he, or_true])
  obtain ⟨f1, ⟨q7, rfl, hq7⟩, _⟩ := takeDiff_ok hok7 h7
  obtain ⟨p4, rfl, rfl, s4, k4, n4⟩ := loadUnknowns_ok h8
  obtain ⟨v1, v2, v3, v4⟩ := verifySig_ok h9
  have c1 : kSeq < kData := by decide
  have c2 : kData < kLag := by decide
  have c3 : kLag < kDiff := by decide
  have c4 : kDiff < kSig := by decide
  have hunk : ∀ p, p ∈ [] ++ p1.map (fun e => (e.key, norm e.val)) ++
      p2.map (fun e => (e.key, norm e.val)) ++ p3.map (fun e => (e.key, norm e.val)) ++
      p4.map (fun e => (e.key, norm e.val)) ↔
      ∃ e ∈ (⟨o1, kSeq, .int s⟩ : TopEntry) :: (p1 ++ (⟨o3, kData, .dict (dictBt d)⟩ : TopEntry) ::
        (p2 ++ (q5 ++ (p3 ++ (q7 ++ (p4 ++ e8)))))), unkKeyOk e.key = true ∧
          p = (e.key, norm e.val) := by
    intro p
    have a1 : ∀ e ∈ p1, unkKeyOk e.key = true := fun e he => by
      obtain ⟨x, y⟩ := k1 e he
      have y2 := lt_trans y c2
      have y3 := lt_trans y2 c3
      exact unkKeyOk_iff.2 ⟨x, lt_trans y3 c4, ne_of_lt y, ne_of_lt y2, ne_of_lt y3⟩
    have a2 : ∀ e ∈ p2, unkKeyOk e.key = true := fun e he => by
      obtain ⟨x, y⟩ := k2 e he
      have y3 := lt_trans y c3
      exact unkKeyOk_iff.2 ⟨lt_trans c1 x, lt_trans y3 c4, ne_of_gt x, ne_of_lt y, ne_of_lt y3⟩
    have a3 : ∀ e ∈ p3, unkKeyOk e.key = true := fun e he => by
      obtain ⟨x, y⟩ := k3 e he
      have x2 := lt_trans c2 x
      exact unkKeyOk_iff.2 ⟨lt_trans c1 x2, lt_trans y c4, ne_of_gt x2, ne_of_gt x, ne_of_lt y⟩
    have a4 : ∀ e ∈ p4, unkKeyOk e.key = true := fun e he => by
      obtain ⟨x, y⟩ := k4 e he
      have x2 := lt_trans c3 x
      have x3 := lt_trans c2 x2
      exact unkKeyOk_iff.2 ⟨lt_trans c1 x3, y, ne_of_gt x3, ne_of_gt x2, ne_of_gt x⟩
    have b1 : ¬ unkKeyOk kSeq = true := by decide
    have b2 : ¬ unkKeyOk kData = true := by decide
    have b3 : ¬ unkKeyOk kLag = true := by decide
    have b4 : ¬ unkKeyOk kDiff = true := by decide
    have b5 : ¬ unkKeyOk kSig = true := by decide
    simp only [List.nil_append, List.mem_append, List.mem_map, List.mem_cons]
    constructor
    · rintro (((⟨e, he, rfl⟩ | ⟨e, he, rfl⟩) | ⟨e, he, rfl⟩) | ⟨e, he, rfl⟩)
      · exact ⟨e, by simp only [he, true_or, or_true], a1 e he, rfl⟩
      · exact ⟨e, by simp only [he, true_or, or_true], a2 e he, rfl⟩
      · exact ⟨e, by simp only [he, true_or, or_true], a3 e he, rfl⟩
      · exact ⟨e, by simp only [he, true_or, or_true], a4 e he, rfl⟩
    · rintro ⟨e, (rfl | he | rfl | he | he | he | he | he | he), hk, rfl⟩
      · exact absurd hk b1
      · exact .inl (.inl (.inl ⟨e, he, rfl⟩))
      · exact absurd hk b2
      · exact .inl (.inl (.inr ⟨e, he, rfl⟩))
      · rw [hq5 e he] at hk; exact absurd hk b3
      · exact .inl (.inr ⟨e, he, rfl⟩)
      · rw [hq7 e he] at hk; exact absurd hk b4
      · exact .inr ⟨e, he, rfl⟩
      · rw [v4 e he] at hk; exact absurd hk b5
  refine ⟨?_, fun p hp => ⟨(l2 p hp).2.2.2.1, (l2 p hp).2.2.2.2⟩, rfl, rfl, ?_, v3, hunk⟩
  · refine ⟨hd, f1, l1, fun p hp => ⟨(l2 p hp).1, (l2 p hp).2.1, (l2 p hp).2.2.1⟩,
      s4 (s3 (s2 (s1 (by simp)))), ?_, hs, v1⟩
    intro p hp
    obtain ⟨e, he, hk, rfl⟩ := (hunk p).1 hp
    exact ⟨hk, norm_idem _, norm_ok _ (hok e he)⟩
  · intro v hv
    obtain ⟨sig, e, rfl, r⟩ := v2 v hv
    exact ⟨sig, ⟨o1, kSeq, .int s⟩ :: (p1 ++ ⟨o3, kData, .dict (dictBt d)⟩ :: (p2 ++ (q5 ++ (p3 ++ (q7 ++ p4))))), e, by simp, r⟩

theorem parseMsg_ok {env : Env} {trust : Bool} {bs : Bytes} {m : Msg}
    (h : parseMsg env trust bs = .ok m) : Accepted env trust bs m := by
  unfold parseMsg at h
  split at h
  · rename_i b t
    split at h
    · rename_i es r hes
      obtain ⟨a1, a2, a3, a4, a5, a6, _⟩ := parseEntries_ok (decTop_ok hes) h
      refine ⟨a1, a2, a3, ?_, a6, a4⟩
      intro v hv
      obtain ⟨sig, pre, e, he, b1, b2, b3, b4, b5⟩ := a5 v hv
      obtain ⟨r1, r2, c1, c2, c3⟩ := decTop_entry (msg := 100 :: b :: t) hes rfl pre e [] he
      rw [b4] at c2
      rw [b3] at c1
      refine ⟨sig, e.off, r1, r, b1, b2, b5, c1, ?_⟩
      rw [decV_str c2, c3 rfl]
    · cases h
  · cases h

/-- An entry of an accepted message with a key that is not one of the known ones is kept. -/
theorem parseEntries_key {env : Env} {trust : Bool} {bs : Bytes} {es : List TopEntry} {m : Msg}
    (hok : ∀ e ∈ es, e.val.ok = true) (h : parseEntries env trust bs es = .ok m) :
    ∀ e ∈ es, e.key ∉ [kSeq, kData, kLag, kDiff, kSig] → unkKeyOk e.key = true := by
  unfold parseEntries at h
  obtain ⟨⟨s, e1⟩, h1, h⟩ := Out.bind_eq_ok.1 h
  obtain ⟨⟨u1, e2⟩, h2, h⟩ := Out.bind_eq_ok.1 h
  obtain ⟨⟨d, e3⟩, h3, h⟩ := Out.bind_eq_ok.1 h
  obtain ⟨⟨u2, e4⟩, h4, h⟩ := Out.bind_eq_ok.1 h
  obtain ⟨⟨lg, e5⟩, h5, h⟩ := Out.bind_eq_ok.1 h
  obtain ⟨⟨u3, e6⟩, h6, h⟩ := Out.bind_eq_ok.1 h
  obtain ⟨⟨df, e7⟩, h7, h⟩ := Out.bind_eq_ok.1 h
  obtain ⟨⟨u4, e8⟩, h8, h⟩ := Out.bind_eq_ok.1 h
  obtain ⟨vs, h9, h⟩ := Out.bind_eq_ok.1 h
  cases h
  obtain ⟨hs, o1, rfl⟩ := takeSeq_ok h1
  obtain ⟨p1, rfl, rfl, s1, k1, n1⟩ := loadUnknowns_ok h2
  obtain ⟨hd, o3, rfl⟩ := takeData_ok h3
  obtain ⟨p2, rfl, rfl, s2, k2, n2⟩ := loadUnknowns_ok h4
  have hok5 : ∀ e ∈ e4, e.val.ok = true := fun e he => hok e (by simp only [List.mem_cons, List.mem_append, he, or_true])
  obtain ⟨l1, l2, ⟨q5, rfl, hq5⟩, _⟩ := takeLag_ok hok5 h5
  obtain ⟨p3, rfl, rfl, s3, k3, n3⟩ := loadUnknowns_ok h6
  have hok7 : ∀ e ∈ e6, e.val.ok = true := fun e he => hok e (by simp only [List.mem_cons, List.mem_append, he, or_true])
  obtain ⟨f1, ⟨q7, rfl, hq7⟩, _⟩ := takeDiff_ok hok7 h7
  obtain ⟨p4, rfl, rfl, s4, k4, n4⟩ := loadUnknowns_ok h8
  obtain ⟨v1, v2, v3, v4⟩ := verifySig_ok h9
  have c1 : kSeq < kData := by decide
  have c2 : kData < kLag := by decide
  have c3 : kLag < kDiff := by decide
  have c4 : kDiff < kSig := by decide
  intro e he hne
  simp only [List.mem_cons, List.not_mem_nil, or_false, not_or] at hne
  obtain ⟨w1, w2, w3, w4, w5⟩ := hne
  rw [unkKeyOk_iff]
  have key : kSeq < e.key ∧ e.key < kSig := by
    simp only [List.mem_cons, List.mem_append] at he
    rcases he with rfl | he | rfl | he | he | he | he | he | he
    · exact absurd rfl w1
    · obtain ⟨x, y⟩ := k1 e he
      exact ⟨x, lt_trans y (lt_trans c2 (lt_trans c3 c4))⟩
    · exact absurd rfl w2
    · obtain ⟨x, y⟩ := k2 e he
      exact ⟨lt_trans c1 x, lt_trans y (lt_trans c3 c4)⟩
    · exact absurd (hq5 e he) w3
    · obtain ⟨x, y⟩ := k3 e he
      exact ⟨lt_trans c1 (lt_trans c2 x), lt_trans y c4⟩
    · exact absurd (hq7 e he) w4
    · obtain ⟨x, y⟩ := k4 e he
      exact ⟨lt_trans c1 (lt_trans c2 (lt_trans c3 x)), y⟩
    · exact absurd (v4 e he) w5
  exact ⟨key.1, key.2, w2, w3, w4⟩

end Verif
