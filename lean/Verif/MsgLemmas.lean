import Verif.Msg
import Verif.DataLemmas

/-! Helper lemmas about parsing and serialising messages (no property statements here). -/

namespace Verif

/-! ### walking concatenations -/

theorem encD_append (a b : BtDict) : encD (a ++ b) = encD a ++ encD b := by
  induction a with
  | nil => simp [encD]
  | cons p t ih => obtain ⟨k, v⟩ := p; simp [encD, ih]

theorem topEntries_append (off : Nat) (a b : BtDict) :
    topEntries off (a ++ b) = topEntries off a ++ topEntries (off + (encD a).length) b := by
  induction a generalizing off with
  | nil => simp [topEntries, encD]
  | cons p t ih =>
    obtain ⟨k, v⟩ := p
    simp only [List.cons_append, topEntries, ih, encD, List.length_append]
    congr 3; omega

theorem okD_append (a b : BtDict) : Bt.okD (a ++ b) = (Bt.okD a && Bt.okD b) := by
  induction a with
  | nil => simp [Bt.okD]
  | cons p t ih => obtain ⟨k, v⟩ := p; simp [Bt.okD, ih, Bool.and_assoc]

theorem okD_iff {d : BtDict} : Bt.okD d = true ↔ ∀ p ∈ d, p.2.ok = true := by
  induction d with
  | nil => simp [Bt.okD]
  | cons p t ih => obtain ⟨k, v⟩ := p; simp [Bt.okD, ih]

theorem okL_iff {d : List Bt} : Bt.okL d = true ↔ ∀ p ∈ d, p.ok = true := by
  induction d with
  | nil => simp [Bt.okL]
  | cons p t ih => simp [Bt.okL, ih]

/-! ### decoded values are in range -/

theorem decInt_ok {bs : Bytes} {i : Int} {r : Bytes} (h : decInt bs = some (i, r)) :
    intOk i = true := by
  simp only [decInt] at h
  split at h
  · split at h
    · rename_i hi; cases h; exact hi
    · cases h
  · cases h

theorem dec_ok (f : Nat) :
    (∀ bs v r, decV f bs = some (v, r) → v.ok = true) ∧
    (∀ bs l r, decL f bs = some (l, r) → Bt.okL l = true) ∧
    (∀ bs d r, decD f bs = some (d, r) → Bt.okD d = true) := by
  induction f with
  | zero => refine ⟨?_, ?_, ?_⟩ <;> intros <;> simp_all [decV, decL, decD]
  | succ f ih =>
    obtain ⟨i1, i2, i3⟩ := ih
    refine ⟨?_, ?_, ?_⟩
    · intro bs v r h
      cases bs with
      | nil => simp [decV] at h
      | cons c t =>
        simp only [decV] at h
        split at h
        · obtain ⟨p, hp, e⟩ := Option.map_eq_some_iff.1 h
          obtain ⟨i, r'⟩ := p
          cases e; exact decInt_ok hp
        · split at h
          · obtain ⟨p, hp, e⟩ := Option.map_eq_some_iff.1 h
            obtain ⟨i, r'⟩ := p
            cases e; exact i2 _ _ _ hp
          · split at h
            · obtain ⟨p, hp, e⟩ := Option.map_eq_some_iff.1 h
              obtain ⟨i, r'⟩ := p
              cases e; exact i3 _ _ _ hp
            · obtain ⟨p, hp, e⟩ := Option.map_eq_some_iff.1 h
              obtain ⟨i, r'⟩ := p
              cases e; rfl
    · intro bs l r h
      cases bs with
      | nil => simp [decL] at h
      | cons c t =>
        simp only [decL] at h
        split at h
        · cases h; rfl
        · split at h
          · cases h
          · rename_i v r' hv
            obtain ⟨p, hp, e⟩ := Option.map_eq_some_iff.1 h
            obtain ⟨l', r''⟩ := p
            cases e
            simp [Bt.okL, i1 _ _ _ hv, i2 _ _ _ hp]
    · intro bs l r h
      cases bs with
      | nil => simp [decD] at h
      | cons c t =>
        simp only [decD] at h
        split at h
        · cases h; rfl
        · split at h
          · cases h
          · split at h
            · cases h
            · rename_i v r' hv
              obtain ⟨p, hp, e⟩ := Option.map_eq_some_iff.1 h
              obtain ⟨l', r''⟩ := p
              cases e
              simp [Bt.okD, i1 _ _ _ hv, i3 _ _ _ hp]

theorem decTop_ok {f off : Nat} {bs : Bytes} {es : List TopEntry} {r : Bytes}
    (h : decTop f off bs = some (es, r)) : ∀ e ∈ es, e.val.ok = true := by
  induction f generalizing off bs es r with
  | zero => simp [decTop] at h
  | succ f ih =>
    cases bs with
    | nil => simp [decTop] at h
    | cons c t =>
      simp only [decTop] at h
      split at h
      · cases h; simp
      · split at h
        · cases h
        · split at h
          · cases h
          · rename_i v r' hv
            obtain ⟨p, hp, e⟩ := Option.map_eq_some_iff.1 h
            obtain ⟨l', r''⟩ := p
            cases e
            intro e he
            rcases List.mem_cons.1 he with rfl | he
            · exact (dec_ok _).1 _ _ _ hv
            · exact ih hp e he

/-! ### `norm` -/

theorem normL_eq (l : List Bt) : normL l = l.map norm := by
  induction l with
  | nil => simp [normL]
  | cons a t ih => simp [normL, ih]

theorem normD_eq (l : BtDict) : normD l = l.map fun p => (p.1, norm p.2) := by
  induction l with
  | nil => simp [normD]
  | cons a t ih => obtain ⟨k, v⟩ := a; simp [normD, ih]

theorem foldl_memplace_sorted {K V : Type*} [LinearOrder K] (l m : List (K × V)) (h : KSorted m) :
    KSorted (l.foldl (fun m p => memplace p.1 p.2 m) m) := by
  induction l generalizing m with
  | nil => exact h
  | cons a t ih => exact ih _ (h.memplace _ _)

theorem mem_memplace {K V : Type*} [LinearOrder K] {k : K} {v : V} {m : List (K × V)} {b : K × V}
    (h : b ∈ memplace k v m) : b = (k, v) ∨ b ∈ m := by
  induction m with
  | nil => simpa [memplace] using h
  | cons a t ih =>
    obtain ⟨k', v'⟩ := a
    simp only [memplace] at h
    split at h
    · simpa using h
    · split at h
      · exact .inr h
      · rcases List.mem_cons.1 h with rfl | h
        · exact .inr List.mem_cons_self
        · rcases ih h with h | h
          · exact .inl h
          · exact .inr (List.mem_cons_of_mem _ h)

theorem mem_foldl_memplace {K V : Type*} [LinearOrder K] {l m : List (K × V)} {b : K × V}
    (h : b ∈ l.foldl (fun m p => memplace p.1 p.2 m) m) : b ∈ l ∨ b ∈ m := by
  induction l generalizing m with
  | nil => exact .inr h
  | cons a t ih =>
    rcases ih h with h | h
    · exact .inl (List.mem_cons_of_mem _ h)
    · rcases mem_memplace h with h | h
      · exact .inl (h ▸ List.mem_cons_self)
      · exact .inr h

theorem memplace_append {K V : Type*} [LinearOrder K] {k : K} {v : V} {m : List (K × V)}
    (h : ∀ b ∈ m, b.1 < k) : memplace k v m = m ++ [(k, v)] := by
  induction m with
  | nil => rfl
  | cons a t ih =>
    obtain ⟨k', v'⟩ := a
    have h1 := h _ List.mem_cons_self
    simp only [memplace]
    rw [if_neg (not_lt.2 (le_of_lt h1)), if_neg (ne_of_gt h1),
      ih fun b hb => h b (List.mem_cons_of_mem _ hb)]; rfl

theorem foldl_memplace_of_sorted {K V : Type*} [LinearOrder K] (l m : List (K × V))
    (h : KSorted (m ++ l)) : l.foldl (fun m p => memplace p.1 p.2 m) m = m ++ l := by
  induction l generalizing m with
  | nil => simp
  | cons a t ih =>
    obtain ⟨k, v⟩ := a
    simp only [List.foldl_cons]
    have h' := List.pairwise_append.1 h
    rw [memplace_append fun b hb => h'.2.2 b hb _ List.mem_cons_self]
    have : m ++ (k, v) :: t = m ++ [(k, v)] ++ t := by simp
    rw [ih _ (this ▸ h), this]

mutual
theorem norm_idem : ∀ v : Bt, norm (norm v) = norm v
  | .int i => rfl
  | .str s => rfl
  | .list l => by
    simp only [norm, normL_eq, List.map_map]
    congr 1
    apply List.map_congr_left
    intro v hv
    exact normL_idem l v hv
  | .dict d => by
    simp only [norm, normD_eq]
    congr 1
    have hs : KSorted ((d.map fun p => (p.1, norm p.2)).foldl
      (fun m p => memplace p.1 p.2 m) []) := foldl_memplace_sorted _ _ (by simp)
    have he : ((d.map fun p => (p.1, norm p.2)).foldl (fun m p => memplace p.1 p.2 m) []).map
        (fun p => (p.1, norm p.2)) =
        (d.map fun p => (p.1, norm p.2)).foldl (fun m p => memplace p.1 p.2 m) [] := by
      conv_rhs => rw [← List.map_id ((d.map fun p => (p.1, norm p.2)).foldl
        (fun m p => memplace p.1 p.2 m) [])]
      apply List.map_congr_left
      intro b hb
      rcases mem_foldl_memplace hb with h | h
      · obtain ⟨p, hp, rfl⟩ := List.mem_map.1 h
        have := normD_idem d p hp
        simp [this]
      · simp at h
    rw [he, foldl_memplace_of_sorted _ [] (by simpa using hs)]; rfl
theorem normL_idem : ∀ (l : List Bt), ∀ v ∈ l, norm (norm v) = norm v
  | [], v, h => by simp at h
  | a :: t, v, h => by
    have h1 := norm_idem a
    have h2 := normL_idem t
    rcases List.mem_cons.1 h with rfl | h
    · exact h1
    · exact h2 v h
theorem normD_idem : ∀ (d : BtDict), ∀ p ∈ d, norm (norm p.2) = norm p.2
  | [], v, h => by simp at h
  | (k, a) :: t, v, h => by
    have h1 := norm_idem a
    have h2 := normD_idem t
    rcases List.mem_cons.1 h with rfl | h
    · exact h1
    · exact h2 v h
end

mutual
theorem norm_ok : ∀ v : Bt, v.ok = true → (norm v).ok = true
  | .int i, h => h
  | .str s, h => h
  | .list l, h => by
    simp only [Bt.ok] at h
    simp only [norm, Bt.ok, normL_eq]
    rw [okL_iff]
    intro p hp
    obtain ⟨v, hv, rfl⟩ := List.mem_map.1 hp
    exact normL_ok l h v hv
  | .dict d, h => by
    simp only [Bt.ok] at h
    simp only [norm, Bt.ok, normD_eq]
    rw [okD_iff]
    intro p hp
    rcases mem_foldl_memplace hp with h' | h'
    · obtain ⟨q, hq, rfl⟩ := List.mem_map.1 h'
      exact normD_ok d h q hq
    · simp at h'
theorem normL_ok : ∀ (l : List Bt), Bt.okL l = true → ∀ v ∈ l, (norm v).ok = true
  | [], _, v, h => by simp at h
  | a :: t, ho, v, h => by
    simp only [Bt.okL, Bool.and_eq_true] at ho
    have h1 := norm_ok a ho.1
    have h2 := normL_ok t ho.2
    rcases List.mem_cons.1 h with rfl | h
    · exact h1
    · exact h2 v h
theorem normD_ok : ∀ (d : BtDict), Bt.okD d = true → ∀ p ∈ d, (norm p.2).ok = true
  | [], _, v, h => by simp at h
  | (k, a) :: t, ho, v, h => by
    simp only [Bt.okD, Bool.and_eq_true] at ho
    have h1 := norm_ok a ho.1
    have h2 := normD_ok t ho.2
    rcases List.mem_cons.1 h with rfl | h
    · exact h1
    · exact h2 v h
end

/-! ### well-formed messages -/

/-- Keys that `unknown_` may hold: strictly between `#` and `~`, and none of the known ones. -/
def unkKeyOk (k : Bytes) : Bool :=
  decide (kSeq < k) && decide (k < kSig) && decide (k ≠ kData) && decide (k ≠ kLag) &&
    decide (k ≠ kDiff)

/-- A diff that passes `load_diff` and holds representable integers. -/
def diffOk (d : BtDict) : Prop := loadD none d = .ok d ∧ Bt.okD d = true

/-- What holds of every message that was parsed, merged or produced by a mutable message. -/
structure MsgWF (m : Msg) : Prop where
  data : wfD m.data = true
  diff : diffOk m.diff
  lagS : KSorted m.lagged
  lagRows : ∀ p ∈ m.lagged, int64Ok p.1.1 = true ∧ p.1.2.length = 32 ∧ diffOk p.2
  unkS : KSorted m.unknown
  unkKeys : ∀ p ∈ m.unknown, unkKeyOk p.1 = true ∧ norm p.2 = p.2 ∧ p.2.ok = true
  seq : int64Ok m.seqno = true
  vsig : ∀ s, m.vsig = some s → s.length = 64

theorem int64_intOk {i : Int} (h : int64Ok i = true) : intOk i = true := by
  simp only [int64Ok, intOk, Bool.and_eq_true, decide_eq_true_eq] at *
  omega

/-! ### stepping through the entries -/

theorem loadUnknowns_append {prev til : Bytes} (u U : BtDict) (off : Nat) (R : List TopEntry)
    (hs : KSorted (u ++ U)) (hp : ∀ p ∈ U, prev < p.1) (ht : ∀ p ∈ U, p.1 < til)
    (hn : ∀ p ∈ U, norm p.2 = p.2) (hR : ∀ e r, R = e :: r → ¬ e.key < til) :
    loadUnknowns prev til u (topEntries off U ++ R) = .ok (u ++ U, R) := by
  induction U generalizing u off with
  | nil =>
    simp only [topEntries, List.nil_append, List.append_nil]
    cases R with
    | nil => rfl
    | cons e r => simp only [loadUnknowns]; rw [if_neg (hR e r rfl)]
  | cons p t ih =>
    obtain ⟨k, v⟩ := p
    have hk1 := hp _ List.mem_cons_self
    have hk2 := ht _ List.mem_cons_self
    have hk3 := hn _ List.mem_cons_self
    simp only [topEntries, List.cons_append, loadUnknowns]
    have hord : outOfOrder (u.getLast?.map (·.1)) k = false := by
      cases hu : u.getLast? with
      | none => rfl
      | some x =>
        have hx : x ∈ u := List.mem_of_getLast? hu
        have := (List.pairwise_append.1 hs).2.2 x hx _ List.mem_cons_self
        simpa [outOfOrder] using this
    have hle : ¬ (k ≤ prev) := not_le.2 hk1
    simp only [hk2, if_true, hle, decide_false, Bool.false_or, hord, Bool.false_eq_true, if_false]
    have e : u ++ (k, v) :: t = (u ++ [(k, v)]) ++ t := by simp
    rw [hk3, ih (u ++ [(k, v)]) _ (e ▸ hs) (fun p hp' => hp p (List.mem_cons_of_mem _ hp'))
      (fun p hp' => ht p (List.mem_cons_of_mem _ hp'))
      (fun p hp' => hn p (List.mem_cons_of_mem _ hp')), e]

theorem parseLagged_map {cur lag : Int} (hub : int64Ok (cur - lag) = true)
    (l : List (SH × BtDict)) (last : Option SH) (hs : KSorted l)
    (hl : ∀ y, last = some y → ∀ p ∈ l, y < p.1)
    (hr : ∀ p ∈ l, int64Ok p.1.1 = true ∧ p.1.2.length = 32 ∧ diffOk p.2)
    (hw : ∀ p ∈ l, cur - lag < p.1.1 ∧ p.1.1 < cur) :
    parseLagged cur lag last (l.map lagRow) = .ok l := by
  induction l generalizing last with
  | nil => rfl
  | cons a t ih =>
    obtain ⟨sh, d⟩ := a
    obtain ⟨r1, r2, r3⟩ := hr _ List.mem_cons_self
    obtain ⟨w1, w2⟩ := hw _ List.mem_cons_self
    simp only at r1 r2 r3 w1 w2
    have hord : outOfOrder last sh = false := by
      cases last with
      | none => rfl
      | some y => simpa [outOfOrder] using hl y rfl _ List.mem_cons_self
    have hsh : (toLex (sh.1, sh.2) : SH) = sh := rfl
    simp only [List.map_cons, lagRow, parseLagged, hsh]
    rw [if_neg (by simp [r1]), if_neg (by omega), if_neg (by simp [hub]), if_neg (by omega),
      if_neg (by simp [r2]), if_neg (by simp [hord]), r3.1, Out.bind_ok, if_neg (by simp),
      ih (some sh) hs.tail (by rintro y ⟨⟩ p hp; exact hs.head p hp)
        (fun p hp => hr p (List.mem_cons_of_mem _ hp))
        (fun p hp => hw p (List.mem_cons_of_mem _ hp))]
    rfl

theorem takeWhile_self {α : Type*} {p : α → Bool} {l : List α} (h : ∀ a ∈ l, p a = true) :
    l.takeWhile p = l := by
  induction l with
  | nil => rfl
  | cons a t ih =>
    rw [List.takeWhile_cons_of_pos (h a List.mem_cons_self),
      ih fun b hb => h b (List.mem_cons_of_mem _ hb)]

/-- Splitting the unknown keys at the known ones loses nothing. -/
theorem unk_split (u : BtDict) (til : Bytes) : unkTake u til ++ unkDrop u til = u :=
  List.takeWhile_append_dropWhile

theorem mem_unkTake {u : BtDict} {til : Bytes} {p : Bytes × Bt} (h : p ∈ unkTake u til) :
    p.1 < til ∧ p ∈ u := by
  refine ⟨?_, (List.takeWhile_sublist _).subset h⟩
  have := List.all_eq_true.1
    (List.all_takeWhile (p := fun p : Bytes × Bt => decide (p.1 < til)) (l := u)) _ h
  simpa using this

theorem mem_unkDrop {u : BtDict} {til : Bytes} (hs : KSorted u) {p : Bytes × Bt}
    (h : p ∈ unkDrop u til) : til ≤ p.1 ∧ p ∈ u := by
  refine ⟨?_, (List.dropWhile_sublist _).subset h⟩
  unfold unkDrop at h
  cases hd : u.dropWhile (fun p => decide (p.1 < til)) with
  | nil => rw [hd] at h; simp at h
  | cons q t =>
    have h1 := List.head?_dropWhile_not (p := fun p : Bytes × Bt => decide (p.1 < til)) (l := u)
    rw [hd] at h1 h
    have h1 : til ≤ q.1 := by simpa using h1
    have hsd : KSorted (q :: t) := hd ▸ List.Pairwise.sublist (List.dropWhile_sublist _) hs
    rcases List.mem_cons.1 h with rfl | h
    · exact h1
    · exact le_trans h1 (le_of_lt (hsd.head _ h))

theorem unkDrop_sorted {u : BtDict} {til : Bytes} (hs : KSorted u) : KSorted (unkDrop u til) :=
  List.Pairwise.sublist (List.dropWhile_sublist _) hs

/-! ### the entries of a serialised message parse back -/

theorem top_ok {m : Msg} (lag : Int) (h : MsgWF m) : Bt.okD (m.top lag) = true := by
  have hu : ∀ p ∈ m.unknown, p.2.ok = true := fun p hp => (h.unkKeys p hp).2.2
  have e := unk_split m.unknown kData
  rw [okD_iff]
  intro p hp
  simp only [Msg.top, List.mem_cons, List.mem_append] at hp
  have sub1 : ∀ p, p ∈ unkDrop m.unknown kData → p ∈ m.unknown :=
    fun p hp => (List.dropWhile_sublist _).subset hp
  have sub2 : ∀ p, p ∈ unkDrop (unkDrop m.unknown kData) kLag → p ∈ m.unknown :=
    fun p hp => sub1 p ((List.dropWhile_sublist _).subset hp)
  have sub3 : ∀ p, p ∈ unkDrop (unkDrop (unkDrop m.unknown kData) kLag) kDiff → p ∈ m.unknown :=
    fun p hp => sub2 p ((List.dropWhile_sublist _).subset hp)
  rcases hp with rfl | hp | rfl | hp | rfl | hp | rfl | hp
  · simp [Bt.ok, int64_intOk h.seq]
  · exact hu p (mem_unkTake hp).2
  · simp only [Bt.ok]; exact dictBt_ok _ (wfD_typed h.data)
  · exact hu p (sub1 p (mem_unkTake hp).2)
  · simp only [Bt.ok]
    rw [okL_iff]
    intro q hq
    obtain ⟨r, hr, rfl⟩ := List.mem_map.1 hq
    have hr' := h.lagRows r (List.mem_of_mem_filter hr)
    simp [lagRow, Bt.ok, Bt.okL, int64_intOk hr'.1, hr'.2.2.2]
  · exact hu p (sub2 p (mem_unkTake hp).2)
  · simp only [Bt.ok]; exact h.diff.2
  · exact hu p (sub3 p (mem_unkTake hp).2)

/-- The parsed form of a serialised message: same content, with only the live lagged diffs. -/
def Msg.reparsed (env : Env) (trust : Bool) (bs : Bytes) (sig : Option Bytes) (m : Msg) : Msg :=
  { data := m.data, diff := m.diff, lagged := m.lagged.filter (lagLive m.seqno env.lag),
    unknown := m.unknown, seqno := m.seqno, hash := env.H bs,
    vsig := if env.verifier.isSome || trust then sig else none, unmerged := -1 }

/-- The signature pair appended to the body. -/
def sigEntry : Option Bytes → BtDict
  | some s => [(kSig, .str s)]
  | none => []

theorem ser_eq (env : Env) (m : Msg) (enable : Bool) :
    m.ser env enable = 100 :: (encD (m.top env.lag ++ sigEntry (m.sig env enable)) ++ [101]) := by
  unfold Msg.ser
  cases m.sig env enable with
  | none => simp [sigEntry, Msg.body]
  | some s => simp [sigEntry, encD_append, encD, Msg.body, encV]

theorem unkKeyOk_iff {k : Bytes} : unkKeyOk k = true ↔
    kSeq < k ∧ k < kSig ∧ k ≠ kData ∧ k ≠ kLag ∧ k ≠ kDiff := by
  simp [unkKeyOk]; tauto

theorem topEntries_cons_key (off : Nat) (k : Bytes) (v : Bt) (t : BtDict) :
    topEntries off ((k, v) :: t) =
      ⟨off, k, v⟩ :: topEntries (off + ((encStr k).length + (encV v).length)) t := rfl

theorem verifySig_entry (env : Env) (trust : Bool) (bs : Bytes) (off : Nat) (sig : Option Bytes)
    (hlen : ∀ s, sig = some s → s.length = 64)
    (hv : ∀ v, env.verifier = some v → ∃ s, sig = some s ∧ v (bs.take off) s = true) :
    verifySig env trust bs (topEntries off (sigEntry sig)) =
      .ok (if env.verifier.isSome || trust then sig else none) := by
  cases sig with
  | none =>
    have : env.verifier = none := by
      cases h : env.verifier with
      | none => rfl
      | some v => obtain ⟨s, hs, _⟩ := hv v h; cases hs
    simp [sigEntry, topEntries, verifySig, this]
  | some s =>
    have hl := hlen s rfl
    simp only [sigEntry, topEntries, verifySig, if_true]
    rw [if_neg (by simp [hl])]
    cases h : env.verifier with
    | none => simp
    | some v =>
      obtain ⟨s', hs, hv'⟩ := hv v h
      cases hs
      simp [hv']

/-- Parsing what was serialised. -/
theorem parseMsg_ser (env : Env) (trust enable : Bool) (m : Msg) (h : MsgWF m)
    (hub : int64Ok (m.seqno - env.lag) = true)
    (hlen : ∀ s, m.sig env enable = some s → s.length = 64)
    (hv : ∀ v, env.verifier = some v →
      ∃ s, m.sig env enable = some s ∧ v (m.body env.lag) s = true) :
    parseMsg env trust (m.ser env enable) =
      .ok (m.reparsed env trust (m.ser env enable) (m.sig env enable)) := by
  generalize hsig : m.sig env enable = sig at *
  have hser := ser_eq env m enable
  rw [hsig] at hser
  have hokD : Bt.okD (m.top env.lag ++ sigEntry sig) = true := by
    rw [okD_append, top_ok env.lag h]
    cases sig <;> simp [sigEntry, Bt.okD, Bt.ok]
  have htop := decTop_encD (m.top env.lag ++ sigEntry sig)
    ((encD (m.top env.lag ++ sigEntry sig) ++ [101]).length) 1 [] hokD (by simp)
  have hne : ∃ b t, encD (m.top env.lag ++ sigEntry sig) ++ [101] = b :: t := by
    cases hh : encD (m.top env.lag ++ sigEntry sig) with
    | nil => exact ⟨101, [], rfl⟩
    | cons b t => exact ⟨b, t ++ [101], rfl⟩
  obtain ⟨b, t, hbt⟩ := hne
  generalize hbs : m.ser env enable = bs at *
  have hparse : parseMsg env trust bs =
      parseEntries env trust bs (topEntries 1 (m.top env.lag ++ sigEntry sig)) := by
    rw [hbt] at htop
    rw [hser, hbt]
    simp only [parseMsg, htop]
  rw [hparse, topEntries_append]
  -- the offset of the signature is the length of the body
  have hoff : bs.take (1 + (encD (m.top env.lag)).length) = m.body env.lag := by
    rw [hser, Msg.body, encD_append]
    rw [Nat.add_comm, List.take_succ_cons]
    simp
  have hvs := verifySig_entry env trust bs (1 + (encD (m.top env.lag)).length) sig hlen
    (fun v hv' => by rw [hoff]; exact hv v hv')
  generalize hE : topEntries (1 + (encD (m.top env.lag)).length) (sigEntry sig) = E at *
  have hEk : ∀ e r, E = e :: r → e.key = kSig := by
    intro e r he
    rw [← hE] at he
    cases sig with
    | none => simp [sigEntry, topEntries] at he
    | some s => simp only [sigEntry, topEntries, List.cons.injEq] at he; rw [← he.1]
  -- unknown segments
  have hS := h.unkS
  set u := m.unknown with hu
  have hS1 := unkDrop_sorted (til := kData) hS
  have hS2 := unkDrop_sorted (til := kLag) hS1
  have hS3 := unkDrop_sorted (til := kDiff) hS2
  have sub1 : ∀ p, p ∈ unkDrop u kData → kData < p.1 ∧ p ∈ u := by
    intro p hp
    obtain ⟨h1, h2⟩ := mem_unkDrop hS hp
    have := (unkKeyOk_iff.1 (h.unkKeys p h2).1).2.2.1
    exact ⟨lt_of_le_of_ne h1 (Ne.symm this), h2⟩
  have sub2 : ∀ p, p ∈ unkDrop (unkDrop u kData) kLag → kLag < p.1 ∧ p ∈ u := by
    intro p hp
    obtain ⟨h1, h2⟩ := mem_unkDrop hS1 hp
    have h2 := (sub1 p h2).2
    have := (unkKeyOk_iff.1 (h.unkKeys p h2).1).2.2.2.1
    exact ⟨lt_of_le_of_ne h1 (Ne.symm this), h2⟩
  have sub3 : ∀ p, p ∈ unkDrop (unkDrop (unkDrop u kData) kLag) kDiff → kDiff < p.1 ∧ p ∈ u := by
    intro p hp
    obtain ⟨h1, h2⟩ := mem_unkDrop hS2 hp
    have h2 := (sub2 p h2).2
    have := (unkKeyOk_iff.1 (h.unkKeys p h2).1).2.2.2.2
    exact ⟨lt_of_le_of_ne h1 (Ne.symm this), h2⟩
  have hlast : unkTake (unkDrop (unkDrop (unkDrop u kData) kLag) kDiff) kSig =
      unkDrop (unkDrop (unkDrop u kData) kLag) kDiff := by
    unfold unkTake
    apply takeWhile_self
    intro p hp
    have := (unkKeyOk_iff.1 (h.unkKeys p (sub3 p hp).2).1).2.1
    simpa using this
  have cat1 := unk_split u kData
  have cat2 := unk_split (unkDrop u kData) kLag
  have cat3 := unk_split (unkDrop (unkDrop u kData) kLag) kDiff
  have hnorm : ∀ p ∈ u, norm p.2 = p.2 := fun p hp => (h.unkKeys p hp).2.1
  simp only [Msg.top]
  rw [← hu, hlast]
  generalize hU0 : unkTake u kData = U0 at *
  generalize hU1 : unkTake (unkDrop u kData) kLag = U1 at *
  generalize hU2 : unkTake (unkDrop (unkDrop u kData) kLag) kDiff = U2 at *
  generalize hU3 : unkDrop (unkDrop (unkDrop u kData) kLag) kDiff = U3 at *
  have hall : u = U0 ++ (U1 ++ (U2 ++ U3)) := by rw [cat3, cat2, cat1]
  have hm0 : ∀ p ∈ U0, p.1 < kData ∧ p ∈ u := fun p hp => mem_unkTake (hU0 ▸ hp)
  have hm1 : ∀ p ∈ U1, p.1 < kLag ∧ kData < p.1 ∧ p ∈ u := fun p hp => by
    obtain ⟨a, b⟩ := mem_unkTake (hU1 ▸ hp); exact ⟨a, sub1 p b⟩
  have hm2 : ∀ p ∈ U2, p.1 < kDiff ∧ kLag < p.1 ∧ p ∈ u := fun p hp => by
    obtain ⟨a, b⟩ := mem_unkTake (hU2 ▸ hp); exact ⟨a, sub2 p b⟩
  have hm3 : ∀ p ∈ U3, p.1 < kSig ∧ kDiff < p.1 ∧ p ∈ u := fun p hp => by
    obtain ⟨a, b⟩ := sub3 p (hU3 ▸ hp)
    exact ⟨(unkKeyOk_iff.1 (h.unkKeys p b).1).2.1, a, b⟩
  have hsAll : KSorted (U0 ++ (U1 ++ (U2 ++ U3))) := hall ▸ hS
  have hs01 : KSorted (U0 ++ U1) :=
    List.Pairwise.sublist ((List.sublist_append_left U1 (U2 ++ U3)).append_left U0) hsAll
  have hs012 : KSorted (U0 ++ U1 ++ U2) := by
    rw [List.append_assoc]
    exact List.Pairwise.sublist
      (((List.sublist_append_left U2 U3).append_left U1).append_left U0) hsAll
  have hs0123 : KSorted (U0 ++ U1 ++ U2 ++ U3) := by
    rw [List.append_assoc, List.append_assoc]; exact hsAll
  have hs0 : KSorted ([] ++ U0) := (List.pairwise_append.1 hsAll).1
  -- now step
  simp only [topEntries_cons_key, topEntries_append, List.cons_append, List.append_assoc,
    parseEntries]
  simp only [takeSeq, h.seq, Bool.true_and, decide_true, if_true, Out.bind_ok]
  rw [loadUnknowns_append [] U0 _ _ hs0
    (fun p hp => (unkKeyOk_iff.1 (h.unkKeys p (hm0 p hp).2).1).1) (fun p hp => (hm0 p hp).1)
    (fun p hp => hnorm p (hm0 p hp).2)
    (by rintro e r ⟨⟩; exact lt_irrefl _)]
  simp only [Out.bind_ok, List.nil_append, takeData, if_true,
    parseD_bt m.data none h.data (by simp)]
  rw [loadUnknowns_append U0 U1 _ _ hs01 (fun p hp => (hm1 p hp).2.1) (fun p hp => (hm1 p hp).1)
    (fun p hp => hnorm p (hm1 p hp).2.2) (by rintro e r ⟨⟩; exact lt_irrefl _)]
  simp only [Out.bind_ok, takeLag, if_true]
  rw [parseLagged_map hub _ none (h.lagS.filter _) (by simp)
    (fun p hp => h.lagRows p (List.mem_of_mem_filter hp)) (by
      intro p hp
      have := List.of_mem_filter hp
      simp only [lagLive, Bool.not_eq_true', Bool.or_eq_false_iff, decide_eq_false_iff_not] at this
      omega)]
  simp only [Out.bind_ok]
  rw [loadUnknowns_append (U0 ++ U1) U2 _ _ hs012 (fun p hp => (hm2 p hp).2.1)
    (fun p hp => (hm2 p hp).1) (fun p hp => hnorm p (hm2 p hp).2.2)
    (by rintro e r ⟨⟩; exact lt_irrefl _)]
  simp only [Out.bind_ok, takeDiff, if_true, h.diff.1]
  rw [loadUnknowns_append (U0 ++ U1 ++ U2) U3 _ _ hs0123 (fun p hp => (hm3 p hp).2.1)
    (fun p hp => (hm3 p hp).1) (fun p hp => hnorm p (hm3 p hp).2.2)
    (by intro e r he; rw [hEk e r he]; exact lt_irrefl _)]
  simp only [Out.bind_ok]
  have hcatall : U0 ++ U1 ++ U2 ++ U3 = u := by rw [hall]; simp
  have hfin : verifySig env trust bs E =
      .ok (if env.verifier.isSome || trust then sig else none) := hvs
  rw [hfin]
  simp only [Out.bind_ok, Msg.reparsed, hcatall]
  rfl

end Verif
