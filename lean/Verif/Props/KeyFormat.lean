import Verif.Props.GroupAuth
import Verif.Props.GroupRekey
import Verif.Props.GroupWitness
import Verif.Props.Exclude
import Verif.Props.Format

/-!
# The documented format of group key messages (C143)

include/session/config/groups/keys.hpp:31-75 describes the format in words.  The first part of this file is
that description as a small specification on bencoded dicts; it does not mention the parser.  The theorem
`keymsg_accepted_iff` says that the messages a device accepts are exactly those, and that it takes from
them what the description says.  Two differences between the words and the code are part of the
specification here: `k` is a list of byte strings, not one packed byte string (`packed_keys_refused`), and a
nonce may have more than 24 bytes, of which the first 24 count.
-/

namespace Verif

variable (P : GPrims)

/-! ## Specification -/

/-- The key that members use to read: the hash of `bA' || A' || B` (keys.hpp:70-73). -/
def ReaderKey (e : GEnv) (gx K : Bytes) : Prop :=
  ∃ ux s, P.xpk (P.edPub e.userSk) = some ux ∧ P.dh (P.xsk e.userSk) gx = some s ∧
    K = P.hash kMember (s ++ gx ++ ux)

/-- A ciphertext of the message opens to `m` with the key `K`. -/
def Unseals (K nonce c m : Bytes) : Prop := 16 ≤ c.length ∧ P.aeadOpen K (nonce.take 24) c = some m

/-- `m` is what the first of the ciphertexts that opens at all opens to. -/
def FirstOf (K nonce : Bytes) (cts : List Bytes) (m : Bytes) : Prop :=
  ∃ bef c aft, cts = bef ++ c :: aft ∧ Unseals P K nonce c m ∧ ∀ b ∈ bef, ∀ x, ¬Unseals P K nonce b x

/-- None of the ciphertexts opens. -/
def NoneOf (K nonce : Bytes) (cts : List Bytes) : Prop := ∀ c ∈ cts, ∀ x, ¬Unseals P K nonce c x

/-- The entries of a decrypted supplement (keys.hpp:49-54): a generation, a key of 32 bytes and a time. -/
def IsKeyRow (b : Bt) (k : KeyInfo) : Prop :=
  ∃ d, b = .dict d ∧ ([103], .int k.gen) ∈ d ∧ int64Ok k.gen = true ∧ ([107], .str k.key) ∈ d ∧
    k.key.length = 32 ∧ ([116], .int k.ts) ∈ d ∧ tsOk k.ts = true

/-- What both kinds of key message have (keys.hpp:38-39 and 58-64): a nonce, and as the last entry the group's signature of all
bytes before it. -/
structure KeyFrame (e : GEnv) (D : BtDict) (gx nonce : Bytes) : Prop where
  group : P.xpk e.groupPk = some gx
  hasNonce : ([35], .str nonce) ∈ D
  nlen : 24 ≤ nonce.length
  signed : ∃ body sig, D = body ++ [([126], .str sig)] ∧ sig.length = 64 ∧
    P.verify e.groupPk (100 :: encD body) sig = true

/-- The entries of a supplemental message (keys.hpp:48-56). -/
structure SuppFields (D : BtDict) (cts : List Bytes) (gen : Int) : Prop where
  plus : ([43], .list (cts.map .str)) ∈ D
  long : ∀ c ∈ cts, 68 ≤ c.length
  hasGen : ([71], .int gen) ∈ D
  gen64 : int64Ok gen = true

/-- The entries of a full message (keys.hpp:41-46 and 67-68), received with the timestamp `ts`. -/
structure FullFields (D : BtDict) (adminCt : Bytes) (cts : List Bytes) (gen ts : Int) : Prop where
  noPlus : ∀ v, ([43], v) ∉ D
  time : tsOk ts = true
  hasGen : ([71], .int gen) ∈ D
  gen64 : int64Ok gen = true
  gen0 : 0 ≤ gen
  admin : ([75], .str adminCt) ∈ D
  alen : adminCt.length = 48
  list : ([107], .list (cts.map .str)) ∈ D
  lens : ∀ c ∈ cts, c.length = 48
  count : cts.length % 75 = 0

/-- The key messages, and what they bring to the device with the keys `e`: keys, or the generation that they belong to. -/
inductive KeyMessage (e : GEnv) (D : BtDict) (ts : Int) : Found → Prop
  /-- Supplements have nothing for admins. -/
  | suppAdmin {gx nonce cts gen sk} : KeyFrame P e D gx nonce → SuppFields D cts gen → e.groupSk = some sk →
      KeyMessage e D ts ⟨[], some gen⟩
  | suppMember {gx nonce cts gen K rows ks} : KeyFrame P e D gx nonce → SuppFields D cts gen →
      e.groupSk = none → ReaderKey P e gx K → FirstOf P K nonce cts (encV (.list rows)) →
      Bt.okL rows = true → List.Forall₂ IsKeyRow rows ks → KeyMessage e D ts ⟨ks, some gen⟩
  | suppOther {gx nonce cts gen K} : KeyFrame P e D gx nonce → SuppFields D cts gen → e.groupSk = none →
      ReaderKey P e gx K → NoneOf P K nonce cts → KeyMessage e D ts ⟨[], some gen⟩
  | fullAdmin {gx nonce act cts gen sk key} : KeyFrame P e D gx nonce → FullFields D act cts gen ts →
      e.groupSk = some sk → Unseals P (P.hashN 32 kAdmin (sk.take 32)) nonce act key →
      KeyMessage e D ts ⟨[⟨gen, ts, key⟩], none⟩
  | fullMember {gx nonce act cts gen K key} : KeyFrame P e D gx nonce → FullFields D act cts gen ts →
      e.groupSk = none → ReaderKey P e gx K → FirstOf P K nonce cts key →
      KeyMessage e D ts ⟨[⟨gen, ts, key⟩], none⟩
  | fullOther {gx nonce act cts gen K} : KeyFrame P e D gx nonce → FullFields D act cts gen ts →
      e.groupSk = none → ReaderKey P e gx K → NoneOf P K nonce cts → KeyMessage e D ts ⟨[], some gen⟩

/-- A decrypted supplement that is bencoded, with sorted dicts. -/
def TidyPlain (m : Bytes) : Prop :=
  ∃ b : Bt, m = encV b ∧ b.ok = true ∧ ∀ rows d, b = .list rows → Bt.dict d ∈ rows → KSorted d

/-! ## Reading sorted dicts -/

/-- The entries after the key `k`. -/
def aft (k : Bytes) (X : BtDict) : BtDict := X.filter fun p => k < p.1

theorem aft_sorted {k : Bytes} {X : BtDict} (h : KSorted X) : KSorted (aft k X) := List.Pairwise.filter _ h

theorem okD_mem {X : BtDict} (h : Bt.okD X = true) : ∀ p ∈ X, p.2.ok = true := by
  induction X with
  | nil => intro p hp; cases hp
  | cons a t ih =>
    obtain ⟨k, v⟩ := a
    simp only [Bt.okD, Bool.and_eq_true] at h
    intro p hp
    rcases List.mem_cons.1 hp with rfl | hp
    · exact h.1
    · exact ih h.2 p hp

theorem okD_filter {X : BtDict} (f : Bytes × Bt → Bool) (h : Bt.okD X = true) : Bt.okD (X.filter f) = true := by
  induction X with
  | nil => rfl
  | cons a t ih =>
    obtain ⟨k, v⟩ := a
    simp only [Bt.okD, Bool.and_eq_true] at h
    rw [List.filter_cons]
    split
    · simp only [Bt.okD, Bool.and_eq_true]; exact ⟨h.1, ih h.2⟩
    · exact ih h.2

theorem mget_aft {k k' : Bytes} {X : BtDict} (h : KSorted X) (hk : k < k') : mget k' (aft k X) = mget k' X := by
  have : ∀ v, mget k' (aft k X) = some v ↔ mget k' X = some v := by
    intro v
    rw [mget_iff_mem (aft_sorted h), mget_iff_mem h]
    unfold aft
    rw [List.mem_filter]
    simp [hk]
  cases h1 : mget k' X with
  | some v => exact (this v).2 h1
  | none =>
    cases h2 : mget k' (aft k X) with
    | none => rfl
    | some v => rw [(this v).1 h2] at h1; cases h1

theorem aft_all {k : Bytes} {X : BtDict} (h : ∀ p ∈ X, k < p.1) : aft k X = X :=
  List.filter_eq_self.2 fun p hp => by simp [h p hp]

theorem aft_aft {j k : Bytes} {X : BtDict} (hk : j < k) : aft k (aft j X) = aft k X := by
  unfold aft
  rw [List.filter_filter]
  refine List.filter_congr fun p _ => ?_
  by_cases h : k < p.1
  · simp [h, lt_trans hk h]
  · simp [h]

theorem seek_enc {k R : Bytes} : ∀ {X : BtDict} {n : Nat}, KSorted X → Bt.okD X = true → (encD X).length < n →
    seekKey n k (encD X ++ 101 :: R) = match mget k X with
      | some v => some (true, encV v ++ (encD (aft k X) ++ 101 :: R))
      | none => some (false, encD (aft k X) ++ 101 :: R)
  | [], n, _, _, hn => by
    obtain ⟨m, rfl⟩ : ∃ m, n = m + 1 := ⟨n - 1, by omega⟩
    simp only [encD, List.nil_append]
    rw [seekKey_end]; rfl
  | (a, v) :: t, n, hs, hok, hn => by
    obtain ⟨m, rfl⟩ : ∃ m, n = m + 1 := ⟨n - 1, by omega⟩
    simp only [Bt.okD, Bool.and_eq_true] at hok
    have hl := encStr_length_pos a
    simp only [encD, List.length_append] at hn
    have he : encD ((a, v) :: t) ++ 101 :: R = encStr a ++ (encV v ++ (encD t ++ 101 :: R)) := by
      simp only [encD, List.append_assoc]
    rw [he]
    rcases lt_trichotomy a k with h | h | h
    · rw [seekKey_skip _ h hok.1, seek_enc hs.tail hok.2 (by omega)]
      have h1 : mget k ((a, v) :: t) = mget k t := by simp [mget, ne_of_gt h]
      have h2 : aft k ((a, v) :: t) = aft k t := by simp [aft, not_lt_of_gt h]
      rw [h1, h2]
    · subst h
      rw [seekKey_hit]
      have h1 : mget a ((a, v) :: t) = some v := by simp [mget]
      have h2 : aft a ((a, v) :: t) = t := by
        unfold aft
        rw [List.filter_cons_of_neg (by simp)]
        exact aft_all hs.head
      rw [h1, h2]
    · rw [seekKey_pass _ h]
      have hall : ∀ p ∈ (a, v) :: t, k < p.1 := by
        intro p hp
        rcases List.mem_cons.1 hp with rfl | hp
        · exact h
        · exact lt_trans h (hs.head p hp)
      rw [mget_none_of_lt hall, aft_all hall, ← he]

theorem require_enc {k R : Bytes} {X : BtDict} (hs : KSorted X) (hok : Bt.okD X = true) :
    requireKey k (encD X ++ 101 :: R) = (mget k X).map fun v => encV v ++ (encD (aft k X) ++ 101 :: R) := by
  unfold requireKey
  rw [seek_enc hs hok (by simp)]
  cases mget k X <;> rfl

theorem seekAt_enc {k R : Bytes} : ∀ {X : BtDict} {n : Nat}, KSorted X → Bt.okD X = true → (encD X).length < n →
    seekAt n k (encD X ++ 101 :: R) = some ((mget k X).isSome, encD (X.filter fun p => k ≤ p.1) ++ 101 :: R)
  | [], n, _, _, hn => by
    obtain ⟨m, rfl⟩ : ∃ m, n = m + 1 := ⟨n - 1, by omega⟩
    simp [encD, seekAt, mget]
  | (a, v) :: t, n, hs, hok, hn => by
    obtain ⟨m, rfl⟩ : ∃ m, n = m + 1 := ⟨n - 1, by omega⟩
    simp only [Bt.okD, Bool.and_eq_true] at hok
    have hl := encStr_length_pos a
    simp only [encD, List.length_append] at hn
    have he : encD ((a, v) :: t) ++ 101 :: R = encStr a ++ (encV v ++ (encD t ++ 101 :: R)) := by
      simp only [encD, List.append_assoc]
    obtain ⟨d, u, hd, ht⟩ := encStr_head a
    have h0 := decStr_encStr a (encV v ++ (encD t ++ 101 :: R))
    have hstep : seekAt (m + 1) k (encStr a ++ (encV v ++ (encD t ++ 101 :: R))) =
        if a < k then seekAt m k (encD t ++ 101 :: R)
        else some (decide (a = k), encStr a ++ (encV v ++ (encD t ++ 101 :: R))) := by
      have h1 := decV_encV v (encV v ++ (encD t ++ 101 :: R)).length (encD t ++ 101 :: R) hok.1 (by simp)
      rw [ht] at h0 ⊢
      rw [List.cons_append] at h0 ⊢
      simp only [seekAt]
      rw [if_neg (digit_ne hd (by decide)), h0]
      dsimp only
      rw [h1]
    rw [he, hstep]
    by_cases h : a < k
    · rw [if_pos h, seekAt_enc hs.tail hok.2 (by omega)]
      have h1 : mget k ((a, v) :: t) = mget k t := by simp [mget, ne_of_gt h]
      rw [h1, List.filter_cons_of_neg (by simpa using h)]
    · rw [if_neg h]
      have hall : ∀ p ∈ (a, v) :: t, k ≤ p.1 := by
        intro p hp
        rcases List.mem_cons.1 hp with rfl | hp
        · exact not_lt.1 h
        · exact le_of_lt (lt_of_le_of_lt (not_lt.1 h) (hs.head p hp))
      rw [List.filter_eq_self.2 (fun p hp => by simpa using hall p hp), ← he]
      congr 2
      by_cases hk : a = k
      · subst hk; simp [mget]
      · have : mget k ((a, v) :: t) = none := by
          apply mget_none_of_lt
          intro p hp
          rcases List.mem_cons.1 hp with rfl | hp
          · exact lt_of_le_of_ne (not_lt.1 h) (Ne.symm hk)
          · exact lt_of_le_of_lt (not_lt.1 h) (hs.head p hp)
        rw [this]; simp [hk]

/-! ### Values -/

theorem encV_takeStr {v : Bt} (R : Bytes) : takeStr (encV v ++ R) = match v with
    | .str s => some (s, R)
    | _ => none := by
  cases v with
  | str s => exact takeStr_enc s R
  | int i => simp [takeStr, encV, decStr, isDigit]
  | list l => simp [takeStr, encV, decStr, isDigit]
  | dict d => simp [takeStr, encV, decStr, isDigit]

theorem encV_takeInt {v : Bt} (R : Bytes) (hv : v.ok = true) : takeInt (encV v ++ R) = match v with
    | .int i => if int64Ok i then some (i, R) else none
    | _ => none := by
  unfold takeInt
  rw [takeVal_enc R hv]
  cases v <;> rfl

theorem encV_takeList {v : Bt} (R : Bytes) (hv : v.ok = true) : takeList (encV v ++ R) = match v with
    | .list l => some (l, R)
    | _ => none := by
  unfold takeList
  rw [takeVal_enc R hv]
  cases v <;> rfl

theorem allStrs_some {l : List Bt} {cts : List Bytes} (h : allStrs l = some cts) : l = cts.map .str := by
  induction l generalizing cts with
  | nil => cases h; rfl
  | cons a t ih =>
    cases a with
    | str s =>
      simp only [allStrs, Option.map_eq_some_iff] at h
      obtain ⟨u, h1, rfl⟩ := h
      rw [ih h1]; rfl
    | int i => cases h
    | list l => cases h
    | dict d => cases h

variable {P}

/-! ### The signature -/

theorem checkSig_enc {e : GEnv} {D : BtDict} (hs : KSorted D) (hok : Bt.okD D = true) {j : Bytes} (hj : j < [126]) :
    checkSig P e (100 :: (encD D ++ [101])) (encD (aft j D) ++ [101]) = .ok () ↔
      ∃ body sig, D = body ++ [([126], .str sig)] ∧ sig.length = 64 ∧
        P.verify e.groupPk (100 :: encD body) sig = true := by
  have hs' := aft_sorted (k := j) hs
  have hok' : Bt.okD (aft j D) = true := okD_filter _ hok
  unfold checkSig
  rw [seekAt_enc hs' hok' (by simp), mget_aft hs hj]
  have hF : (aft j D).filter (fun p => ([126] : Bytes) ≤ p.1) = D.filter fun p => ([126] : Bytes) ≤ p.1 := by
    unfold aft
    rw [List.filter_filter]
    refine List.filter_congr fun p _ => ?_
    by_cases h : ([126] : Bytes) ≤ p.1
    · simp [h, lt_of_lt_of_le hj h]
    · simp [h]
  rw [hF]
  obtain ⟨A, B, hAB, hA, hB⟩ := cut_lt hs [126]
  have hFB : D.filter (fun p => ([126] : Bytes) ≤ p.1) = B := by
    rw [hAB, List.filter_append, List.filter_eq_nil_iff.2 (fun p hp => by simpa using hA p hp),
      List.filter_eq_self.2 (fun p hp => by simpa using hB p hp)]; rfl
  rw [hFB]
  have hnone : mget [126] D = none → ¬∃ body sig, D = body ++ [([126], .str sig)] ∧ sig.length = 64 ∧
        P.verify e.groupPk (100 :: encD body) sig = true := by
    rintro h ⟨body, sig, rfl, _⟩
    rw [mget_of_mem hs (v := .str sig) (by simp)] at h; cases h
  cases hg : mget [126] D with
  | none => simp only [Option.isSome_none]; exact ⟨fun h => (by cases h), fun h => absurd h (hnone hg)⟩
  | some v =>
    simp only [Option.isSome_some]
    have hBs : KSorted B := by rw [hAB] at hs; exact (List.pairwise_append.1 hs).2.1
    have hBok : Bt.okD B = true := by rw [hAB, okD_append] at hok; simp only [Bool.and_eq_true] at hok; exact hok.2
    obtain ⟨T, hT⟩ : ∃ T, B = ([126], v) :: T := by
      have hm := mem_of_mget hg
      rw [hAB] at hm
      rcases List.mem_append.1 hm with hm | hm
      · exact absurd (hA _ hm) (lt_irrefl _)
      · cases B with
        | nil => cases hm
        | cons b T =>
          rcases List.mem_cons.1 hm with rfl | hm'
          · exact ⟨T, rfl⟩
          · exact absurd (hBs.head _ hm') (not_lt.2 (hB b (List.mem_cons_self ..)))
    subst hT
    simp only [Bt.okD, Bool.and_eq_true] at hBok
    have he : encD (([126], v) :: T) ++ [101] = encStr [126] ++ (encV v ++ (encD T ++ [101])) := by
      simp only [encD, List.append_assoc]
    have htake : (100 :: (encD D ++ [101])).take ((100 :: (encD D ++ [101])).length -
        (encD (([126], v) :: T) ++ [101]).length) = 100 :: encD A := by
      rw [hAB, encD_append]
      have : (100 :: (encD A ++ encD (([126], v) :: T) ++ [101]) : Bytes) =
          (100 :: encD A) ++ (encD (([126], v) :: T) ++ [101]) := by simp
      rw [this, List.length_append, Nat.add_sub_cancel, List.take_left]
    rw [htake, he, decStr_encStr]
    dsimp only
    rw [encV_takeStr]
    have hsplit : ∀ {body : BtDict} {sig : Bytes}, D = body ++ [([126], .str sig)] →
        body = A ∧ v = .str sig ∧ T = [] := by
      intro body sig hD
      have hb : ∀ p ∈ body, p.1 < ([126] : Bytes) := by
        intro p hp
        rw [hD] at hs
        exact (List.pairwise_append.1 hs).2.2 p hp ([126], .str sig) (by simp)
      have h1 : D.filter (fun p => ([126] : Bytes) ≤ p.1) = [([126], .str sig)] := by
        rw [hD, List.filter_append, List.filter_eq_nil_iff.2 (fun p hp => by simpa using hb p hp)]
        simp
      rw [hFB] at h1
      simp only [List.cons.injEq, Prod.mk.injEq, true_and] at h1
      obtain ⟨h2, h3⟩ := h1
      subst h2; subst h3
      rw [hAB] at hD
      exact ⟨(List.append_cancel_right hD).symm, rfl, rfl⟩
    cases v with
    | str sig =>
      dsimp only
      by_cases hl : sig.length = 64
      · rw [if_neg (not_not.2 hl)]
        cases hv : P.verify e.groupPk (100 :: encD A) sig with
        | false =>
          rw [if_pos rfl]
          refine ⟨fun h => (by cases h), ?_⟩
          rintro ⟨body, sig', hD, _, hv'⟩
          obtain ⟨rfl, h2, _⟩ := hsplit hD
          cases h2
          rw [hv] at hv'; cases hv'
        | true =>
          rw [if_neg (by simp)]
          cases T with
          | nil =>
            simp only [encD, List.nil_append]
            exact ⟨fun _ => ⟨A, sig, hAB, hl, hv⟩, fun _ => by simp⟩
          | cons q T =>
            obtain ⟨k, w⟩ := q
            obtain ⟨d, u, hd, ht⟩ := encStr_head k
            have hne : digit d ≠ 101 := digit_ne hd (by decide)
            have : encD ((k, w) :: T) ++ [101] = digit d :: (u ++ (encV w ++ (encD T ++ [101]))) := by
              simp only [encD, ht, List.cons_append, List.append_assoc]
            rw [this]
            refine ⟨fun h => ?_, ?_⟩
            · split at h
              · rename_i heq
                simp only [List.cons.injEq] at heq
                exact absurd heq.1 hne
              · cases h
            · rintro ⟨body, sig', hD, _⟩
              cases (hsplit hD).2.2
      · rw [if_pos (by simpa using hl)]
        refine ⟨fun h => (by cases h), ?_⟩
        rintro ⟨body, sig', hD, hl', _⟩
        obtain ⟨_, h2, _⟩ := hsplit hD
        cases h2
        exact absurd hl' hl
    | int i => exact ⟨fun h => (by cases h), fun ⟨_, _, hD, _⟩ => by cases (hsplit hD).2.1⟩
    | list l => exact ⟨fun h => (by cases h), fun ⟨_, _, hD, _⟩ => by cases (hsplit hD).2.1⟩
    | dict d => exact ⟨fun h => (by cases h), fun ⟨_, _, hD, _⟩ => by cases (hsplit hD).2.1⟩

/-! ### Ciphertexts -/

theorem multiOpen_iff {K nonce c m : Bytes} : multiOpen P.toMPrims K nonce c = some m ↔ Unseals P K nonce c m := by
  unfold multiOpen Unseals
  split
  · rename_i h
    exact ⟨fun h => (by cases h), fun ⟨h1, _⟩ => by omega⟩
  · rename_i h
    exact ⟨fun h' => ⟨by omega, h'⟩, fun h' => h'.2⟩

theorem multiOpen_none {K nonce c : Bytes} : multiOpen P.toMPrims K nonce c = none ↔ ∀ x, ¬Unseals P K nonce c x := by
  rw [Option.eq_none_iff_forall_ne_some]
  exact forall_congr' fun x => not_congr multiOpen_iff

theorem firstOpen_iff {K nonce : Bytes} : ∀ {cts : List Bytes} {m : Bytes},
    firstOpen P.toMPrims K nonce cts = some m ↔ FirstOf P K nonce cts m := by
  intro cts m
  constructor
  · induction cts with
    | nil => intro h; cases h
    | cons c t ih =>
      intro h
      simp only [firstOpen] at h
      cases ho : multiOpen P.toMPrims K nonce c with
      | some x =>
        rw [ho] at h; cases h
        exact ⟨[], c, t, rfl, multiOpen_iff.1 ho, by simp⟩
      | none =>
        rw [ho] at h
        obtain ⟨b, c', a, h1, h2, h3⟩ := ih h
        refine ⟨c :: b, c', a, by rw [h1]; rfl, h2, ?_⟩
        intro x hx
        rcases List.mem_cons.1 hx with rfl | hx
        · exact multiOpen_none.1 ho
        · exact h3 x hx
  · rintro ⟨b, c, a, rfl, h2, h3⟩
    induction b with
    | nil => simp only [List.nil_append, firstOpen, multiOpen_iff.2 h2]
    | cons x t ih =>
      simp only [List.cons_append, firstOpen, multiOpen_none.2 (h3 x (by simp))]
      exact ih fun y hy => h3 y (List.mem_cons_of_mem _ hy)

theorem firstOpen_none_iff {K nonce : Bytes} {cts : List Bytes} :
    firstOpen P.toMPrims K nonce cts = none ↔ NoneOf P K nonce cts := by
  constructor
  · intro h
    induction cts with
    | nil => intro c hc; cases hc
    | cons c t ih =>
      simp only [firstOpen] at h
      cases ho : multiOpen P.toMPrims K nonce c with
      | some x => rw [ho] at h; cases h
      | none =>
        rw [ho] at h
        intro y hy
        rcases List.mem_cons.1 hy with rfl | hy
        · exact multiOpen_none.1 ho
        · exact ih h y hy
  · intro h
    exact firstOpen_none fun c hc => multiOpen_none.2 (h c hc)

theorem memberKey_iff {e : GEnv} {gx K : Bytes} : memberKey P e gx = some K ↔ ReaderKey P e gx K := by
  unfold memberKey ReaderKey
  cases hx : P.xpk (P.edPub e.userSk) with
  | none => simp
  | some ux =>
    have hkm : kMember.take 64 = kMember := by decide +kernel
    dsimp only
    unfold multiKey
    cases hd : P.dh (P.xsk e.userSk) gx with
    | none => simp
    | some s =>
      simp only [Bool.false_eq_true, if_false, hkm, Option.some.injEq]
      constructor
      · rintro rfl; exact ⟨ux, s, rfl, rfl, rfl⟩
      · rintro ⟨_, _, rfl, rfl, h⟩; exact h.symm

/-! ### Decrypted supplements -/

theorem dSeek_sorted {k : Bytes} {d : BtDict} (h : KSorted d) :
    dSeek k d = (mget k d).map fun v => (v, aft k d) := by
  unfold dSeek
  induction d with
  | nil => rfl
  | cons a t ih =>
    obtain ⟨a, v⟩ := a
    rcases lt_trichotomy a k with hk | hk | hk
    · rw [List.dropWhile_cons_of_pos (by simpa using hk), ih h.tail]
      have h1 : mget k ((a, v) :: t) = mget k t := by simp [mget, ne_of_gt hk]
      have h2 : aft k ((a, v) :: t) = aft k t := by simp [aft, not_lt_of_gt hk]
      rw [h1, h2]
    · subst hk
      rw [List.dropWhile_cons_of_neg (by simp)]
      have h2 : aft a ((a, v) :: t) = t := by
        unfold aft
        rw [List.filter_cons_of_neg (by simp)]
        exact aft_all h.head
      simp [mget, h2]
    · rw [List.dropWhile_cons_of_neg (by simpa using le_of_lt hk)]
      have hall : ∀ p ∈ (a, v) :: t, k < p.1 := by
        intro p hp
        rcases List.mem_cons.1 hp with rfl | hp
        · exact hk
        · exact lt_trans hk (h.head p hp)
      rw [mget_none_of_lt hall]
      simp [ne_of_gt hk]

theorem decKeyInfo_iff {b : Bt} (hb : ∀ d, b = .dict d → KSorted d) {k : KeyInfo} :
    decKeyInfo b = .ok k ↔ IsKeyRow b k := by
  cases b with
  | dict d =>
    have h := hb d rfl
    have h1 := aft_sorted (k := [103]) h
    have h2 := aft_sorted (k := [107]) h1
    have e1 : ([103] : Bytes) < [107] := by decide
    have e2 : ([103] : Bytes) < [116] := by decide
    have e3 : ([107] : Bytes) < [116] := by decide
    constructor
    · intro hd
      unfold decKeyInfo at hd
      split at hd
      · rename_i d' heq
        cases heq
        split at hd
        · cases hd
        · rename_i g d1 hg
          split at hd
          · cases hd
          · rename_i key d2 hkey
            split at hd
            · cases hd
            · rename_i hlen
              split at hd
              · cases hd
              · rename_i t d3 ht
                split at hd
                · rename_i htok
                  cases hd
                  unfold dInt at hg ht
                  unfold dStr at hkey
                  rw [dSeek_sorted h] at hg
                  cases hm1 : mget [103] d with
                  | none => rw [hm1] at hg; cases hg
                  | some v1 =>
                    rw [hm1] at hg
                    cases v1 with
                    | int i =>
                      simp only [Option.map_some] at hg
                      split at hg
                      · rename_i hi
                        simp only [Option.some.injEq, Prod.mk.injEq] at hg
                        obtain ⟨rfl, rfl⟩ := hg
                        rw [dSeek_sorted h1, mget_aft h e1] at hkey
                        cases hm2 : mget [107] d with
                        | none => rw [hm2] at hkey; cases hkey
                        | some v2 =>
                          rw [hm2] at hkey
                          cases v2 with
                          | str s =>
                            simp only [Option.map_some, Option.some.injEq, Prod.mk.injEq] at hkey
                            obtain ⟨rfl, rfl⟩ := hkey
                            rw [dSeek_sorted h2, mget_aft h1 e3, mget_aft h e2] at ht
                            cases hm3 : mget [116] d with
                            | none => rw [hm3] at ht; cases ht
                            | some v3 =>
                              rw [hm3] at ht
                              cases v3 with
                              | int j =>
                                simp only [Option.map_some] at ht
                                split at ht
                                · simp only [Option.some.injEq, Prod.mk.injEq] at ht
                                  obtain ⟨rfl, rfl⟩ := ht
                                  exact ⟨d, rfl, mem_of_mget hm1, hi, mem_of_mget hm2, not_not.1 hlen,
                                    mem_of_mget hm3, htok⟩
                                · cases ht
                              | str s => cases ht
                              | list s => cases ht
                              | dict s => cases ht
                          | int s => cases hkey
                          | list s => cases hkey
                          | dict s => cases hkey
                      · cases hg
                    | str s => cases hg
                    | list s => cases hg
                    | dict s => cases hg
                · cases hd
      · rename_i hno
        exact absurd rfl (hno d)
    · rintro ⟨d', heq, a1, a2, a3, a4, a5, a6⟩
      cases heq
      have b1 : dInt [103] d = some (k.gen, aft [103] d) := by
        unfold dInt; rw [dSeek_sorted h, mget_of_mem h a1]; simp [a2]
      have b2 : dStr [107] (aft [103] d) = some (k.key, aft [107] (aft [103] d)) := by
        unfold dStr; rw [dSeek_sorted h1, mget_aft h e1, mget_of_mem h a3]; rfl
      have b3 : dInt [116] (aft [107] (aft [103] d)) = some (k.ts, aft [116] (aft [107] (aft [103] d))) := by
        unfold dInt; rw [dSeek_sorted h2, mget_aft h1 e3, mget_aft h e2, mget_of_mem h a5]
        simp [tsOk_int64 a6]
      unfold decKeyInfo
      simp only [b1, b2, b3, a4, a6]
      simp
  | int i => exact ⟨fun h => (by cases h), fun ⟨_, h, _⟩ => by cases h⟩
  | str i => exact ⟨fun h => (by cases h), fun ⟨_, h, _⟩ => by cases h⟩
  | list i => exact ⟨fun h => (by cases h), fun ⟨_, h, _⟩ => by cases h⟩

theorem decKeyInfos_iff : ∀ {l : List Bt}, (∀ d, Bt.dict d ∈ l → KSorted d) → ∀ {ks : List KeyInfo},
    decKeyInfos l = .ok ks ↔ List.Forall₂ IsKeyRow l ks
  | [], _, ks => by
    constructor
    · intro h; cases h; exact .nil
    · intro h; cases h; rfl
  | b :: t, hl, ks => by
    have hb : ∀ {k : KeyInfo}, decKeyInfo b = .ok k ↔ IsKeyRow b k := decKeyInfo_iff (b := b) (fun d hd => hl d (by rw [hd]; simp))
    have ht : ∀ {ks : List KeyInfo}, decKeyInfos t = .ok ks ↔ List.Forall₂ IsKeyRow t ks := decKeyInfos_iff (l := t) fun d hd => hl d (List.mem_cons_of_mem _ hd)
    simp only [decKeyInfos]
    rw [Out.bind_eq_ok]
    constructor
    · rintro ⟨k, h1, h2⟩
      obtain ⟨ks', h3, h4⟩ := Out.bind_eq_ok.1 h2
      cases h4
      exact .cons (hb.1 h1) (ht.1 h3)
    · intro h
      cases h with
      | cons h1 h2 => exact ⟨_, hb.2 h1, Out.bind_eq_ok.2 ⟨_, ht.2 h2, rfl⟩⟩

theorem encV_eq {a b : Bt} (ha : a.ok = true) (hb : b.ok = true) (h : encV a = encV b) : a = b := by
  have h1 := decV_encV a (encV a).length [] ha le_rfl
  have h2 := decV_encV b (encV b).length [] hb le_rfl
  rw [h, h2] at h1
  cases h1; rfl

theorem readSupp_iff {m : Bytes} (hm : TidyPlain m) {ks : List KeyInfo} :
    readSupp m = .ok ks ↔ ∃ rows, m = encV (.list rows) ∧ Bt.okL rows = true ∧ List.Forall₂ IsKeyRow rows ks := by
  obtain ⟨b, rfl, hb, hs⟩ := hm
  have key : ∀ {b : Bt}, b.ok = true → readSupp (encV b) = match b with
      | .list rows => decKeyInfos rows
      | _ => .err .foreign := by
    intro b hb
    cases b with
    | list rows =>
      have e : encV (.list rows) = 108 :: (encL rows ++ [101]) := by simp [encV]
      have hd := decL_encL rows (108 :: (encL rows ++ [101])).length [] (by simpa [Bt.ok] using hb) (by simp)
      rw [e]
      unfold readSupp
      simp only [hd]
    | int i => simp [encV, readSupp]
    | dict d => simp [encV, readSupp]
    | str s =>
      obtain ⟨d, u, hd, ht⟩ := encStr_head s
      have hne : digit d ≠ 108 := digit_ne hd (by decide)
      simp only [encV]
      rw [ht]
      unfold readSupp
      split
      · rename_i heq
        simp only [List.cons.injEq] at heq
        exact absurd heq.1 hne
      · rfl
  rw [key hb]
  constructor
  · intro h
    cases b with
    | list rows => exact ⟨rows, rfl, by simpa [Bt.ok] using hb, (decKeyInfos_iff (hs rows · rfl)).1 h⟩
    | int i => cases h
    | str i => cases h
    | dict i => cases h
  · rintro ⟨rows, h1, h2, h3⟩
    have := encV_eq hb (by simpa [Bt.ok] using h2) h1
    subst this
    exact (decKeyInfos_iff (hs rows · rfl)).2 h3

/-! ### The two kinds of message -/

theorem parseSupp_enc {e : GEnv} {gx nonce : Bytes} {D : BtDict} (hs : KSorted D) (hok : Bt.okD D = true)
    {v : Bt} (hv : mget [43] D = some v) {f : Found} {r : Bytes} :
    parseSupp P e gx nonce (encV v ++ (encD (aft [43] D) ++ [101])) = .ok (f, r) ↔
      ∃ cts ks gen, v = .list (cts.map .str) ∧ loadSupp P e gx nonce cts = .ok ks ∧
        mget [71] D = some (.int gen) ∧ int64Ok gen = true ∧ f = ⟨ks, some gen⟩ ∧
        r = encD (aft [71] D) ++ [101] := by
  have hvok := okD_mem hok _ (mem_of_mget hv)
  have e1 : ([43] : Bytes) < [71] := by decide
  have hreq : requireKey [71] (encD (aft [43] D) ++ [101]) =
      (mget [71] D).map fun w => encV w ++ (encD (aft [71] D) ++ [101]) := by
    rw [require_enc (aft_sorted hs) (okD_filter _ hok), mget_aft hs e1, aft_aft e1]
  unfold parseSupp
  rw [encV_takeList _ hvok]
  constructor
  · intro h
    cases v with
    | list l =>
      dsimp only at h
      split at h
      · cases h
      · rename_i cts hc
        obtain ⟨ks, h1, h⟩ := Out.bind_eq_ok.1 h
        rw [hreq] at h
        cases hm : mget [71] D with
        | none => rw [hm] at h; cases h
        | some w =>
          rw [hm] at h
          simp only [Option.map_some] at h
          rw [encV_takeInt _ (okD_mem hok _ (mem_of_mget hm))] at h
          cases w with
          | int g =>
            by_cases hg : int64Ok g = true
            · simp only [hg, if_true] at h
              cases h
              exact ⟨cts, ks, g, by rw [allStrs_some hc], h1, rfl, hg, rfl, rfl⟩
            · simp only [hg] at h; cases h
          | str s => cases h
          | list s => cases h
          | dict s => cases h
    | int i => cases h
    | str i => cases h
    | dict i => cases h
  · rintro ⟨cts, ks, gen, rfl, h1, h2, h3, rfl, rfl⟩
    dsimp only
    rw [allStrs_map]
    dsimp only
    rw [h1, Out.bind_ok, hreq, h2]
    simp only [Option.map_some]
    rw [encV_takeInt _ (okD_mem hok _ (mem_of_mget h2))]
    simp only [h3, if_true]

theorem parseFull_enc {e : GEnv} {gx nonce : Bytes} {D : BtDict} (hs : KSorted D) (hok : Bt.okD D = true)
    {ts : Int} {f : Found} {r : Bytes} :
    parseFull P e gx nonce ts (encD (aft [43] D) ++ [101]) = .ok (f, r) ↔
      ∃ act cts gen k, tsOk ts = true ∧ mget [71] D = some (.int gen) ∧ int64Ok gen = true ∧ 0 ≤ gen ∧
        mget [75] D = some (.str act) ∧ mget [107] D = some (.list (cts.map .str)) ∧
        loadFull P e gx nonce act cts = .ok k ∧ f = foundOf ts gen k ∧ r = encD (aft [107] D) ++ [101] := by
  have e1 : ([43] : Bytes) < [71] := by decide
  have e2 : ([71] : Bytes) < [75] := by decide
  have e3 : ([75] : Bytes) < [107] := by decide
  have hreq : ∀ {j k : Bytes}, j < k → requireKey k (encD (aft j D) ++ [101]) =
      (mget k D).map fun w => encV w ++ (encD (aft k D) ++ [101]) := by
    intro j k hjk
    rw [require_enc (aft_sorted hs) (okD_filter _ hok), mget_aft hs hjk, aft_aft hjk]
  unfold parseFull
  constructor
  · intro h
    cases hts : tsOk ts with
    | false => rw [if_pos hts] at h; cases h
    | true =>
      rw [if_neg (by rw [hts]; decide), hreq e1] at h
      cases hm1 : mget [71] D with
      | none => rw [hm1] at h; cases h
      | some w1 =>
        rw [hm1] at h
        simp only [Option.map_some] at h
        rw [encV_takeInt _ (okD_mem hok _ (mem_of_mget hm1))] at h
        cases w1 with
        | str s => cases h
        | list s => cases h
        | dict s => cases h
        | int gen =>
          by_cases hg : int64Ok gen = true
          · simp only [hg, if_true] at h
            by_cases hg0 : gen < 0
            · rw [if_pos hg0] at h; cases h
            · rw [if_neg hg0, hreq e2] at h
              cases hm2 : mget [75] D with
              | none => rw [hm2] at h; cases h
              | some w2 =>
                rw [hm2] at h
                simp only [Option.map_some] at h
                rw [encV_takeStr] at h
                cases w2 with
                | int s => cases h
                | list s => cases h
                | dict s => cases h
                | str act =>
                  dsimp only at h
                  rw [hreq e3] at h
                  cases hm3 : mget [107] D with
                  | none => rw [hm3] at h; cases h
                  | some w3 =>
                    rw [hm3] at h
                    simp only [Option.map_some] at h
                    rw [encV_takeList _ (okD_mem hok _ (mem_of_mget hm3))] at h
                    cases w3 with
                    | int s => cases h
                    | str s => cases h
                    | dict s => cases h
                    | list l =>
                      dsimp only at h
                      split at h
                      · cases h
                      · rename_i cts hc
                        obtain ⟨k, h1, h⟩ := Out.bind_eq_ok.1 h
                        cases h
                        exact ⟨act, cts, gen, k, rfl, rfl, hg, by omega, rfl, by rw [allStrs_some hc], h1, rfl, rfl⟩
          · simp only [hg] at h; cases h
  · rintro ⟨act, cts, gen, k, hts, h1, h2, h3, h4, h5, h6, rfl, rfl⟩
    rw [if_neg (by rw [hts]; decide), hreq e1, h1]
    simp only [Option.map_some]
    rw [encV_takeInt _ (okD_mem hok _ (mem_of_mget h1))]
    simp only [h2, if_true]
    rw [if_neg (by omega), hreq e2, h4]
    simp only [Option.map_some]
    rw [encV_takeStr]
    dsimp only
    rw [hreq e3, h5]
    simp only [Option.map_some]
    rw [encV_takeList _ (okD_mem hok _ (mem_of_mget h5))]
    dsimp only
    rw [allStrs_map]
    dsimp only
    rw [h6, Out.bind_ok]

/-- What a message is after its structure has been read. -/
theorem parseKeyMsg_enc {e : GEnv} {D : BtDict} (hs : KSorted D) (hok : Bt.okD D = true) {ts : Int} {f : Found} :
    parseKeyMsg P e (100 :: (encD D ++ [101])) ts = .ok f ↔
      ∃ gx nonce, P.xpk e.groupPk = some gx ∧ ([35], .str nonce) ∈ D ∧
        (∃ body sig, D = body ++ [([126], .str sig)] ∧ sig.length = 64 ∧
          P.verify e.groupPk (100 :: encD body) sig = true) ∧
        ((∃ cts ks gen, ([43], .list (cts.map .str)) ∈ D ∧ loadSupp P e gx nonce cts = .ok ks ∧
          ([71], .int gen) ∈ D ∧ int64Ok gen = true ∧ f = ⟨ks, some gen⟩) ∨
        ((∀ v, ([43], v) ∉ D) ∧ ∃ act cts gen k, tsOk ts = true ∧ ([71], .int gen) ∈ D ∧ int64Ok gen = true ∧
          0 ≤ gen ∧ ([75], .str act) ∈ D ∧ ([107], .list (cts.map .str)) ∈ D ∧
          loadFull P e gx nonce act cts = .ok k ∧ f = foundOf ts gen k)) := by
  have hopen : openDict (100 :: (encD D ++ [101])) = some (encD D ++ [101]) := by
    cases h : encD D <;> rfl
  have e0 : ([35] : Bytes) < [43] := by decide
  have hM : ∀ {k : Bytes} {v : Bt}, mget k D = some v ↔ (k, v) ∈ D := mget_iff_mem hs
  unfold parseKeyMsg
  rw [hopen]
  dsimp only
  cases hx : P.xpk e.groupPk with
  | none =>
    refine ⟨fun h => (by cases h), ?_⟩
    rintro ⟨_, _, h, _⟩; cases h
  | some gx =>
    dsimp only
    rw [require_enc hs hok]
    cases hm0 : mget [35] D with
    | none =>
      refine ⟨fun h => (by cases h), ?_⟩
      rintro ⟨_, _, _, h, _⟩
      rw [hM.2 h] at hm0; cases hm0
    | some w0 =>
      have hw : ∀ nonce, ([35], Bt.str nonce) ∈ D → w0 = .str nonce := by
        intro nonce h
        rw [hM.2 h] at hm0; cases hm0; rfl
      simp only [Option.map_some]
      rw [encV_takeStr]
      cases w0 with
      | int i => exact ⟨fun h => (by cases h), fun ⟨_, _, _, h, _⟩ => by cases hw _ h⟩
      | list i => exact ⟨fun h => (by cases h), fun ⟨_, _, _, h, _⟩ => by cases hw _ h⟩
      | dict i => exact ⟨fun h => (by cases h), fun ⟨_, _, _, h, _⟩ => by cases hw _ h⟩
      | str nonce =>
        dsimp only
        rw [seek_enc (aft_sorted hs) (okD_filter _ hok) (by simp), mget_aft hs e0, aft_aft e0]
        cases hm1 : mget [43] D with
        | some v =>
          dsimp only
          constructor
          · intro h
            obtain ⟨⟨fd, r⟩, h1, h⟩ := Out.bind_eq_ok.1 h
            obtain ⟨⟨⟩, h2, h⟩ := Out.bind_eq_ok.1 h
            cases h
            obtain ⟨cts, ks, gen, rfl, a1, a2, a3, rfl, rfl⟩ := (parseSupp_enc hs hok hm1).1 h1
            exact ⟨gx, nonce, rfl, hM.1 hm0, (checkSig_enc hs hok (by decide)).1 h2,
              .inl ⟨cts, ks, gen, hM.1 hm1, a1, hM.1 a2, a3, rfl⟩⟩
          · rintro ⟨gx', nonce', h1, h2, h3, h4⟩
            cases h1
            cases hw _ h2
            rcases h4 with ⟨cts, ks, gen, a0, a1, a2, a3, rfl⟩ | ⟨h5, _⟩
            · rw [hM.2 a0] at hm1
              cases hm1
              rw [(parseSupp_enc hs hok (hM.2 a0)).2 ⟨cts, ks, gen, rfl, a1, hM.2 a2, a3, rfl, rfl⟩, Out.bind_ok,
                (checkSig_enc hs hok (by decide)).2 h3, Out.bind_ok]
            · exact absurd (hM.1 hm1) (h5 v)
        | none =>
          dsimp only
          have hno : ∀ v, ([43], v) ∉ D := by
            intro v hv
            rw [hM.2 hv] at hm1; cases hm1
          constructor
          · intro h
            obtain ⟨⟨fd, r⟩, h1, h⟩ := Out.bind_eq_ok.1 h
            obtain ⟨⟨⟩, h2, h⟩ := Out.bind_eq_ok.1 h
            cases h
            obtain ⟨act, cts, gen, k, a1, a2, a3, a4, a5, a6, a7, rfl, rfl⟩ := (parseFull_enc hs hok).1 h1
            exact ⟨gx, nonce, rfl, hM.1 hm0, (checkSig_enc hs hok (by decide)).1 h2,
              .inr ⟨hno, act, cts, gen, k, a1, hM.1 a2, a3, a4, hM.1 a5, hM.1 a6, a7, rfl⟩⟩
          · rintro ⟨gx', nonce', h1, h2, h3, h4⟩
            cases h1
            cases hw _ h2
            rcases h4 with ⟨cts, ks, gen, a0, a1, a2, a3, rfl⟩ | ⟨h5, act, cts, gen, k, a1, a2, a3, a4, a5, a6, a7, rfl⟩
            · exact absurd a0 (hno _)
            · rw [(parseFull_enc hs hok).2 ⟨act, cts, gen, k, a1, hM.2 a2, a3, a4, hM.2 a5, hM.2 a6, a7, rfl, rfl⟩,
                Out.bind_ok, (checkSig_enc hs hok (by decide)).2 h3, Out.bind_ok]

theorem loadSupp_iff {e : GEnv} {gx nonce : Bytes} {cts : List Bytes} {ks : List KeyInfo} :
    loadSupp P e gx nonce cts = .ok ks ↔ 24 ≤ nonce.length ∧ (∀ c ∈ cts, 68 ≤ c.length) ∧
      ((∃ sk, e.groupSk = some sk ∧ ks = []) ∨ (e.groupSk = none ∧ ∃ K, ReaderKey P e gx K ∧
        ((NoneOf P K nonce cts ∧ ks = []) ∨ ∃ m, FirstOf P K nonce cts m ∧ readSupp m = .ok ks))) := by
  unfold loadSupp
  by_cases h1 : nonce.length < 24
  · rw [if_pos h1]
    exact ⟨fun h => (by cases h), fun ⟨h, _⟩ => by omega⟩
  · rw [if_neg h1]
    by_cases h2 : cts.any (fun c => decide (c.length < 68)) = true
    · rw [if_pos h2]
      refine ⟨fun h => (by cases h), fun ⟨_, h, _⟩ => ?_⟩
      obtain ⟨c, hc, hl⟩ := List.any_eq_true.1 h2
      have := h c hc
      simp only [decide_eq_true_eq] at hl
      omega
    · rw [if_neg h2]
      have h2' : ∀ c ∈ cts, 68 ≤ c.length := by
        intro c hc
        by_contra hl
        exact h2 (List.any_eq_true.2 ⟨c, hc, by simpa using hl⟩)
      have h1' : 24 ≤ nonce.length := by omega
      cases hsk : e.groupSk with
      | some sk =>
        have : e.admin = true := by simp [GEnv.admin, hsk]
        rw [if_pos this]
        constructor
        · intro h; cases h
          exact ⟨h1', h2', .inl ⟨sk, rfl, rfl⟩⟩
        · rintro ⟨_, _, ⟨_, _, rfl⟩ | ⟨h, _⟩⟩
          · rfl
          · cases h
      | none =>
        have : ¬e.admin = true := by simp [GEnv.admin, hsk]
        rw [if_neg this]
        cases hk : memberKey P e gx with
        | none =>
          refine ⟨fun h => (by cases h), ?_⟩
          rintro ⟨_, _, ⟨_, h, _⟩ | ⟨_, K, hK, _⟩⟩
          · cases h
          · rw [memberKey_iff.2 hK] at hk; cases hk
        | some K =>
          dsimp only
          constructor
          · intro h
            refine ⟨h1', h2', .inr ⟨rfl, K, memberKey_iff.1 hk, ?_⟩⟩
            cases ho : firstOpen P.toMPrims K nonce cts with
            | none => rw [ho] at h; cases h; exact .inl ⟨firstOpen_none_iff.1 ho, rfl⟩
            | some m => rw [ho] at h; exact .inr ⟨m, firstOpen_iff.1 ho, h⟩
          · rintro ⟨_, _, ⟨_, h, _⟩ | ⟨_, K', hK, h⟩⟩
            · cases h
            · rw [memberKey_iff.2 hK] at hk; cases hk
              rcases h with ⟨h, rfl⟩ | ⟨m, h, hm⟩
              · rw [firstOpen_none_iff.2 h]
              · rw [firstOpen_iff.2 h]; exact hm

theorem loadFull_iff {e : GEnv} {gx nonce act : Bytes} {cts : List Bytes} {k : Option Bytes} :
    loadFull P e gx nonce act cts = .ok k ↔ 24 ≤ nonce.length ∧ act.length = 48 ∧ (∀ c ∈ cts, c.length = 48) ∧
      cts.length % 75 = 0 ∧
      ((∃ sk key, e.groupSk = some sk ∧ k = some key ∧ Unseals P (P.hashN 32 kAdmin (sk.take 32)) nonce act key) ∨
        (e.groupSk = none ∧ ∃ K, ReaderKey P e gx K ∧
          ((NoneOf P K nonce cts ∧ k = none) ∨ ∃ m, FirstOf P K nonce cts m ∧ k = some m))) := by
  unfold loadFull
  by_cases h1 : nonce.length < 24
  · rw [if_pos h1]
    exact ⟨fun h => (by cases h), fun ⟨h, _⟩ => by omega⟩
  rw [if_neg h1]
  by_cases h2 : act.length = 48
  swap
  · rw [if_pos h2]
    exact ⟨fun h => (by cases h), fun ⟨_, h, _⟩ => absurd h h2⟩
  rw [if_neg (not_not.2 h2)]
  by_cases h3 : cts.any (fun c => c.length != 48) = true
  · rw [if_pos h3]
    refine ⟨fun h => (by cases h), fun ⟨_, _, h, _⟩ => ?_⟩
    obtain ⟨c, hc, hl⟩ := List.any_eq_true.1 h3
    simp [h c hc] at hl
  rw [if_neg h3]
  have h3' : ∀ c ∈ cts, c.length = 48 := by
    intro c hc
    by_contra hl
    exact h3 (List.any_eq_true.2 ⟨c, hc, by simpa using hl⟩)
  by_cases h4 : cts.length % 75 = 0
  swap
  · rw [if_pos h4]
    exact ⟨fun h => (by cases h), fun ⟨_, _, _, h, _⟩ => absurd h h4⟩
  rw [if_neg (not_not.2 h4)]
  have h1' : 24 ≤ nonce.length := by omega
  have hka : kAdmin.take 64 = kAdmin := by decide +kernel
  cases hsk : e.groupSk with
  | some sk =>
    dsimp only
    unfold seedHash
    rw [hka]
    constructor
    · intro h
      refine ⟨h1', h2, h3', h4, .inl ?_⟩
      split at h
      · rename_i key ho
        cases h
        exact ⟨sk, key, rfl, rfl, multiOpen_iff.1 ho⟩
      · cases h
    · rintro ⟨_, _, _, _, ⟨sk', key, hs', rfl, ho⟩ | ⟨h, _⟩⟩
      · cases hs'
        rw [multiOpen_iff.2 ho]
      · cases h
  | none =>
    dsimp only
    cases hk : memberKey P e gx with
    | none =>
      refine ⟨fun h => (by cases h), ?_⟩
      rintro ⟨_, _, _, _, ⟨_, _, h, _⟩ | ⟨_, K, hK, _⟩⟩
      · cases h
      · rw [memberKey_iff.2 hK] at hk; cases hk
    | some K =>
      dsimp only
      constructor
      · intro h
        refine ⟨h1', h2, h3', h4, .inr ⟨rfl, K, memberKey_iff.1 hk, ?_⟩⟩
        have h := Out.ok.inj h
        cases ho : firstOpen P.toMPrims K nonce cts with
        | none => rw [ho] at h; exact .inl ⟨firstOpen_none_iff.1 ho, h.symm⟩
        | some m => rw [ho] at h; exact .inr ⟨m, firstOpen_iff.1 ho, h.symm⟩
      · rintro ⟨_, _, _, _, ⟨_, _, h, _⟩ | ⟨_, K', hK, h⟩⟩
        · cases h
        · rw [memberKey_iff.2 hK] at hk; cases hk
          rcases h with ⟨h, rfl⟩ | ⟨m, h, rfl⟩
          · rw [firstOpen_none_iff.2 h]
          · rw [firstOpen_iff.2 h]

/-! ## The theorem -/

/-- C143.  The key messages a device accepts are exactly those of the documented form, and what it takes
from them is what the documentation says is in them. -/
theorem keymsg_accepted_iff {e : GEnv} {D : BtDict} (hs : KSorted D) (hok : Bt.okD D = true)
    (hplain : ∀ gx nonce cts K m, KeyFrame P e D gx nonce → ([43], .list (cts.map .str)) ∈ D → e.groupSk = none →
      ReaderKey P e gx K → FirstOf P K nonce cts m → TidyPlain m) {ts : Int} {f : Found} :
    parseKeyMsg P e (100 :: (encD D ++ [101])) ts = .ok f ↔ KeyMessage P e D ts f := by
  rw [parseKeyMsg_enc hs hok]
  constructor
  · rintro ⟨gx, nonce, hx, hn, hsig, ⟨cts, ks, gen, a0, a1, a2, a3, rfl⟩ |
      ⟨hno, act, cts, gen, k, a1, a2, a3, a4, a5, a6, a7, rfl⟩⟩
    · obtain ⟨b1, b2, b3⟩ := loadSupp_iff.1 a1
      have hf : KeyFrame P e D gx nonce := ⟨hx, hn, b1, hsig⟩
      have hg : SuppFields D cts gen := ⟨a0, b2, a2, a3⟩
      rcases b3 with ⟨sk, hsk, rfl⟩ | ⟨hsk, K, hK, ⟨h, rfl⟩ | ⟨m, h, hm⟩⟩
      · exact .suppAdmin hf hg hsk
      · exact .suppOther hf hg hsk hK h
      · obtain ⟨rows, rfl, c1, c2⟩ := (readSupp_iff (hplain gx nonce cts K m hf a0 hsk hK h)).1 hm
        exact .suppMember hf hg hsk hK h c1 c2
    · obtain ⟨b1, b2, b3, b4, b5⟩ := loadFull_iff.1 a7
      have hf : KeyFrame P e D gx nonce := ⟨hx, hn, b1, hsig⟩
      have hg : FullFields D act cts gen ts := ⟨hno, a1, a2, a3, a4, a5, b2, a6, b3, b4⟩
      rcases b5 with ⟨sk, key, hsk, rfl, ho⟩ | ⟨hsk, K, hK, ⟨h, rfl⟩ | ⟨m, h, rfl⟩⟩
      · exact .fullAdmin hf hg hsk ho
      · exact .fullOther hf hg hsk hK h
      · exact .fullMember hf hg hsk hK h
  · intro h
    cases h with
    | suppAdmin hf hg hsk =>
      exact ⟨_, _, hf.group, hf.hasNonce, hf.signed, .inl ⟨_, _, _, hg.plus,
        loadSupp_iff.2 ⟨hf.nlen, hg.long, .inl ⟨_, hsk, rfl⟩⟩, hg.hasGen, hg.gen64, rfl⟩⟩
    | suppOther hf hg hsk hK h =>
      exact ⟨_, _, hf.group, hf.hasNonce, hf.signed, .inl ⟨_, _, _, hg.plus,
        loadSupp_iff.2 ⟨hf.nlen, hg.long, .inr ⟨hsk, _, hK, .inl ⟨h, rfl⟩⟩⟩, hg.hasGen, hg.gen64, rfl⟩⟩
    | suppMember hf hg hsk hK h c1 c2 =>
      exact ⟨_, _, hf.group, hf.hasNonce, hf.signed, .inl ⟨_, _, _, hg.plus,
        loadSupp_iff.2 ⟨hf.nlen, hg.long, .inr ⟨hsk, _, hK, .inr ⟨_, h,
          (readSupp_iff (hplain _ _ _ _ _ hf hg.plus hsk hK h)).2 ⟨_, rfl, c1, c2⟩⟩⟩⟩, hg.hasGen, hg.gen64, rfl⟩⟩
    | fullAdmin hf hg hsk ho =>
      exact ⟨_, _, hf.group, hf.hasNonce, hf.signed, .inr ⟨hg.noPlus, _, _, _, some _, hg.time, hg.hasGen, hg.gen64,
        hg.gen0, hg.admin, hg.list, loadFull_iff.2 ⟨hf.nlen, hg.alen, hg.lens, hg.count,
          .inl ⟨_, _, hsk, rfl, ho⟩⟩, rfl⟩⟩
    | fullMember hf hg hsk hK h =>
      exact ⟨_, _, hf.group, hf.hasNonce, hf.signed, .inr ⟨hg.noPlus, _, _, _, some _, hg.time, hg.hasGen, hg.gen64,
        hg.gen0, hg.admin, hg.list, loadFull_iff.2 ⟨hf.nlen, hg.alen, hg.lens, hg.count,
          .inr ⟨hsk, _, hK, .inr ⟨_, h, rfl⟩⟩⟩, rfl⟩⟩
    | fullOther hf hg hsk hK h =>
      exact ⟨_, _, hf.group, hf.hasNonce, hf.signed, .inr ⟨hg.noPlus, _, _, _, none, hg.time, hg.hasGen, hg.gen64,
        hg.gen0, hg.admin, hg.list, loadFull_iff.2 ⟨hf.nlen, hg.alen, hg.lens, hg.count,
          .inr ⟨hsk, _, hK, .inl ⟨h, rfl⟩⟩⟩, rfl⟩⟩

/-- C143.  Loading a key message succeeds exactly for those messages, and does with its keys what the other
properties of `load_key_message` say. -/
theorem load_accepts_iff {e : GEnv} {D : BtDict} (hs : KSorted D) (hok : Bt.okD D = true)
    (hplain : ∀ gx nonce cts K m, KeyFrame P e D gx nonce → ([43], .list (cts.map .str)) ∈ D → e.groupSk = none →
      ReaderKey P e gx K → FirstOf P K nonce cts m → TidyPlain m) {ts : Int} {s s' : GKeys} {hash : Bytes} {b : Bool} :
    s.load P e hash (100 :: (encD D ++ [101])) ts = .ok (s', b) ↔
      ∃ f, KeyMessage P e D ts f ∧ s.apply e.admin hash f = (s', b) := by
  unfold GKeys.load
  rw [Out.bind_eq_ok]
  constructor
  · rintro ⟨f, h1, h2⟩
    exact ⟨f, (keymsg_accepted_iff hs hok hplain).1 h1, Out.ok.inj h2⟩
  · rintro ⟨f, h1, h2⟩
    exact ⟨f, (keymsg_accepted_iff hs hok hplain).2 h1, by rw [h2]⟩

/-- C143.  The documentation says that `k` is one byte string; such a message is refused. -/
theorem packed_keys_refused {e : GEnv} {D : BtDict} (hs : KSorted D) (hok : Bt.okD D = true) {x : Bytes}
    (hk : ([107], .str x) ∈ D) (hno : ∀ v, ([43], v) ∉ D) {ts : Int} {f : Found} :
    parseKeyMsg P e (100 :: (encD D ++ [101])) ts ≠ .ok f := by
  intro h
  obtain ⟨_, _, _, _, _, ⟨_, _, _, h1, _⟩ | ⟨_, _, cts, _, _, _, _, _, _, _, h1, _⟩⟩ := (parseKeyMsg_enc hs hok).1 h
  · exact hno _ h1
  · have := (mget_of_mem hs hk).symm.trans (mget_of_mem hs h1)
    cases this

/-! ## What is published -/

theorem ksorted_of_keys {D : BtDict} {ks : List Bytes} (h : D.map Prod.fst = ks) (hs : ks.Pairwise (· < ·)) :
    KSorted D := by
  rw [← h] at hs
  exact (List.pairwise_map (R := fun a b : Bytes => a < b)).1 hs


theorem signed_frame (hP : P.Good) {sk nonce : Bytes} {body : BtDict} {u : GEnv} (hu : u.groupPk = P.edPub sk)
    (hn : ([35], .str nonce) ∈ body) (hl : nonce.length = 24) :
    signedDict P sk body = 100 :: (encD (body ++ [([126], .str (P.sign sk (100 :: encD body)))]) ++ [101]) ∧
    KeyFrame P u (body ++ [([126], .str (P.sign sk (100 :: encD body)))]) (P.pubOf (P.xsk sk)) nonce := by
  constructor
  · simp [signedDict_eq, encD_append, encD, encV]
  · exact ⟨by rw [hu, hP.xpkPub], List.mem_append_left _ hn, by omega, body, _, rfl, hP.signLen _ _, by
      rw [hu]; exact hP.signOk _ _⟩

/-- C143.  Every rekey message is of the documented form, for every device of the group: the nonce, and
the entries of a full message with the new generation. -/
theorem rekeys_in_format (hP : P.Good) {s s' : GKeys} {e : GEnv} {sk : Bytes} (he : OwnKey P e sk)
    {ids : List Bytes} {msg : Bytes} (h : s.rekey P e ids = .ok (s', msg)) (hg0 : 0 ≤ s'.pendingGen)
    (hg1 : int64Ok s'.pendingGen = true) {ts : Int} (hts : tsOk ts = true) {u : GEnv}
    (hu : u.groupPk = e.groupPk) :
    ∃ D gx nonce act cts, msg = 100 :: (encD D ++ [101]) ∧ KSorted D ∧ Bt.okD D = true ∧
      KeyFrame P u D gx nonce ∧ nonce.length = 24 ∧ FullFields D act cts s'.pendingGen ts ∧
      Unseals P (P.hashN 32 kAdmin (sk.take 32)) nonce act s'.pendingKey := by
  obtain ⟨hkl, nonce, cts, fill, hm⟩ := rekey_contents hP he h
  obtain ⟨h1, h2⟩ := signed_frame hP (u := u) (hu.trans he.2) (nonce := nonce) (body := [([35], .str nonce), ([71], .int s'.pendingGen),
    ([75], .str (P.aead (seedHash P sk kAdmin) nonce s'.pendingKey)), ([107], .list ((cts ++ fill).map .str))])
    (by simp) hm.nlen
  have hka : kAdmin.take 64 = kAdmin := by decide +kernel
  have hal : (P.aead (seedHash P sk kAdmin) nonce s'.pendingKey).length = 48 := by rw [hP.m.aeadLen, hkl]
  refine ⟨_, _, nonce, P.aead (seedHash P sk kAdmin) nonce s'.pendingKey, cts ++ fill, hm.bytes.trans h1, ?_, ?_, h2,
    hm.nlen, ?_, ?_⟩
  · exact ksorted_of_keys (ks := [[35], [71], [75], [107], [126]]) rfl (by decide)
  · simp only [List.cons_append, List.nil_append, Bt.okD, Bt.ok, okL_strs, Bool.and_true, Bool.true_and]
    exact int64_intOk hg1
  · refine ⟨?_, hts, by simp, hg1, hg0, by simp, hal, by simp, hm.len, hm.count⟩
    intro v hv
    simp at hv
  · refine ⟨by omega, ?_⟩
    rw [List.take_of_length_le (i := 24) (l := nonce) (by rw [hm.nlen])]
    have : P.hashN 32 kAdmin (sk.take 32) = seedHash P sk kAdmin := by unfold seedHash; rw [hka]
    rw [this]
    exact hP.m.openSeal _ _ _

theorem tidy_keys {l : List KeyInfo} (h : ∀ k ∈ l, k.ok = true) : TidyPlain (encV (.list (l.map encKeyInfo))) := by
  refine ⟨_, rfl, by simpa [Bt.ok] using okL_keys h, ?_⟩
  rintro rows d heq hd
  cases heq
  obtain ⟨k, _, hk⟩ := List.mem_map.1 hd
  cases hk
  exact ksorted_of_keys (ks := [[103], [107], [116]]) rfl (by decide)

theorem rows_keys {l : List KeyInfo} (h : ∀ k ∈ l, k.ok = true) : List.Forall₂ IsKeyRow (l.map encKeyInfo) l := by
  induction l with
  | nil => exact .nil
  | cons k t ih =>
    have hk := h k (by simp)
    simp only [KeyInfo.ok, Bool.and_eq_true, beq_iff_eq] at hk
    exact .cons ⟨_, rfl, by simp, hk.1.1, by simp, hk.2, by simp, hk.1.2⟩ (ih fun x hx => h x (List.mem_cons_of_mem _ hx))

/-- C143.  Every supplement is of the documented form, for every device of the group: a list of
ciphertexts, each of the same bencoded list of all keys held. -/
theorem supplements_in_format (hP : P.Good) {s : GKeys} {log : List (Bytes × Found)} (hr : KReach P s log) {e : GEnv}
    {sk : Bytes} (he : OwnKey P e sk) {ids : List Bytes} {msg : Bytes} (h : s.supplement P e ids = .ok msg)
    {u : GEnv} (hu : u.groupPk = e.groupPk) :
    ∃ D gx nonce cts gen rows, msg = 100 :: (encD D ++ [101]) ∧ KSorted D ∧ Bt.okD D = true ∧
      KeyFrame P u D gx nonce ∧ nonce.length = 24 ∧ SuppFields D cts gen ∧
      List.Forall₂ IsKeyRow rows s.keys ∧ TidyPlain (encV (.list rows)) ∧
      ∀ c ∈ cts, ∃ K, Unseals P K nonce c (encV (.list rows)) := by
  obtain ⟨gen, nonce, cts, _, hg1, hm⟩ := supplement_contents hP hr he h
  obtain ⟨_, hrv⟩ := hr.inv hP
  obtain ⟨h1, h2⟩ := signed_frame hP (u := u) (hu.trans he.2) (nonce := nonce)
    (body := [([35], .str nonce), ([43], .list (cts.map .str)), ([71], .int gen)]) (by simp) hm.nlen
  refine ⟨_, _, nonce, cts, gen, _, hm.bytes.trans h1, ?_, ?_, h2, hm.nlen, ⟨by simp, hm.len, by simp, hg1⟩,
    rows_keys hrv.keys, tidy_keys hrv.keys, ?_⟩
  · exact ksorted_of_keys (ks := [[35], [43], [71], [126]]) rfl (by decide)
  · simp only [List.cons_append, List.nil_append, Bt.okD, Bt.ok, okL_strs, Bool.and_true, Bool.true_and]
    exact int64_intOk hg1
  · intro c hc
    obtain ⟨_, _, _, K, _, _, rfl⟩ := (hm.sealed c).1 hc
    refine ⟨K, by have := hm.len _ hc; omega, ?_⟩
    rw [List.take_of_length_le (i := 24) (l := nonce) (by rw [hm.nlen])]
    exact hP.m.openSeal _ _ _

/-! ## Concrete messages -/

/-- A message with no `+` meets the hypothesis of the theorem. -/
theorem plain_of_full {e : GEnv} {D : BtDict} (hno : ∀ v, ([43], v) ∉ D) :
    ∀ gx nonce cts K m, KeyFrame P e D gx nonce → ([43], .list (cts.map .str)) ∈ D → e.groupSk = none →
      ReaderKey P e gx K → FirstOf P K nonce cts m → TidyPlain m :=
  fun _ _ _ _ _ _ h => absurd h (hno _)

/-- The rekey of the toy group is such a message for everybody in it. -/
example : ∃ D key, (∀ u ∈ [gAdmin, gMem1, gMem2], KeyMessage toyG u D 1000 ⟨[⟨0, 1000, key⟩], none⟩) ∧
    KSorted D ∧ Bt.okD D = true := by
  obtain ⟨s', msg, h1, h2, h3, _⟩ := toy_rekey
  obtain ⟨D, gx, nonce, act, cts, rfl, b1, b2, b3, _, b4, _⟩ := rekeys_in_format toyG_good gAdmin_own h1 (by rw [h2])
    (by rw [h2]; decide) (ts := 1000) (by decide) (u := gAdmin) rfl
  refine ⟨D, s'.pendingKey, ?_, b1, b2⟩
  intro u hu
  exact (keymsg_accepted_iff b1 b2 (plain_of_full b4.noPlus)).1 (h3 u hu).1

/-- A supplement with one ciphertext: the hypothesis of the theorem holds, and the member it is for gets
the keys. -/
theorem one_reader (hP : P.Good) {sk nonce K gx : Bytes} {u : GEnv} (hu : u.groupPk = P.edPub sk) (hsk : u.groupSk = none)
    (hl : nonce.length = 24) (hgx : gx = P.pubOf (P.xsk sk)) (hK : ReaderKey P u gx K) {k : KeyInfo} (hk : k.ok = true) {D : BtDict}
    (hD : D = [([35], .str nonce), ([43], .list [.str (P.aead K nonce (encV (.list [encKeyInfo k])))]), ([71], .int k.gen)] ++
      [([126], .str (P.sign sk (100 :: encD [([35], .str nonce),
        ([43], .list [.str (P.aead K nonce (encV (.list [encKeyInfo k])))]), ([71], .int k.gen)])))]) :
    KSorted D ∧ Bt.okD D = true ∧ (∀ gx nonce cts K m, KeyFrame P u D gx nonce → ([43], .list (cts.map .str)) ∈ D →
      u.groupSk = none → ReaderKey P u gx K → FirstOf P K nonce cts m → TidyPlain m) ∧
    ∀ ts, KeyMessage P u D ts ⟨[k], some k.gen⟩ := by
  have hks : ∀ x ∈ [k], x.ok = true := by simpa using hk
  have hg : int64Ok k.gen = true := by
    simp only [KeyInfo.ok, Bool.and_eq_true] at hk; exact hk.1.1
  have hlen := suppLen (t := []) hk
  have hso : KSorted D := by
    rw [hD]
    exact ksorted_of_keys (ks := [[35], [43], [71], [126]]) rfl (by decide)
  have hopen : ∀ m, Unseals P K nonce (P.aead K nonce (encV (.list [encKeyInfo k]))) m ↔ m = encV (.list [encKeyInfo k]) := by
    intro m
    unfold Unseals
    rw [List.take_of_length_le (by rw [hl]), hP.m.openSeal, hP.m.aeadLen]
    constructor
    · rintro ⟨_, h⟩; exact (Option.some.inj h).symm
    · rintro rfl; exact ⟨by omega, rfl⟩
  obtain ⟨_, hfr⟩ := signed_frame hP (u := u) hu (nonce := nonce) (body := [([35], .str nonce),
    ([43], .list [.str (P.aead K nonce (encV (.list [encKeyInfo k])))]), ([71], .int k.gen)]) (by simp) hl
  rw [← hD, ← hgx] at hfr
  have hsf : SuppFields D [P.aead K nonce (encV (.list [encKeyInfo k]))] k.gen := by
    refine ⟨by rw [hD]; simp, ?_, by rw [hD]; simp, hg⟩
    intro c hc
    rw [List.mem_singleton.1 hc, hP.m.aeadLen]
    have : (encV (.list ([k].map encKeyInfo))).length = (encV (.list [encKeyInfo k])).length := rfl
    omega
  refine ⟨hso, ?_, ?_, ?_⟩
  · rw [hD]
    simp only [List.cons_append, List.nil_append, Bt.okD, Bt.ok, Bt.okL, Bool.and_true, Bool.true_and]
    exact int64_intOk hg
  · intro gx' nonce' cts K' m hf hc _ hK' hm
    have e1 : gx' = gx := by
      have := hf.group; rw [hfr.group] at this; exact (Option.some.inj this).symm
    subst e1
    have e2 : nonce' = nonce := by
      have := (mget_of_mem hso hf.hasNonce).symm.trans (mget_of_mem hso hfr.hasNonce)
      cases this; rfl
    subst e2
    have e3 : cts = [P.aead K nonce' (encV (.list [encKeyInfo k]))] := by
      have := (mget_of_mem hso hc).symm.trans (mget_of_mem hso hsf.plus)
      simp only [Option.some.injEq, Bt.list.injEq] at this
      have h2 := congrArg allStrs this
      rw [allStrs_map, allStrs_map] at h2
      exact Option.some.inj h2
    subst e3
    have e4 : K' = K := Option.some.inj ((memberKey_iff.2 hK').symm.trans (memberKey_iff.2 hK))
    subst e4
    obtain ⟨b, c, a, h1, h2, _⟩ := hm
    have : c ∈ [P.aead K' nonce' (encV (.list [encKeyInfo k]))] := by rw [h1]; simp
    rw [List.mem_singleton.1 this] at h2
    rw [(hopen m).1 h2]
    exact tidy_keys hks
  · intro ts
    exact .suppMember hfr hsf hsk hK ⟨[], _, [], rfl, (hopen _).2 rfl, by simp⟩ (okL_keys hks) (rows_keys hks)

theorem toy_supp_dict : ∃ D, KSorted D ∧ Bt.okD D = true ∧ (∀ gx nonce cts K m, KeyFrame toyG gMem1 D gx nonce →
      ([43], .list (cts.map .str)) ∈ D → gMem1.groupSk = none → ReaderKey toyG gMem1 gx K → FirstOf toyG K nonce cts m →
      TidyPlain m) ∧ ∀ ts, KeyMessage toyG gMem1 D ts ⟨[⟨4, 1000, gKeyA⟩], some 4⟩ := by
  obtain ⟨K, hK⟩ : ∃ K, ReaderKey toyG gMem1 (toyG.pubOf (toyG.xsk gSk)) K := by
    obtain ⟨K, hK⟩ := sharedKey_exists toyM_good (toyG.xsk gSk) (toyG.xsk gU1) kMember
    exact ⟨K, memberKey_iff.1 (memberKey_shared toyG_good (u := gMem1) hK)⟩
  exact ⟨_, one_reader toyG_good (sk := gSk) (nonce := List.replicate 24 7) (u := gMem1) rfl rfl (by decide) rfl hK
    (k := ⟨4, 1000, gKeyA⟩) (by decide) rfl⟩

/-- C66.  A message that has no key for this device (a rekey or a supplement for others) is kept as long as
its generation is not older than all keys held: this is when its hash is reported after it was loaded. -/
theorem other_message_kept (hP : P.Good) {s s' : GKeys} {log : List (Bytes × Found)} (hr : KReach P s log) {e : GEnv}
    {D : BtDict} (hs : KSorted D) (hok : Bt.okD D = true) {gen : Int} (hg : ([71], .int gen) ∈ D) {hash : Bytes} {ts : Int}
    (h : s.load P e hash (100 :: (encD D ++ [101])) ts = .ok (s', false)) :
    ((∃ k ∈ s'.keys, k.gen ≤ gen) → s'.isCurrentHash hash) ∧
    (s'.isCurrentHash hash → s.isCurrentHash hash ∨ ∃ k ∈ s'.keys, k.gen ≤ gen) ∧
    (∀ x, s'.isCurrentHash x → x = hash ∨ s.isCurrentHash x) := by
  obtain ⟨hi, _⟩ := hr.inv hP
  unfold GKeys.load at h
  obtain ⟨f, hf, h⟩ := Out.bind_eq_ok.1 h
  have hf' : f = ⟨[], some gen⟩ := by
    have hn : f.newKeys = [] := by
      have := Out.ok.inj h
      unfold GKeys.apply at this
      cases hn : f.newKeys with
      | nil => rfl
      | cons a t => rw [hn] at this; cases this
    obtain ⟨_, _, _, _, _, ⟨_, ks, g, _, _, h1, _, rfl⟩ | ⟨_, _, _, g, k, _, h1, _, _, _, _, _, rfl⟩⟩ :=
      (parseKeyMsg_enc hs hok).1 hf
    · have := (mget_of_mem hs hg).symm.trans (mget_of_mem hs h1)
      cases this
      simp only at hn
      rw [hn]
    · have := (mget_of_mem hs hg).symm.trans (mget_of_mem hs h1)
      cases this
      cases k with
      | none => rfl
      | some k => cases hn
  subst hf'
  have hs' := Out.ok.inj h
  have e1 : s' = { ({ s with active := addHash gen hash s.active } : GKeys).removeExpired with needsDump := true } :=
    (congrArg Prod.fst hs').symm
  set s1 : GKeys := { s with active := addHash gen hash s.active } with hs1
  have hA1 : AscA s1.active := addHash_asc hi.ascA
  have hasc : Asc s1.removeExpired.keys := hi.asc.sublist (removeExpired_keys (s := s1) hi.asc).1.sublist
  have hk' : s'.keys = s1.removeExpired.keys := by rw [e1]
  have ha' : s'.active = s1.removeExpired.active := by rw [e1]
  have hm := fun g x => mem_addHash (g := gen) (h := hash) hi.ascA (g' := g) (h' := x)
  refine ⟨?_, ?_, ?_⟩
  · rintro ⟨k, hk, hle⟩
    obtain ⟨en, h1, h2, h3⟩ := (hm gen hash).2 (.inl ⟨rfl, rfl⟩)
    refine ⟨en, ?_, h3⟩
    rw [ha']
    rw [hk'] at hk
    cases hkk : s1.removeExpired.keys with
    | nil => rw [hkk] at hk; cases hk
    | cons f0 t =>
      rw [removeExpired_active hkk, mem_dropWhile_asc hA1]
      refine ⟨h1, ?_⟩
      rw [hkk] at hk hasc
      rw [h2]
      rcases List.mem_cons.1 hk with rfl | hk
      · exact hle
      · exact (KeyInfo.gen_le (le_of_lt ((List.pairwise_cons.1 hasc).1 k hk))).trans hle
  · rintro ⟨en, h1, h3⟩
    rw [ha'] at h1
    cases hkk : s1.removeExpired.keys with
    | nil => rw [removeExpired_nil hkk] at h1; cases h1
    | cons f0 t =>
      rw [removeExpired_active hkk, mem_dropWhile_asc hA1] at h1
      rcases (hm en.1 hash).1 ⟨en, h1.1, rfl, h3⟩ with ⟨h4, _⟩ | ⟨e', h5, _, h6⟩
      · exact .inr ⟨f0, by rw [hk', hkk]; simp, by rw [← h4]; exact h1.2⟩
      · exact .inl ⟨e', h5, h6⟩
  · rintro x ⟨en, h1, h3⟩
    rw [ha'] at h1
    cases hkk : s1.removeExpired.keys with
    | nil => rw [removeExpired_nil hkk] at h1; cases h1
    | cons f0 t =>
      rw [removeExpired_active hkk, mem_dropWhile_asc hA1] at h1
      rcases (hm en.1 x).1 ⟨en, h1.1, rfl, h3⟩ with ⟨_, rfl⟩ | ⟨e', h5, _, h6⟩
      · exact .inl rfl
      · exact .inr ⟨e', h5, h6⟩

/-- The admin of the toy group keeps a supplement that was made for a member. -/
example : ∃ s log D gen hash ts s', KReach toyG s log ∧ KSorted D ∧ Bt.okD D = true ∧ ([71], .int gen) ∈ D ∧
    s.load toyG gAdmin hash (100 :: (encD D ++ [101])) ts = .ok (s', false) ∧ s'.isCurrentHash hash := by
  obtain ⟨D, h1, h2, _, h4⟩ := toy_supp_dict
  obtain ⟨s0, msg, a1, a2, a3, _⟩ := toy_rekey
  obtain ⟨_, t, _, b2, b3⟩ := a3 gAdmin (by simp)
  have h5 : ∃ gx nonce cts, KeyFrame toyG gMem1 D gx nonce ∧ SuppFields D cts 4 := by
    have h6 := h4 1000
    generalize hf : (⟨[⟨4, 1000, gKeyA⟩], some 4⟩ : Found) = f at h6
    cases h6 <;> first | (cases hf; done) | skip
    case suppMember hf0 hg _ _ _ _ _ => cases hf; exact ⟨_, _, _, hf0, hg⟩
  obtain ⟨gx, nonce, cts, h6, h7⟩ := h5
  have hm : KeyMessage toyG gAdmin D 1000 ⟨[], some 4⟩ := .suppAdmin (gx := gx) (nonce := nonce)
    ⟨h6.group, h6.hasNonce, h6.nlen, h6.signed⟩ h7 rfl
  have hl : t.load toyG gAdmin [8] (100 :: (encD D ++ [101])) 1000 = .ok (t.apply true [8] ⟨[], some 4⟩) := by
    exact (load_accepts_iff (s := t) (hash := [8]) h1 h2 (fun _ _ _ _ _ _ _ h => by cases h)).2 ⟨_, hm, rfl⟩
  refine ⟨t, _, D, 4, [8], 1000, _, b2, h1, h2, h7.hasGen, hl, ?_⟩
  refine (other_message_kept toyG_good b2 h1 h2 h7.hasGen hl).1 ?_
  have hr' := KReach.load b2 ((keymsg_accepted_iff h1 h2 (fun _ _ _ _ _ _ _ h => by cases h)).2 hm) hl
  obtain ⟨hi, _⟩ := KReach.inv toyG_good b2
  obtain ⟨hi', _⟩ := KReach.inv toyG_good hr'
  have hne : t.keys ≠ [] := by
    have hall : ∀ n, (∃ h, Delivered [([7], ⟨[⟨0, 1000, s0.pendingKey⟩], none⟩)] h n) → n.gen = 0 := by
      rintro n ⟨h, f, hf, hn⟩
      cases List.mem_singleton.1 hf
      rw [List.mem_singleton.1 hn]
    rcases hi.kept [7] ⟨0, 1000, s0.pendingKey⟩ ⟨_, List.mem_singleton.2 rfl, List.mem_singleton.2 rfl⟩ with ⟨k', hk', _⟩ | ⟨n, m, hn, _, h3, _⟩
    · intro h0; rw [h0] at hk'; cases hk'
    · rw [hall n hn] at h3; exact absurd h3 (by simp)
  have hne' := (removeExpired_keys (s := { t with active := addHash 4 [8] t.active }) hi.asc).2.1 hne
  obtain ⟨k, hk⟩ := List.exists_mem_of_ne_nil _ hne'
  refine ⟨k, hk, ?_⟩
  obtain ⟨x, ⟨f, hf, hkf⟩, _⟩ := hi'.alive k hk
  simp only [List.cons_append, List.nil_append, List.mem_cons, List.not_mem_nil, or_false, Prod.mk.injEq] at hf
  rcases hf with ⟨_, rfl⟩ | ⟨_, rfl⟩
  · rw [List.mem_singleton.1 hkf]; show (0 : Int) ≤ 4; decide
  · cases hkf
end Verif
