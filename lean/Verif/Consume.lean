import Verif.Bt

/-!
# Reading a bencoded dict key by key

`oxenc::bt_dict_consumer` (external): the functions used outside config messages, which read only as
far as they need to.
-/

namespace Verif

/-- `bt_dict_consumer::skip_until` on what is left of a dict: skips the entries with a smaller key.
Returns whether the key was found, and the bytes that follow it (or the bytes from the next key on);
`none` is an exception.  The first argument bounds the number of entries. -/
def seekKey : Nat → Bytes → Bytes → Option (Bool × Bytes)
  | 0, _, _ => none
  | f + 1, find, bs =>
    match bs with
    | [] => none
    | c :: t =>
      if c = 101 then some (false, c :: t)
      else match decStr (c :: t) with
        | none => none
        | some (k, r) =>
          if k < find then
            match decV r.length r with
            | none => none
            | some (_, r') => seekKey f find r'
          else if k = find then some (true, r) else some (false, c :: t)

/-- `consume_string`, `consume_integer<int64_t>`, `consume_list_consumer`, `consume_dict_consumer` -/
def takeStr (bs : Bytes) : Option (Bytes × Bytes) := decStr bs

/-- Consuming one value of any type. -/
def takeVal (bs : Bytes) : Option (Bt × Bytes) := decV bs.length bs

/-- `consume_integer<int64_t>` -/
def takeInt (bs : Bytes) : Option (Int × Bytes) := match takeVal bs with
  | some (.int i, r) => if int64Ok i then some (i, r) else none
  | _ => none

/-- `consume_list_consumer`, with the elements read -/
def takeList (bs : Bytes) : Option (List Bt × Bytes) := match takeVal bs with
  | some (.list l, r) => some (l, r)
  | _ => none

/-- `consume_dict_consumer`, with the entries read -/
def takeDict (bs : Bytes) : Option (BtDict × Bytes) := match takeVal bs with
  | some (.dict d, r) => some (d, r)
  | _ => none

/-- Constructing a `bt_dict_consumer`: the bytes after the `d`. -/
def openDict : Bytes → Option Bytes
  | 100 :: b :: t => some (b :: t)
  | _ => none

/-- All elements of a list as strings. -/
def allStrs : List Bt → Option (List Bytes)
  | [] => some []
  | .str s :: t => (allStrs t).map (s :: ·)
  | _ => none

theorem allStrs_map (l : List Bytes) : allStrs (l.map .str) = some l := by
  induction l with
  | nil => rfl
  | cons a t ih => simp [allStrs, ih]

theorem seekKey_skip {f : Nat} {k find : Bytes} {v : Bt} (rest : Bytes) (hk : k < find)
    (hv : v.ok = true) :
    seekKey (f + 1) find (encStr k ++ (encV v ++ rest)) = seekKey f find rest := by
  obtain ⟨d, t, hd, ht⟩ := encStr_head k
  have h0 := decStr_encStr k (encV v ++ rest)
  have h1 := decV_encV v (encV v ++ rest).length rest hv (by simp)
  rw [ht] at h0 ⊢
  rw [List.cons_append] at h0 ⊢
  simp only [seekKey]
  rw [if_neg (digit_ne hd (by decide)), h0]
  simp only [hk, if_true, h1]

theorem seekKey_hit {f : Nat} {k : Bytes} (rest : Bytes) :
    seekKey (f + 1) k (encStr k ++ rest) = some (true, rest) := by
  obtain ⟨d, t, hd, ht⟩ := encStr_head k
  have h0 := decStr_encStr k rest
  rw [ht] at h0 ⊢
  rw [List.cons_append] at h0 ⊢
  simp only [seekKey]
  rw [if_neg (digit_ne hd (by decide)), h0]
  simp only [lt_irrefl, if_false, if_true]

theorem seekKey_pass {f : Nat} {k find : Bytes} (rest : Bytes) (hk : find < k) :
    seekKey (f + 1) find (encStr k ++ rest) = some (false, encStr k ++ rest) := by
  obtain ⟨d, t, hd, ht⟩ := encStr_head k
  have h0 := decStr_encStr k rest
  rw [ht] at h0 ⊢
  rw [List.cons_append] at h0 ⊢
  simp only [seekKey]
  rw [if_neg (digit_ne hd (by decide)), h0]
  simp only [not_lt_of_gt hk, if_false, ne_of_gt hk]

theorem seekKey_end {f : Nat} {find : Bytes} (rest : Bytes) :
    seekKey (f + 1) find (101 :: rest) = some (false, 101 :: rest) := by
  simp [seekKey]

theorem takeVal_enc {v : Bt} (rest : Bytes) (hv : v.ok = true) : takeVal (encV v ++ rest) = some (v, rest) :=
  decV_encV v (encV v ++ rest).length rest hv (by simp)

theorem takeStr_enc (s rest : Bytes) : takeStr (encV (.str s) ++ rest) = some (s, rest) :=
  decStr_encStr s rest

theorem takeInt_enc {i : Int} (rest : Bytes) (hi : int64Ok i = true) :
    takeInt (encV (.int i) ++ rest) = some (i, rest) := by
  unfold takeInt
  rw [takeVal_enc rest (by
    simp only [Bt.ok, intOk, int64Ok, Bool.and_eq_true, decide_eq_true_eq] at hi ⊢; omega)]
  simp only [hi, if_true]

theorem takeList_enc {l : List Bt} (rest : Bytes) (hl : Bt.okL l = true) :
    takeList (encV (.list l) ++ rest) = some (l, rest) := by
  unfold takeList
  rw [takeVal_enc rest (by simpa [Bt.ok] using hl)]

theorem takeDict_enc {l : BtDict} (rest : Bytes) (hl : Bt.okD l = true) :
    takeDict (encV (.dict l) ++ rest) = some (l, rest) := by
  unfold takeDict
  rw [takeVal_enc rest (by simpa [Bt.ok] using hl)]

/-- More entries than needed make no difference. -/
theorem seekKey_mono {find : Bytes} {x : Bool × Bytes} : ∀ {f : Nat} {bs : Bytes} (n : Nat),
    seekKey f find bs = some x → seekKey (f + n) find bs = some x := by
  intro f
  induction f with
  | zero => intro bs n h; simp [seekKey] at h
  | succ f ih =>
    intro bs n h
    rw [show f + 1 + n = (f + n) + 1 by omega]
    cases bs with
    | nil => simp [seekKey] at h
    | cons c t =>
      simp only [seekKey] at h ⊢
      split at h
      · rename_i hc; rw [if_pos hc]; exact h
      · rename_i hc
        rw [if_neg hc]
        cases hd : decStr (c :: t) with
        | none => rw [hd] at h; cases h
        | some kr =>
          obtain ⟨k, r⟩ := kr
          rw [hd] at h
          dsimp only at h ⊢
          split at h
          · rename_i hk
            rw [if_pos hk]
            cases hv : decV r.length r with
            | none => rw [hv] at h; cases h
            | some vr =>
              obtain ⟨v, r'⟩ := vr
              rw [hv] at h
              dsimp only at h ⊢
              exact ih n h
          · rename_i hk; rw [if_neg hk]; exact h

/-- `bt_dict_consumer::require`: moves to the key, which must be there. -/
def requireKey (k bs : Bytes) : Option Bytes := match seekKey bs.length k bs with
  | some (true, r) => some r
  | _ => none

theorem requireKey_hit {k : Bytes} (rest : Bytes) : requireKey k (encStr k ++ rest) = some rest := by
  unfold requireKey
  have h1 := encStr_length_pos k
  obtain ⟨n, hn⟩ : ∃ n, (encStr k ++ rest).length = n + 1 :=
    ⟨(encStr k ++ rest).length - 1, by rw [List.length_append]; omega⟩
  rw [hn, seekKey_hit]

theorem requireKey_skip {k find : Bytes} {v : Bt} {rest r : Bytes} (hk : k < find)
    (hv : v.ok = true) (h : requireKey find rest = some r) :
    requireKey find (encStr k ++ (encV v ++ rest)) = some r := by
  unfold requireKey at h ⊢
  have h1 := encStr_length_pos k
  obtain ⟨n, hn⟩ : ∃ n, (encStr k ++ (encV v ++ rest)).length = (rest.length + n) + 1 :=
    ⟨(encStr k ++ (encV v ++ rest)).length - 1 - rest.length, by simp only [List.length_append]; omega⟩
  rw [hn, seekKey_skip rest hk hv]
  cases hs : seekKey rest.length find rest with
  | none => rw [hs] at h; cases h
  | some x => rw [seekKey_mono n hs]; rw [hs] at h; exact h

theorem okL_strs (l : List Bytes) : Bt.okL (l.map .str) = true := by
  induction l with
  | nil => rfl
  | cons a t ih => simp [Bt.okL, Bt.ok, ih]

end Verif
