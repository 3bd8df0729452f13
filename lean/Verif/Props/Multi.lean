import Verif.Multi
import Verif.ParseSound

/-!
# Properties of multi-recipient encryption (C61, C62, C63)
-/

namespace Verif

variable {P : MPrims}

/-! ### Specification -/

/-- The key between a sender with secret `a` and a recipient with secret `b` for a domain: the hash of
the shared secret, the sender's and the recipient's public key. -/
def SharedKey (P : MPrims) (a b domain key : Bytes) : Prop :=
  ∃ s, P.dh a (P.pubOf b) = some s ∧ key = P.hash (domain.take 64) (s ++ P.pubOf a ++ P.pubOf b)

/-- The message meant for the `i`-th recipient: the only message, or the `i`-th one. -/
def messageFor (messages : List Bytes) (i : Nat) : Option Bytes :=
  if messages.length = 1 then messages[0]? else messages[i]?

/-! ### Lemmas -/

theorem multiKey_send {a b d k : Bytes} (h : SharedKey P a b d k) :
    multiKey P a (P.pubOf a) (P.pubOf b) true d = some k := by
  obtain ⟨s, hs, rfl⟩ := h
  simp [multiKey, hs]

theorem multiKey_recv (hP : P.Good) {a b d k : Bytes} (h : SharedKey P a b d k) :
    multiKey P b (P.pubOf b) (P.pubOf a) false d = some k := by
  obtain ⟨s, hs, rfl⟩ := h
  rw [hP.dhComm] at hs
  simp [multiKey, hs]

theorem sharedKey_exists (hP : P.Good) (a b d : Bytes) : ∃ k, SharedKey P a b d k := by
  cases h : P.dh a (P.pubOf b) with
  | none => exact absurd h (hP.dhOk a b)
  | some s => exact ⟨_, s, h, rfl⟩

theorem multiLoop_ok (hP : P.Good) (nonce a d : Bytes) (ig : Bool) :
    ∀ l : List (Bytes × Bytes), (∀ x ∈ l, ∃ b, x.2 = P.pubOf b) →
      ∃ cs, multiLoop P nonce a (P.pubOf a) d ig l = .ok cs ∧ cs.length = l.length ∧
        ∀ (i : Nat) (m b k : Bytes), l[i]? = some (m, P.pubOf b) → SharedKey P a b d k →
          cs[i]? = some (multiSeal P k nonce m) := by
  intro l
  induction l with
  | nil => intro _; exact ⟨[], rfl, rfl, by intro i m b k h; simp at h⟩
  | cons x t ih =>
    intro hl
    obtain ⟨m, r⟩ := x
    obtain ⟨b, hb⟩ := hl _ (List.mem_cons_self ..)
    dsimp only at hb
    subst hb
    obtain ⟨cs, h1, h2, h3⟩ := ih fun y hy => hl y (List.mem_cons_of_mem _ hy)
    obtain ⟨k, hk⟩ := sharedKey_exists hP a b d
    refine ⟨multiSeal P k nonce m :: cs, ?_, by simp [h2], ?_⟩
    · simp only [multiLoop, multiKey_send hk, h1, Out.bind_ok]
    · intro i m' b' k' hi hk'
      cases i with
      | zero =>
        simp only [List.getElem?_cons_zero, Option.some.injEq, Prod.mk.injEq] at hi
        obtain ⟨rfl, hb⟩ := hi
        have e := multiKey_send hk'
        rw [← hb, multiKey_send hk] at e
        cases e
        simp
      | succ i =>
        simp only [List.getElem?_cons_succ] at hi ⊢
        exact h3 i m' b' k' hi hk'

theorem firstOpenBt_strs (key nonce : Bytes) (l : List Bytes) :
    firstOpenBt P key nonce (l.map .str) = firstOpen P key nonce l := by
  induction l with
  | nil => rfl
  | cons c t ih =>
    simp only [List.map_cons, firstOpenBt, firstOpen, ih]

theorem multiOpen_eq (hP : P.Good) (key nonce c : Bytes) :
    multiOpen P key nonce c = P.aeadOpen key (nonce.take 24) c := by
  unfold multiOpen
  split
  · rename_i hl
    cases h : P.aeadOpen key (nonce.take 24) c with
    | none => rfl
    | some m =>
      have := congrArg List.length (hP.sealOpen _ _ _ _ h)
      rw [hP.aeadLen] at this; omega
  · rfl

theorem firstOpen_at {key nonce m : Bytes} : ∀ {l : List Bytes} {i : Nat} {c : Bytes},
    l[i]? = some c → multiOpen P key nonce c = some m →
    (∀ j c', j < i → l[j]? = some c' → multiOpen P key nonce c' = none) →
    firstOpen P key nonce l = some m := by
  intro l
  induction l with
  | nil => intro i c h; simp at h
  | cons x t ih =>
    intro i c hi ho hb
    cases i with
    | zero =>
      simp only [List.getElem?_cons_zero, Option.some.injEq] at hi
      subst hi
      simp [firstOpen, ho]
    | succ i =>
      simp only [List.getElem?_cons_succ] at hi
      simp only [firstOpen, hb 0 x (by omega) (by simp)]
      exact ih hi ho fun j c' hj hc => hb (j + 1) c' (by omega) (by simpa using hc)

theorem firstOpen_mem {key nonce m : Bytes} : ∀ {l : List Bytes}, firstOpen P key nonce l = some m →
    ∃ c ∈ l, multiOpen P key nonce c = some m := by
  intro l
  induction l with
  | nil => intro h; simp [firstOpen] at h
  | cons x t ih =>
    intro h
    simp only [firstOpen] at h
    cases ho : multiOpen P key nonce x with
    | none =>
      rw [ho] at h
      obtain ⟨c, hc, h'⟩ := ih h
      exact ⟨c, List.mem_cons_of_mem _ hc, h'⟩
    | some m' =>
      rw [ho] at h
      cases h
      exact ⟨x, List.mem_cons_self .., ho⟩

theorem firstOpen_none {key nonce : Bytes} : ∀ {l : List Bytes},
    (∀ c ∈ l, multiOpen P key nonce c = none) → firstOpen P key nonce l = none := by
  intro l
  induction l with
  | nil => intro _; rfl
  | cons x t ih =>
    intro h
    simp only [firstOpen, h x (List.mem_cons_self ..)]
    exact ih fun c hc => h c (List.mem_cons_of_mem _ hc)

theorem firstOpenBt_mem {key nonce m : Bytes} : ∀ {l : List Bt}, firstOpenBt P key nonce l = some m →
    ∃ c, Bt.str c ∈ l ∧ multiOpen P key nonce c = some m := by
  intro l
  induction l with
  | nil => intro h; simp [firstOpenBt] at h
  | cons x t ih =>
    intro h
    cases x with
    | str c =>
      simp only [firstOpenBt] at h
      cases ho : multiOpen P key nonce c with
      | none =>
        rw [ho] at h
        obtain ⟨c', hc, h'⟩ := ih h
        exact ⟨c', List.mem_cons_of_mem _ hc, h'⟩
      | some m' =>
        rw [ho] at h
        cases h
        exact ⟨c, List.mem_cons_self .., ho⟩
    | _ => simp [firstOpenBt] at h

/-- Reading back what `encrypt_for_multiple_simple` writes. -/
theorem decryptSimple_enc {n priv pub sender d key : Bytes} (cs : List Bytes) (hn : n.length = 24)
    (h1 : priv.length = 32) (h2 : pub.length = 32) (h3 : sender.length = 32)
    (hk : multiKey P priv pub sender false d = some key) (trail : Bytes) :
    decryptSimple P (encV (.dict [([35], .str n), ([101], .list (cs.map .str))]) ++ trail) priv pub sender d =
      firstOpen P key n cs := by
  have e : encV (.dict [([35], .str n), ([101], .list (cs.map .str))]) ++ trail =
      100 :: (encStr [35] ++ (encV (.str n) ++ (encStr [101] ++ (encV (.list (cs.map .str)) ++
        (101 :: trail))))) := by
    simp [encV, encD]
  have o : openDict (100 :: (encStr [35] ++ (encV (.str n) ++ (encStr [101] ++
      (encV (.list (cs.map .str)) ++ (101 :: trail)))))) =
      some (encStr [35] ++ (encV (.str n) ++ (encStr [101] ++ (encV (.list (cs.map .str)) ++
        (101 :: trail))))) := by
    obtain ⟨x, t, _, ht⟩ := encStr_head [35]
    rw [ht]; rfl
  have hf : multiFieldsOk n priv pub = true := by simp [multiFieldsOk, hn, h1, h2]
  unfold decryptSimple
  rw [e, o]
  simp only [Option.bind_eq_bind, Option.bind_some, requireKey_hit, takeStr_enc, hn, ne_eq,
    not_true_eq_false, if_false, takeList_enc _ (okL_strs cs), hf, h3, Bool.true_eq_false, or_self, hk,
    firstOpenBt_strs]

/-! ### C61: round trip -/

theorem perRecipient_get {messages recipients : List Bytes} {i : Nat} {m r : Bytes}
    (hm : messageFor messages i = some m) (hr : recipients[i]? = some r) :
    (perRecipient messages recipients)[i]? = some (m, r) := by
  unfold perRecipient
  unfold messageFor at hm
  split
  · rename_i h
    rw [if_pos h] at hm
    have : messages.headD [] = m := by
      cases messages with
      | nil => simp at hm
      | cons a t => simpa using hm
    rw [List.getElem?_map, hr, this]; rfl
  · rename_i h
    rw [if_neg h] at hm
    rw [List.getElem?_zip_eq_some]
    exact ⟨hm, hr⟩

/-- The entries `encrypt_for_multiple_simple` produces for recipients with valid keys. -/
theorem encryptSimple_ok (hP : P.Good) (messages bs : List Bytes) (a d rnd : Bytes)
    (nonce : Option Bytes) (pad : Int) (junk : Nat → Bytes) (ha : a.length = 32)
    (hn : (nonce.getD rnd).length = 24)
    (hm : messages.length = 1 ∨ messages.length = bs.length) :
    ∃ cs extra : List Bytes, encryptSimple P messages (bs.map P.pubOf) a (P.pubOf a) d nonce pad rnd junk =
        .ok (encV (.dict [([35], .str (nonce.getD rnd)), ([101], .list ((cs ++ extra).map .str))])) ∧
      cs.length = bs.length ∧
      (extra = if 1 < pad ∧ (messages.headD []).length ≠ 0 then
        (List.range (junkCount pad.toNat bs.length)).map fun i =>
          (junk i).take (messages.headD []).length else []) ∧
      ∀ (i : Nat) (b m k : Bytes), bs[i]? = some b → messageFor messages i = some m →
        SharedKey P a b d k → cs[i]? = some (P.aead k (nonce.getD rnd) m) := by
  have hlen : (perRecipient messages (bs.map P.pubOf)).length = bs.length := by
    unfold perRecipient
    split
    · simp
    · rename_i h
      rcases hm with h' | h'
      · exact absurd h' h
      · simp [h']
  have hvalid : ∀ x ∈ perRecipient messages (bs.map P.pubOf), ∃ b, x.2 = P.pubOf b := by
    intro x hx
    have : x.2 ∈ bs.map P.pubOf := by
      unfold perRecipient at hx
      split at hx
      · obtain ⟨r, hr, rfl⟩ := List.mem_map.1 hx; exact hr
      · exact (List.of_mem_zip (a := x.1) (b := x.2) hx).2
    obtain ⟨b, _, e⟩ := List.mem_map.1 this
    exact ⟨b, e.symm⟩
  obtain ⟨cs, h1, h2, h3⟩ := multiLoop_ok hP (nonce.getD rnd) a d false _ hvalid
  have henc : encryptForMultiple P messages (bs.map P.pubOf) (nonce.getD rnd) a (P.pubOf a) d false = .ok cs := by
    unfold encryptForMultiple
    rw [if_neg (by simp [multiFieldsOk, hn, ha, hP.pubLen]), if_neg (by simp [hP.pubLen]),
      if_neg (by simp only [List.length_map]; omega), h1]
  refine ⟨cs, _, ?_, by rw [h2, hlen], rfl, ?_⟩
  · unfold encryptSimple
    dsimp only
    have : ¬ (nonce.isSome = true ∧ (nonce.getD rnd).length ≠ 24) := fun h => h.2 hn
    rw [if_neg this, henc, Out.bind_ok, h2, hlen]
    congr 7
    by_cases hp : 1 < pad
    · by_cases hz : (messages.headD []).length = 0
      · rw [if_pos hp, if_pos hz, if_neg fun h => h.2 hz]
      · rw [if_pos hp, if_neg hz, if_pos ⟨hp, hz⟩]
    · rw [if_neg hp, if_pos rfl, if_neg (by simp [hp])]
  · intro i b m k hb hmi hk
    have := h3 i m b k (perRecipient_get hmi (by rw [List.getElem?_map, hb]; rfl)) hk
    rw [this, multiSeal, List.take_of_length_le (by omega)]

/-- C61.  Encrypting one message for all, or one message each, succeeds for every list of recipients;
each recipient gets exactly the message meant for it, provided that no entry before its own happens to
open under its key too (`hclash`) — the entry of another recipient is encrypted under another key. -/
theorem multi_roundtrip (hP : P.Good) (messages bs : List Bytes) (a d rnd : Bytes)
    (nonce : Option Bytes) (pad : Int) (junk : Nat → Bytes) (ha : a.length = 32)
    (hn : (nonce.getD rnd).length = 24)
    (hm : messages.length = 1 ∨ messages.length = bs.length) :
    ∃ enc, encryptSimple P messages (bs.map P.pubOf) a (P.pubOf a) d nonce pad rnd junk = .ok enc ∧
      ∀ (i : Nat) (b m k : Bytes), bs[i]? = some b → b.length = 32 → messageFor messages i = some m →
        SharedKey P a b d k →
        (∀ j b' m' k', j < i → bs[j]? = some b' → messageFor messages j = some m' →
          SharedKey P a b' d k' → P.aeadOpen k (nonce.getD rnd) (P.aead k' (nonce.getD rnd) m') = none) →
        decryptSimple P enc b (P.pubOf b) (P.pubOf a) d = some m := by
  obtain ⟨cs, extra, h1, h2, _, h3⟩ := encryptSimple_ok hP messages bs a d rnd nonce pad junk ha hn hm
  refine ⟨_, h1, ?_⟩
  intro i b m k hb hbl hmi hk hclash
  have e := decryptSimple_enc (P := P) (cs ++ extra) hn hbl (hP.pubLen b) (hP.pubLen a)
    (multiKey_recv hP hk) []
  rw [List.append_nil] at e
  rw [e]
  have htake : (nonce.getD rnd).take 24 = nonce.getD rnd := List.take_of_length_le (by omega)
  have hic := h3 i b m k hb hmi hk
  have hi : i < bs.length := (List.getElem?_eq_some_iff.1 hb).1
  refine firstOpen_at (i := i) (c := P.aead k (nonce.getD rnd) m) ?_ ?_ ?_
  · rw [List.getElem?_append_left (by omega), hic]
  · rw [multiOpen_eq hP, htake, hP.openSeal]
  · intro j c' hj hc'
    obtain ⟨b', hb'⟩ : ∃ b', bs[j]? = some b' := ⟨bs[j]'(by omega), List.getElem?_eq_getElem _⟩
    obtain ⟨m', hm'⟩ : ∃ m', messageFor messages j = some m' := by
      unfold messageFor at hmi ⊢
      split
      · rename_i h1'; rw [if_pos h1'] at hmi; exact ⟨m, hmi⟩
      · rename_i h1'
        have : messages.length = bs.length := by omega
        exact ⟨messages[j]'(by omega), List.getElem?_eq_getElem _⟩
    obtain ⟨k', hk'⟩ := sharedKey_exists hP a b' d
    have := h3 j b' m' k' hb' hm' hk'
    rw [List.getElem?_append_left (by omega), this] at hc'
    cases hc'
    rw [multiOpen_eq hP, htake]
    exact hclash j b' m' k' hj hb' hm' hk'

/-- C61.  Who can decrypt: with keys of their own, all entries being encrypted under other keys, nobody
else gets anything out of the message. -/
theorem multi_outsider (hP : P.Good) (messages bs : List Bytes) (a d d' rnd : Bytes)
    (nonce : Option Bytes) (ha : a.length = 32)
    (hn : (nonce.getD rnd).length = 24)
    (hm : messages.length = 1 ∨ messages.length = bs.length) (junk : Nat → Bytes) :
    ∃ enc, encryptSimple P messages (bs.map P.pubOf) a (P.pubOf a) d nonce 0 rnd junk = .ok enc ∧
      ∀ (c sender k : Bytes), multiKey P c (P.pubOf c) sender false d' = some k →
        (∀ i b m k', bs[i]? = some b → messageFor messages i = some m → SharedKey P a b d k' →
          P.aeadOpen k (nonce.getD rnd) (P.aead k' (nonce.getD rnd) m) = none) →
        decryptSimple P enc c (P.pubOf c) sender d' = none := by
  obtain ⟨cs, extra, h1, h2, hx, h3⟩ := encryptSimple_ok hP messages bs a d rnd nonce 0 junk ha hn hm
  refine ⟨_, h1, ?_⟩
  intro c sender k hk hclash
  have htake : (nonce.getD rnd).take 24 = nonce.getD rnd := List.take_of_length_le (by omega)
  have hx' : extra = [] := by rw [hx, if_neg (by omega)]
  subst hx'
  by_cases hl : c.length = 32 ∧ sender.length = 32
  · have e := decryptSimple_enc (P := P) (cs ++ []) hn hl.1 (hP.pubLen c) hl.2 hk []
    rw [List.append_nil] at e
    rw [e]
    refine firstOpen_none ?_
    intro x hx
    rw [List.append_nil] at hx
    obtain ⟨i, hi, rfl⟩ := List.getElem_of_mem hx
    obtain ⟨b', hb'⟩ : ∃ b', bs[i]? = some b' := ⟨bs[i]'(by omega), List.getElem?_eq_getElem _⟩
    obtain ⟨m', hm'⟩ : ∃ m', messageFor messages i = some m' := by
      unfold messageFor
      split
      · exact ⟨messages[0]'(by omega), List.getElem?_eq_getElem _⟩
      · exact ⟨messages[i]'(by omega), List.getElem?_eq_getElem _⟩
    obtain ⟨k', hk'⟩ := sharedKey_exists hP a b' d
    have := h3 i b' m' k' hb' hm' hk'
    rw [List.getElem?_eq_getElem hi] at this
    rw [Option.some.inj this, multiOpen_eq hP, htake]
    exact hclash i b' m' k' hb' hm' hk'
  · unfold decryptSimple
    cases h : openDict (encV (Bt.dict [([35], Bt.str (nonce.getD rnd)), ([101], Bt.list ((cs ++ []).map Bt.str))])) with
    | none => rfl
    | some r0 =>
      simp only [Option.bind_eq_bind, Option.bind_some]
      cases h2 : requireKey [35] r0 with
      | none => rfl
      | some r1 =>
        simp only [Option.bind_some]
        cases h3 : takeStr r1 with
        | none => rfl
        | some x =>
          simp only [Option.bind_some]
          split
          · rfl
          · cases h4 : requireKey [101] x.2 with
            | none => rfl
            | some r3 =>
              simp only [Option.bind_some]
              cases h5 : takeList r3 with
              | none => rfl
              | some y =>
                simp only [Option.bind_some]
                rw [if_pos]
                by_cases hc : c.length = 32
                · exact .inr fun hs => hl ⟨hc, hs⟩
                · left; simp [multiFieldsOk, hc]

/-! ### C62: authenticity -/

theorem decStr_split {bs s r : Bytes} (h : decStr bs = some (s, r)) : ∃ pre, bs = pre ++ (s ++ r) := by
  unfold decStr at h
  split at h
  · cases h
  · rename_i c t
    split at h
    · split at h
      · rename_i n r' hs
        split at h
        · cases h
          obtain ⟨pre, hp⟩ := scanNat_suffix (c :: t) 0
          rw [hs] at hp
          refine ⟨pre ++ [58], ?_⟩
          rw [hp]; simp
        · cases h
      · cases h
    · cases h

/-- A string in a decoded list occurs in the bytes it was decoded from. -/
theorem decL_mem_infix {s : Bytes} : ∀ (f : Nat) {bs : Bytes} {l : List Bt} {r : Bytes},
    decL f bs = some (l, r) → Bt.str s ∈ l → s <:+: bs := by
  intro f
  induction f with
  | zero => intro bs l r h; simp [decL] at h
  | succ f ih =>
    intro bs l r h hs
    cases bs with
    | nil => simp [decL] at h
    | cons c t =>
      simp only [decL] at h
      split at h
      · cases h; cases hs
      · split at h
        · cases h
        · rename_i v r' hv
          obtain ⟨p, hp, e⟩ := Option.map_eq_some_iff.1 h
          cases e
          rcases List.mem_cons.1 hs with h' | h'
          · subst h'
            obtain ⟨pre, hd⟩ := decStr_split (decV_str hv)
            rw [hd]
            exact ⟨pre, r', by simp⟩
          · obtain ⟨pre, hd⟩ := (dec_suffix f).1 _ _ _ hv
            rw [hd]
            exact (ih hp h').trans (List.suffix_append _ _).isInfix

theorem takeList_mem_infix {s bs r : Bytes} {l : List Bt} (h : takeList bs = some (l, r))
    (hs : Bt.str s ∈ l) : s <:+: bs := by
  unfold takeList takeVal at h
  split at h
  · rename_i l' r' hv
    cases h
    cases hb : bs.length with
    | zero => rw [hb] at hv; simp [decV] at hv
    | succ f =>
      rw [hb] at hv
      cases bs with
      | nil => cases hb
      | cons c t =>
        simp only [decV] at hv
        split at hv
        · obtain ⟨p, hp, e⟩ := Option.map_eq_some_iff.1 hv; cases e
        · split at hv
          · obtain ⟨p, hp, e⟩ := Option.map_eq_some_iff.1 hv
            cases e
            exact (decL_mem_infix _ hp hs).trans (List.suffix_cons c t).isInfix
          · split at hv
            · obtain ⟨p, hp, e⟩ := Option.map_eq_some_iff.1 hv; cases e
            · obtain ⟨p, hp, e⟩ := Option.map_eq_some_iff.1 hv; cases e
  · cases h

theorem seekKey_suffix {find : Bytes} : ∀ (f : Nat) {bs r : Bytes} {b : Bool},
    seekKey f find bs = some (b, r) → r <:+ bs := by
  intro f
  induction f with
  | zero => intro bs r b h; simp [seekKey] at h
  | succ f ih =>
    intro bs r b h
    cases bs with
    | nil => simp [seekKey] at h
    | cons c t =>
      simp only [seekKey] at h
      split at h
      · cases h; exact List.suffix_refl _
      · split at h
        · cases h
        · rename_i k r' hk
          obtain ⟨p0, h0⟩ := decStr_suffix hk
          split at h
          · split at h
            · cases h
            · rename_i v r2 hv
              obtain ⟨p1, h1⟩ := (dec_suffix _).1 _ _ _ hv
              exact (ih h).trans ⟨p0 ++ p1, by rw [h0, h1]; simp⟩
          · split at h
            · cases h; exact ⟨p0, h0.symm⟩
            · cases h; exact List.suffix_refl _

theorem requireKey_suffix {k bs r : Bytes} (h : requireKey k bs = some r) : r <:+ bs := by
  unfold requireKey at h
  split at h
  · rename_i r' hs; cases h; exact seekKey_suffix _ hs
  · cases h

theorem openDict_suffix {bs r : Bytes} (h : openDict bs = some r) : r <:+ bs := by
  unfold openDict at h
  split at h
  · cases h; exact List.suffix_cons _ _
  · cases h

/-- C62.  Whatever `decrypt_for_multiple_simple` returns was encrypted, and is contained in the input,
under the key derived from the secret shared with the given sender, the sender's and the own public key
and the domain; for all inputs. -/
theorem multi_authentic (hP : P.Good) {encoded priv pub sender d m : Bytes}
    (h : decryptSimple P encoded priv pub sender d = some m) :
    priv.length = 32 ∧ pub.length = 32 ∧ sender.length = 32 ∧
      ∃ s nonce, P.dh priv sender = some s ∧ nonce.length = 24 ∧ nonce <:+: encoded ∧
        P.aead (P.hash (d.take 64) (s ++ sender ++ pub)) nonce m <:+: encoded := by
  unfold decryptSimple at h
  simp only [Option.bind_eq_bind] at h
  obtain ⟨r0, h0, h⟩ := Option.bind_eq_some_iff.1 h
  obtain ⟨r1, h1, h⟩ := Option.bind_eq_some_iff.1 h
  obtain ⟨⟨nonce, r2⟩, h2, h⟩ := Option.bind_eq_some_iff.1 h
  dsimp only at h
  split at h
  · cases h
  · rename_i hn
    obtain ⟨r3, h3, h⟩ := Option.bind_eq_some_iff.1 h
    obtain ⟨⟨l, r4⟩, h4, h⟩ := Option.bind_eq_some_iff.1 h
    dsimp only at h
    split at h
    · cases h
    · rename_i hf
      obtain ⟨key, h5, h⟩ := Option.bind_eq_some_iff.1 h
      obtain ⟨c, hc, ho⟩ := firstOpenBt_mem h
      have hn' : nonce.length = 24 := by
        by_contra hh; exact hn hh
      rw [multiOpen_eq hP, List.take_of_length_le (by omega)] at ho
      have hs := hP.sealOpen _ _ _ _ ho
      have hf1 : multiFieldsOk nonce priv pub = true := by
        cases hx : multiFieldsOk nonce priv pub with
        | true => rfl
        | false => exact absurd (.inl hx) hf
      have hf2 : sender.length = 32 := by
        by_contra hh; exact hf (.inr hh)
      simp only [multiFieldsOk, decide_eq_true_eq] at hf1
      refine ⟨hf1.2.1, hf1.2.2, hf2, ?_⟩
      unfold multiKey at h5
      cases hd : P.dh priv sender with
      | none => rw [hd] at h5; cases h5
      | some s =>
        rw [hd] at h5
        simp only [Option.some.injEq, Bool.false_eq_true, if_false] at h5
        subst h5
        obtain ⟨pre, hsplit⟩ := decStr_split h2
        have i1 : r1 <:+ encoded := (requireKey_suffix h1).trans (openDict_suffix h0)
        have i2 : r3 <:+ encoded := by
          refine (requireKey_suffix h3).trans (List.IsSuffix.trans ?_ i1)
          exact ⟨pre ++ nonce, by rw [hsplit]; simp⟩
        refine ⟨s, nonce, rfl, hn', ?_, ?_⟩
        · exact List.IsInfix.trans ⟨pre, r2, by rw [hsplit]; simp⟩ i1.isInfix
        · rw [← hs]
          exact (takeList_mem_infix h4 hc).trans i2.isInfix

/-- C62.  Keys are separated by direction, sender, recipient and domain: if the hash has no collision
between two key derivations, equal keys come from the same sender, recipient and domain (of which the
first 64 bytes count). -/
theorem multi_key_separation (hP : P.Good) {a b d a' b' d' k : Bytes}
    (h : SharedKey P a b d k) (h' : SharedKey P a' b' d' k)
    (hcol : ∀ x y, P.hash (d.take 64) x = k → P.hash (d'.take 64) y = k →
      d.take 64 = d'.take 64 ∧ x = y) :
    d.take 64 = d'.take 64 ∧ P.pubOf a = P.pubOf a' ∧ P.pubOf b = P.pubOf b' := by
  obtain ⟨s, hs, e⟩ := h
  obtain ⟨s', hs', e'⟩ := h'
  obtain ⟨h1, h2⟩ := hcol _ _ e.symm e'.symm
  have h3 := List.append_inj' h2 (by simp [hP.pubLen])
  have h4 := List.append_inj' h3.1 (by simp [hP.pubLen])
  exact ⟨h1, h4.2, h3.2⟩

/-! ### C63: nonce and filler -/

/-- C63.  The number of entries is a multiple of `pad` if the first message is not empty. -/
theorem junkCount_dvd {pad n : Nat} (h : 0 < pad) : pad ∣ n + junkCount pad n ∧ junkCount pad n < pad := by
  unfold junkCount
  refine ⟨?_, Nat.mod_lt _ h⟩
  have h1 := Nat.mod_lt n h
  have h2 := Nat.div_add_mod n pad
  by_cases h0 : n % pad = 0
  · rw [h0, Nat.sub_zero, Nat.mod_self, Nat.add_zero]; exact Nat.dvd_of_mod_eq_zero h0
  · rw [Nat.mod_eq_of_lt (by omega)]
    refine ⟨n / pad + 1, ?_⟩
    rw [Nat.mul_add]; omega

/-- C63.  With `pad > 1` and a non-empty first message the number of entries is a multiple of `pad`, so
that it does not reveal the number of recipients.  Missing from the documented behaviour: the filler
entries have the length of the *unencrypted* message, 16 bytes less than the real ones, so they can be
told apart by their size (`hsize`), and with an empty first message there is no filler. -/
theorem multi_filler_partial (hP : P.Good) (messages bs : List Bytes) (a d rnd : Bytes)
    (nonce : Option Bytes) (pad : Int) (junk : Nat → Bytes) (ha : a.length = 32)
    (hn : (nonce.getD rnd).length = 24)
    (hm : messages.length = 1 ∨ messages.length = bs.length) (hpad : 1 < pad)
    (hfirst : messages.headD [] ≠ []) (hj : ∀ i, (messages.headD []).length ≤ (junk i).length) :
    ∃ cs extra : List Bytes, encryptSimple P messages (bs.map P.pubOf) a (P.pubOf a) d nonce pad rnd junk =
        .ok (encV (.dict [([35], .str (nonce.getD rnd)), ([101], .list ((cs ++ extra).map .str))])) ∧
      cs.length = bs.length ∧ pad ∣ ((cs ++ extra).length : Int) ∧ (extra.length : Int) < pad ∧
      (∀ x ∈ extra, x.length = (messages.headD []).length) ∧
      (messages.length = 1 → ∀ c ∈ cs, c.length = (messages.headD []).length + 16) := by
  obtain ⟨cs, extra, h1, h2, hx, h3⟩ := encryptSimple_ok hP messages bs a d rnd nonce pad junk ha hn hm
  have hz : (messages.headD []).length ≠ 0 := fun h => hfirst (List.length_eq_zero_iff.1 h)
  rw [if_pos ⟨hpad, hz⟩] at hx
  obtain ⟨p, hp⟩ : ∃ p : Nat, pad = p := ⟨pad.toNat, by omega⟩
  subst hp
  have hl : extra.length = junkCount p bs.length := by rw [hx]; simp
  have hd := junkCount_dvd (n := bs.length) (show 0 < p by omega)
  refine ⟨cs, extra, h1, h2, ?_, ?_, ?_, ?_⟩
  · rw [List.length_append, hl, h2]; exact_mod_cast hd.1
  · rw [hl]; exact_mod_cast hd.2
  · intro x hxm
    rw [hx] at hxm
    obtain ⟨i, _, rfl⟩ := List.mem_map.1 hxm
    rw [List.length_take]; exact Nat.min_eq_left (hj i)
  · intro hone c hc
    obtain ⟨i, hi, rfl⟩ := List.getElem_of_mem hc
    obtain ⟨k', hk'⟩ := sharedKey_exists hP a (bs[i]'(by omega)) d
    have := h3 i _ (messages.headD []) k' (List.getElem?_eq_getElem (by omega)) (by
      unfold messageFor
      rw [if_pos hone]
      cases messages with
      | nil => cases hone
      | cons x t => simp) hk'
    rw [List.getElem?_eq_getElem hi] at this
    rw [Option.some.inj this, hP.aeadLen]

/-- C63.  "The size of each junk entry will be the same as the (encrypted) size of the first message"
is false whenever there is any. -/
theorem multi_filler_size_differs (hP : P.Good) (messages bs : List Bytes) (a d rnd : Bytes)
    (nonce : Option Bytes) (pad : Int) (junk : Nat → Bytes) (ha : a.length = 32)
    (hn : (nonce.getD rnd).length = 24) (hone : messages.length = 1) :
    ∃ cs extra : List Bytes, encryptSimple P messages (bs.map P.pubOf) a (P.pubOf a) d nonce pad rnd junk =
        .ok (encV (.dict [([35], .str (nonce.getD rnd)), ([101], .list ((cs ++ extra).map .str))])) ∧
      cs.length = bs.length ∧ ∀ x ∈ extra, ∀ c ∈ cs, x.length + 16 ≤ c.length := by
  obtain ⟨cs, extra, h1, h2, hx, h3⟩ :=
    encryptSimple_ok hP messages bs a d rnd nonce pad junk ha hn (.inl hone)
  refine ⟨cs, extra, h1, h2, ?_⟩
  intro x hxm c hc
  have hcl : c.length = (messages.headD []).length + 16 := by
    obtain ⟨i, hi, rfl⟩ := List.getElem_of_mem hc
    obtain ⟨k', hk'⟩ := sharedKey_exists hP a (bs[i]'(by omega)) d
    have := h3 i _ (messages.headD []) k' (List.getElem?_eq_getElem (by omega)) (by
      unfold messageFor
      rw [if_pos hone]
      cases messages with
      | nil => cases hone
      | cons x t => simp) hk'
    rw [List.getElem?_eq_getElem hi] at this
    rw [Option.some.inj this, hP.aeadLen]
  have hxl : x.length ≤ (messages.headD []).length := by
    rw [hx] at hxm
    split at hxm
    · obtain ⟨i, _, rfl⟩ := List.mem_map.1 hxm
      rw [List.length_take]; exact Nat.min_le_left _ _
    · cases hxm
  omega

/-- C63.  "If omitted or empty a random nonce will be generated" is false of the Ed25519 overload: it
always throws. -/
theorem multi_ed_default_nonce_throws (xKeys : Bytes → Out (Bytes × Bytes)) (messages recipients : List Bytes)
    (ed d rnd : Bytes) (pad : Int) (junk : Nat → Bytes) (enc : Bytes) :
    encryptSimpleEd P xKeys messages recipients ed d [] pad rnd junk ≠ .ok enc := by
  unfold encryptSimpleEd
  intro h
  obtain ⟨k, _, h⟩ := Out.bind_eq_ok.1 h
  unfold encryptSimple at h
  dsimp only at h
  rw [if_pos (by simp)] at h
  cases h

/-! ### A concrete instance -/

/-- Toy primitives: a public key is the secret padded to 32 bytes, the shared secret the bytewise sum,
the hash keeps everything, and the tag of the cipher consists of bytes of key and nonce. -/
def toyTag (k n : Bytes) : Bytes :=
  (k.take 4 ++ n.take 4 ++ k.reverse.take 8 ++ List.replicate 16 0).take 16

def toyM : MPrims where
  dh := fun a B => some (List.zipWith (· + ·) ((a ++ List.replicate 32 0).take 32) B)
  pubOf := fun a => (a ++ List.replicate 32 0).take 32
  hash := fun k m => k ++ m
  aead := fun k n m => m ++ toyTag k n
  aeadOpen := fun k n c =>
    if c.drop (c.length - 16) = toyTag k n ∧ 16 ≤ c.length then some (c.take (c.length - 16)) else none

theorem toyM_good : toyM.Good where
  dhComm := fun a b => by
    simp only [toyM, Option.some.injEq]
    exact List.zipWith_comm_of_comm UInt8.add_comm
  dhOk := fun _ _ => by simp [toyM]
  pubLen := fun _ => by simp [toyM]
  aeadLen := fun _ _ _ => by simp [toyM, toyTag]; omega
  openSeal := fun k n m => by
    have e : (m ++ toyTag k n).length - 16 = m.length := by simp [toyTag]; omega
    have e' : 16 ≤ (m ++ toyTag k n).length := by simp [toyTag]; omega
    simp only [toyM, e, List.drop_left, List.take_left]
    rw [if_pos]
    exact ⟨trivial, e'⟩
  sealOpen := fun k n c m h => by
    simp only [toyM] at h ⊢
    split at h
    · rename_i hc
      cases h
      rw [← hc.1, List.take_append_drop]
    · cases h

def mulA : Bytes := List.replicate 32 1
def mulB1 : Bytes := List.replicate 32 2
def mulB2 : Bytes := List.replicate 32 3
def mulB3 : Bytes := List.replicate 32 5
def mulN : Bytes := List.replicate 24 7

/-- Two messages for two recipients, padded to four entries: each gets its own, a third person and a
recipient using another domain get nothing. -/
example : ∃ enc, encryptSimple toyM [[1, 2, 3], [4]] ([mulB1, mulB2].map toyM.pubOf) mulA (toyM.pubOf mulA)
      [68] none 4 mulN (fun _ => List.replicate 99 0) = .ok enc ∧
    decryptSimple toyM enc mulB1 (toyM.pubOf mulB1) (toyM.pubOf mulA) [68] = some [1, 2, 3] ∧
    decryptSimple toyM enc mulB2 (toyM.pubOf mulB2) (toyM.pubOf mulA) [68] = some [4] ∧
    decryptSimple toyM enc mulB3 (toyM.pubOf mulB3) (toyM.pubOf mulA) [68] = none ∧
    decryptSimple toyM enc mulB2 (toyM.pubOf mulB2) (toyM.pubOf mulA) [69] = none :=
  ⟨_, rfl, by decide +kernel, by decide +kernel, by decide +kernel, by decide +kernel⟩

/-- The hypotheses of `multi_roundtrip` hold for the second recipient. -/
example : SharedKey toyM mulA mulB1 [68] ([68] ++ (List.replicate 32 3 ++ toyM.pubOf mulA ++ toyM.pubOf mulB1)) ∧
    SharedKey toyM mulA mulB2 [68] ([68] ++ (List.replicate 32 4 ++ toyM.pubOf mulA ++ toyM.pubOf mulB2)) ∧
    messageFor [[1, 2, 3], [4]] 1 = some [4] ∧
    toyM.aeadOpen ([68] ++ (List.replicate 32 4 ++ toyM.pubOf mulA ++ toyM.pubOf mulB2)) mulN
      (toyM.aead ([68] ++ (List.replicate 32 3 ++ toyM.pubOf mulA ++ toyM.pubOf mulB1)) mulN [1, 2, 3]) = none :=
  ⟨⟨_, rfl, by decide +kernel⟩, ⟨_, rfl, by decide +kernel⟩, rfl, by decide +kernel⟩

/-- The ciphertext for the `i`-th recipient, if the key exchange with that recipient's key does not fail. -/
def entryFor (P : MPrims) (messages recipients : List Bytes) (nonce priv pub d : Bytes) (i : Nat) : Option Bytes := do
  let r ← recipients[i]?
  let m ← messageFor messages i
  let s ← P.dh priv r
  some (P.aead (P.hash (d.take 64) (s ++ pub ++ r)) (nonce.take 24) m)

theorem range_filterMap {α β : Type} (g : α → Option β) : ∀ l : List α,
    (List.range l.length).filterMap (fun i => l[i]?.bind g) = l.filterMap g
  | [] => rfl
  | a :: t => by
    rw [List.length_cons, List.range_succ_eq_map, List.filterMap_cons, List.filterMap_map]
    have ih := range_filterMap g t
    have e : ((fun i => (a :: t)[i]?.bind g) ∘ Nat.succ) = fun i => t[i]?.bind g := by
      funext i; simp
    rw [e, ih, List.filterMap_cons]
    simp

theorem multiLoop_skips (nonce priv pub d : Bytes) : ∀ l : List (Bytes × Bytes),
    multiLoop P nonce priv pub d true l = .ok (l.filterMap fun x =>
      (P.dh priv x.2).map fun s => P.aead (P.hash (d.take 64) (s ++ pub ++ x.2)) (nonce.take 24) x.1)
  | [] => rfl
  | (m, r) :: t => by
    have ih := multiLoop_skips nonce priv pub d t
    cases h : P.dh priv r with
    | none => simp [multiLoop, multiKey, h, ih]
    | some s => simp [multiLoop, multiKey, h, ih, multiSeal]

theorem multiLoop_throws (nonce priv pub d : Bytes) : ∀ l : List (Bytes × Bytes),
    (∀ x ∈ l, P.dh priv x.2 ≠ none) ∧
      multiLoop P nonce priv pub d false l = multiLoop P nonce priv pub d true l ∨
    (∃ x ∈ l, P.dh priv x.2 = none) ∧ multiLoop P nonce priv pub d false l = .err .foreign
  | [] => .inl ⟨by simp, rfl⟩
  | (m, r) :: t => by
    have ih := multiLoop_throws nonce priv pub d t
    cases h : P.dh priv r with
    | none => exact .inr ⟨⟨(m, r), by simp, h⟩, by simp [multiLoop, multiKey, h]⟩
    | some s =>
      rcases ih with ⟨h1, h2⟩ | ⟨⟨x, hx, hx2⟩, h2⟩
      · refine .inl ⟨?_, ?_⟩
        · intro x hx
          rcases List.mem_cons.1 hx with rfl | hx
          · rw [h]; simp
          · exact h1 x hx
        · simp [multiLoop, multiKey, h, h2]
      · exact .inr ⟨⟨x, List.mem_cons_of_mem _ hx, hx2⟩, by simp [multiLoop, multiKey, h, h2]⟩

/-- C61.  Recipients whose keys are invalid: with `ignore_invalid_recipient` they are left out and every other recipient
gets the entry for it, in order; without it the call fails if there is one, and otherwise makes the same entries. -/
theorem multi_invalid_recipients (messages recipients : List Bytes) (nonce priv pub d : Bytes)
    (hn : 24 ≤ nonce.length) (ha : priv.length = 32) (hp : pub.length = 32) (hr : ∀ r ∈ recipients, r.length = 32)
    (hm : messages.length = 1 ∨ messages.length = recipients.length) :
    encryptForMultiple P messages recipients nonce priv pub d true =
        .ok ((List.range recipients.length).filterMap (entryFor P messages recipients nonce priv pub d)) ∧
      ((∀ r ∈ recipients, P.dh priv r ≠ none) →
        encryptForMultiple P messages recipients nonce priv pub d false =
          .ok ((List.range recipients.length).filterMap (entryFor P messages recipients nonce priv pub d))) ∧
      ((∃ r ∈ recipients, P.dh priv r = none) →
        encryptForMultiple P messages recipients nonce priv pub d false = .err .foreign) := by
  have hlen : (perRecipient messages recipients).length = recipients.length := by
    unfold perRecipient
    split
    · simp
    · rename_i h
      rcases hm with h' | h'
      · exact absurd h' h
      · simp [h']
  have hun : ∀ ig, encryptForMultiple P messages recipients nonce priv pub d ig =
      multiLoop P nonce priv pub d ig (perRecipient messages recipients) := by
    intro ig
    unfold encryptForMultiple
    rw [if_neg (by simp [multiFieldsOk, hn, ha, hp]), if_neg, if_neg (by omega)]
    simp only [List.any_eq_true, bne_iff_ne, ne_eq, not_exists, not_and, not_not]
    exact hr
  have hget : ∀ i r, recipients[i]? = some r → ∃ m, messageFor messages i = some m := by
    intro i r hi
    have hlt := (List.getElem?_eq_some_iff.1 hi).1
    unfold messageFor
    split
    · rename_i h; exact ⟨messages[0]'(by omega), List.getElem?_eq_getElem _⟩
    · exact ⟨messages[i]'(by omega), List.getElem?_eq_getElem _⟩
  have hmem : ∀ r, (∃ x ∈ perRecipient messages recipients, x.2 = r) ↔ r ∈ recipients := by
    intro r
    constructor
    · rintro ⟨x, hx, rfl⟩
      unfold perRecipient at hx
      split at hx
      · obtain ⟨r, hr, rfl⟩ := List.mem_map.1 hx; exact hr
      · exact (List.of_mem_zip (a := x.1) (b := x.2) hx).2
    · intro h
      obtain ⟨i, hi⟩ := List.getElem?_of_mem h
      obtain ⟨m, hm'⟩ := hget i r hi
      exact ⟨(m, r), List.mem_of_getElem? (perRecipient_get hm' hi), rfl⟩
  have htrue : encryptForMultiple P messages recipients nonce priv pub d true =
      .ok ((List.range recipients.length).filterMap (entryFor P messages recipients nonce priv pub d)) := by
    rw [hun, multiLoop_skips, ← range_filterMap, hlen]
    congr 1
    apply List.filterMap_congr
    intro i hi
    obtain ⟨r, hr'⟩ : ∃ r, recipients[i]? = some r :=
      ⟨recipients[i]'(List.mem_range.1 hi), List.getElem?_eq_getElem _⟩
    obtain ⟨m, hm'⟩ := hget i r hr'
    rw [perRecipient_get hm' hr']
    simp only [entryFor, hr', hm', Option.bind_some, Option.bind_eq_bind]
    cases P.dh priv r <;> rfl
  have hth := multiLoop_throws (P := P) nonce priv pub d (perRecipient messages recipients)
  refine ⟨htrue, fun h => ?_, fun ⟨r, h1, h2⟩ => ?_⟩
  · rcases hth with ⟨_, h2⟩ | ⟨⟨x, hx, hx2⟩, _⟩
    · rw [hun, h2, ← hun, htrue]
    · exact absurd hx2 (h _ ((hmem _).1 ⟨x, hx, rfl⟩))
  · rcases hth with ⟨h3, _⟩ | ⟨_, h3⟩
    · obtain ⟨x, hx, rfl⟩ := (hmem r).2 h1
      exact absurd h2 (h3 x hx)
    · rw [hun, h3]

/-- Three recipients, the second with a key the key exchange refuses. -/
example : let P : MPrims := { toyM with dh := fun a B => if B.head? = some 0 then none else toyM.dh a B }
    (∃ c1 c3, encryptForMultiple P [[1], [2], [3]] [mulB1, List.replicate 32 0, mulB2] mulN mulA (toyM.pubOf mulA) [68] true =
      .ok [c1, c3] ∧ toyM.aeadOpen ([68] ++ (List.replicate 32 3 ++ toyM.pubOf mulA ++ toyM.pubOf mulB1)) mulN c1 = some [1] ∧
      toyM.aeadOpen ([68] ++ (List.replicate 32 4 ++ toyM.pubOf mulA ++ toyM.pubOf mulB2)) mulN c3 = some [3]) ∧
    encryptForMultiple P [[1], [2], [3]] [mulB1, List.replicate 32 0, mulB2] mulN mulA (toyM.pubOf mulA) [68] false =
      .err .foreign :=
  ⟨⟨_, _, rfl, by decide +kernel, by decide +kernel⟩, rfl⟩

/-- C61.  The same without the encoding: `encrypt_for_multiple` passes one entry per recipient to its callback, and from
the list of them `decrypt_for_multiple` gives each recipient the message meant for it. -/
theorem multi_vector_roundtrip (hP : P.Good) (messages bs : List Bytes) (nonce a d : Bytes) (ig : Bool)
    (ha : a.length = 32) (hn : 24 ≤ nonce.length)
    (hm : messages.length = 1 ∨ messages.length = bs.length) :
    ∃ cs, encryptForMultiple P messages (bs.map P.pubOf) nonce a (P.pubOf a) d ig = .ok cs ∧ cs.length = bs.length ∧
      ∀ (i : Nat) (b m k : Bytes), bs[i]? = some b → b.length = 32 → messageFor messages i = some m →
        SharedKey P a b d k →
        (∀ j b' m' k', j < i → bs[j]? = some b' → messageFor messages j = some m' →
          SharedKey P a b' d k' → P.aeadOpen k (nonce.take 24) (P.aead k' (nonce.take 24) m') = none) →
        decryptForMultiple P cs nonce b (P.pubOf b) (P.pubOf a) d = .ok (some m) := by
  have hlen : (perRecipient messages (bs.map P.pubOf)).length = bs.length := by
    unfold perRecipient
    split
    · simp
    · rename_i h
      rcases hm with h' | h'
      · exact absurd h' h
      · simp [h']
  have hvalid : ∀ x ∈ perRecipient messages (bs.map P.pubOf), ∃ b, x.2 = P.pubOf b := by
    intro x hx
    have : x.2 ∈ bs.map P.pubOf := by
      unfold perRecipient at hx
      split at hx
      · obtain ⟨r, hr, rfl⟩ := List.mem_map.1 hx; exact hr
      · exact (List.of_mem_zip (a := x.1) (b := x.2) hx).2
    obtain ⟨b, _, e⟩ := List.mem_map.1 this
    exact ⟨b, e.symm⟩
  obtain ⟨cs, h1, h2, h3⟩ := multiLoop_ok hP nonce a d ig _ hvalid
  refine ⟨cs, ?_, by rw [h2, hlen], ?_⟩
  · unfold encryptForMultiple
    rw [if_neg (by simp [multiFieldsOk, hn, ha, hP.pubLen]), if_neg (by simp [hP.pubLen]),
      if_neg (by simp only [List.length_map]; omega), h1]
  intro i b m k hb hbl hmi hk hclash
  have hi : i < bs.length := (List.getElem?_eq_some_iff.1 hb).1
  unfold decryptForMultiple
  rw [if_neg (by simp [multiFieldsOk, hn, hbl, hP.pubLen]), if_neg (by simp [hP.pubLen]), multiKey_recv hP hk]
  show Out.ok (firstOpen P k nonce cs) = _
  congr 1
  refine firstOpen_at (i := i) (h3 i m b k (perRecipient_get hmi (by rw [List.getElem?_map, hb]; rfl)) hk) ?_ ?_
  · rw [multiOpen_eq hP, multiSeal, hP.openSeal]
  · intro j c' hj hc'
    obtain ⟨b', hb'⟩ : ∃ b', bs[j]? = some b' := ⟨bs[j]'(by omega), List.getElem?_eq_getElem _⟩
    obtain ⟨m', hm'⟩ : ∃ m', messageFor messages j = some m' := by
      unfold messageFor at hmi ⊢
      split
      · rename_i h1'; rw [if_pos h1'] at hmi; exact ⟨m, hmi⟩
      · rename_i h1'
        have : messages.length = bs.length := by omega
        exact ⟨messages[j]'(by omega), List.getElem?_eq_getElem _⟩
    obtain ⟨k', hk'⟩ := sharedKey_exists hP a b' d
    rw [h3 j m' b' k' (perRecipient_get hm' (by rw [List.getElem?_map, hb']; rfl)) hk'] at hc'
    cases hc'
    rw [multiOpen_eq hP, multiSeal]
    exact hclash j b' m' k' hj hb' hm' hk'

/-- C62.  What `decrypt_for_multiple` returns is the plaintext of one of the entries, encrypted under the key of this
recipient and the named sender. -/
theorem multi_vector_authentic (hP : P.Good) {cts : List Bytes} {nonce priv pub sender d m : Bytes}
    (h : decryptForMultiple P cts nonce priv pub sender d = .ok (some m)) :
    ∃ s, P.dh priv sender = some s ∧
      P.aead (P.hash (d.take 64) (s ++ sender ++ pub)) (nonce.take 24) m ∈ cts := by
  unfold decryptForMultiple at h
  split at h
  · cases h
  · split at h
    · cases h
    · unfold multiKey at h
      cases hs : P.dh priv sender with
      | none => rw [hs] at h; cases h
      | some s =>
        rw [hs] at h
        obtain ⟨c, hc, ho⟩ := firstOpen_mem (Out.ok.inj h)
        rw [multiOpen_eq hP] at ho
        have := hP.sealOpen _ _ _ _ ho
        refine ⟨s, rfl, ?_⟩
        rw [this] at hc
        simpa using hc

example : ∃ cs, encryptForMultiple toyM [[1, 2, 3], [4]] ([mulB1, mulB2].map toyM.pubOf) mulN mulA (toyM.pubOf mulA) [68]
      false = .ok cs ∧
    decryptForMultiple toyM cs mulN mulB2 (toyM.pubOf mulB2) (toyM.pubOf mulA) [68] = .ok (some [4]) ∧
    decryptForMultiple toyM cs mulN mulB3 (toyM.pubOf mulB3) (toyM.pubOf mulA) [68] = .ok none :=
  ⟨_, rfl, by decide +kernel, by decide +kernel⟩

end Verif
