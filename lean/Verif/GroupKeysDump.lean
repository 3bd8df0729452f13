import Verif.GroupKeysInv

/-!
# Dump and restore of a group key list
-/

namespace Verif

variable {P : GPrims}

/-- A key that fits the dump format. -/
def KeyInfo.ok (k : KeyInfo) : Bool := int64Ok k.gen && tsOk k.ts && k.key.length == 32

theorem tsOk_int64 {t : Int} (h : tsOk t = true) : int64Ok t = true := by
  unfold tsOk keyExpiry at h
  have h' := of_decide_eq_true h
  unfold int64Ok
  rw [Bool.and_eq_true, decide_eq_true_eq, decide_eq_true_eq]
  have e : (2 : Int) ^ 63 = 9223372036854775808 := by norm_num
  rw [e]
  omega

theorem int64_intOk {t : Int} (h : int64Ok t = true) : intOk t = true := by
  simp only [intOk, int64Ok, decide_eq_true_eq, Bool.and_eq_true] at h ⊢; omega

/-- Everything in the object fits the dump format. -/
structure RInv (s : GKeys) : Prop where
  keys : ∀ k ∈ s.keys, k.ok = true
  active : ∀ e ∈ s.active, int64Ok e.1 = true
  pending : s.pendingConfig ≠ [] → s.pendingKey.length = 32 ∧ int64Ok s.pendingGen = true

/-- What was found in a message fits. -/
def Found.ok (f : Found) : Prop := (∀ k ∈ f.newKeys, k.ok = true) ∧ ∀ g, f.maxGen = some g → int64Ok g = true

theorem RInv.removeExpired {s : GKeys} (h : RInv s) (hs : Asc s.keys) : RInv s.removeExpired := by
  refine ⟨fun k hk => h.keys k ((removeExpired_keys hs).1.subset hk), ?_, h.pending⟩
  intro e he
  cases hk : s.removeExpired.keys with
  | nil => rw [removeExpired_nil hk] at he; cases he
  | cons f t =>
    rw [removeExpired_active hk] at he
    exact h.active e ((List.dropWhile_sublist _).subset he)

theorem RInv.addHash {s : GKeys} (h : RInv s) {g : Int} (hg : int64Ok g = true) (x : Bytes) :
    ∀ e ∈ Verif.addHash g x s.active, int64Ok e.1 = true := by
  intro e he
  rcases addHash_fst he with h' | ⟨e', he', hh⟩
  · rw [h']; exact hg
  · rw [← hh]; exact h.active e' he'

theorem KeyInfo.ok_gen {k : KeyInfo} (h : k.ok = true) : int64Ok k.gen = true := by
  simp only [KeyInfo.ok, Bool.and_eq_true] at h; exact h.1.1

theorem RInv.insertKey {s : GKeys} (h : RInv s) (hs : Asc s.keys) {hash : Bytes} {k : KeyInfo} (hk : k.ok = true) :
    RInv (s.insertKey hash k) := by
  unfold GKeys.insertKey
  split
  · exact ⟨h.keys, h.addHash (KeyInfo.ok_gen hk) hash, h.pending⟩
  · rename_i hdup
    split
    · exact h
    · have hkn : k ∉ s.keys := by
        intro hh
        exact hdup (List.any_eq_true.2 ⟨k, hh, by simp⟩)
      have h0 : RInv { s with keys := insKey k s.keys, active := Verif.addHash k.gen hash s.active } := by
        refine ⟨?_, h.addHash (KeyInfo.ok_gen hk) hash, h.pending⟩
        intro x hx
        rcases mem_insKey.1 hx with rfl | hx
        · exact hk
        · exact h.keys x hx
      have h1 := h0.removeExpired (insKey_asc hs hkn)
      exact ⟨h1.keys, h1.active, h1.pending⟩

theorem RInv.foldl {hash : Bytes} {A : Bytes → Prop} (hA : A hash) :
    ∀ (ks : List KeyInfo) {s : GKeys} {D : Bytes → KeyInfo → Prop}, KInv D A s → RInv s →
      (∀ k ∈ ks, k.ok = true) → RInv (ks.foldl (fun s k => s.insertKey hash k) s)
  | [], _, _, _, h, _ => h
  | k :: t, s, D, hi, h, hk => by
    rw [List.foldl_cons]
    exact RInv.foldl hA t (hi.insertKey hA) (h.insertKey hi.asc (hk k (List.mem_cons_self ..)))
      fun x hx => hk x (List.mem_cons_of_mem _ hx)

theorem RInv.apply {s : GKeys} {D : Bytes → KeyInfo → Prop} {A : Bytes → Prop} (hi : KInv D A s) (h : RInv s)
    (isAdmin : Bool) {hash : Bytes} {f : Found} (hf : f.ok) : RInv (s.apply isAdmin hash f).1 := by
  unfold GKeys.apply
  cases hk : f.newKeys with
  | nil =>
    cases hm : f.maxGen with
    | none => exact h
    | some g =>
      have h0 : RInv { s with active := Verif.addHash g hash s.active } :=
        ⟨h.keys, h.addHash (hf.2 g hm) hash, h.pending⟩
      have h1 := h0.removeExpired hi.asc
      exact ⟨h1.keys, h1.active, h1.pending⟩
  | cons k t =>
    have hd : (s.dropPending isAdmin (k :: t)).keys = s.keys ∧ (s.dropPending isAdmin (k :: t)).active = s.active := by
      unfold GKeys.dropPending; dsimp only; split <;> exact ⟨rfl, rfl⟩
    refine RInv.foldl (A := fun x => A x ∨ x = hash) (.inr rfl) (k :: t)
      ((hi.weaken (fun x hx => .inl hx)).pending hd.1 hd.2) ?_ ?_
    · refine ⟨by rw [hd.1]; exact h.keys, by rw [hd.2]; exact h.active, ?_⟩
      unfold GKeys.dropPending; dsimp only
      split
      · intro hh; exact absurd rfl hh
      · exact h.pending
    · intro x hx; exact hf.1 x (by rw [hk]; exact hx)

/-! ### What is found in messages fits -/

theorem decKeyInfo_ok {b : Bt} {k : KeyInfo} (h : decKeyInfo b = .ok k) : k.ok = true := by
  unfold decKeyInfo at h
  split at h
  · split at h
    · cases h
    · rename_i g d1 hg
      split at h
      · cases h
      · split at h
        · cases h
        · rename_i hk
          split at h
          · cases h
          · split at h
            · rename_i ht
              cases h
              have hg' : int64Ok g = true := by
                unfold dInt at hg
                split at hg
                · split at hg
                  · rename_i hi; cases hg; exact hi
                  · cases hg
                · cases hg
              simp only [KeyInfo.ok, Bool.and_eq_true, beq_iff_eq]
              exact ⟨⟨hg', ht⟩, by omega⟩
            · cases h
  · cases h

theorem decKeyInfos_ok : ∀ {l : List Bt} {ks : List KeyInfo}, decKeyInfos l = .ok ks → ∀ k ∈ ks, k.ok = true
  | [], ks, h => by cases h; intro k hk; cases hk
  | b :: t, ks, h => by
    simp only [decKeyInfos] at h
    obtain ⟨k, h1, h⟩ := Out.bind_eq_ok.1 h
    obtain ⟨ks', h2, h⟩ := Out.bind_eq_ok.1 h
    cases h
    intro x hx
    rcases List.mem_cons.1 hx with rfl | hx
    · exact decKeyInfo_ok h1
    · exact decKeyInfos_ok h2 x hx

theorem takeInt_int64 {bs r : Bytes} {i : Int} (h : takeInt bs = some (i, r)) : int64Ok i = true := by
  unfold takeInt at h
  split at h
  · split at h
    · rename_i hi; cases h; exact hi
    · cases h
  · cases h

theorem multiOpen_len (hP : P.Good) {key nonce c m : Bytes} (h : multiOpen P.toMPrims key nonce c = some m) :
    c.length = m.length + 16 := by
  unfold multiOpen at h
  split at h
  · cases h
  · rw [hP.m.sealOpen _ _ _ _ h, hP.m.aeadLen]

theorem firstOpen_mem' {key nonce m : Bytes} : ∀ {l : List Bytes}, firstOpen P.toMPrims key nonce l = some m →
    ∃ c ∈ l, multiOpen P.toMPrims key nonce c = some m
  | [], h => by simp [firstOpen] at h
  | x :: t, h => by
    simp only [firstOpen] at h
    cases ho : multiOpen P.toMPrims key nonce x with
    | none =>
      rw [ho] at h
      obtain ⟨c, hc, h'⟩ := firstOpen_mem' h
      exact ⟨c, List.mem_cons_of_mem _ hc, h'⟩
    | some m' =>
      rw [ho] at h
      cases h
      exact ⟨x, List.mem_cons_self .., ho⟩

theorem loadFull_len (hP : P.Good) {e : GEnv} {gx nonce ct : Bytes} {cts : List Bytes} {k : Bytes}
    (h : loadFull P e gx nonce ct cts = .ok (some k)) : k.length = 32 := by
  unfold loadFull at h
  split at h
  · cases h
  · split at h
    · cases h
    · rename_i hct
      split at h
      · cases h
      · rename_i hall
        split at h
        · cases h
        · split at h
          · split at h
            · rename_i k' ho
              cases h
              have := multiOpen_len hP ho
              omega
            · cases h
          · split at h
            · cases h
            · rename_i key _
              have h' := Out.ok.inj h
              obtain ⟨c, hc, ho⟩ := firstOpen_mem' h'
              have := multiOpen_len hP ho
              have hl : c.length = 48 := by
                by_contra hh
                exact hall (List.any_eq_true.2 ⟨c, hc, by simp [hh]⟩)
              omega

theorem loadSupp_ok {e : GEnv} {gx nonce : Bytes} {cts : List Bytes} {ks : List KeyInfo}
    (h : loadSupp P e gx nonce cts = .ok ks) : ∀ k ∈ ks, k.ok = true := by
  unfold loadSupp at h
  split at h
  · cases h
  · split at h
    · cases h
    · split at h
      · cases h; intro k hk; cases hk
      · split at h
        · cases h
        · split at h
          · cases h; intro k hk; cases hk
          · unfold readSupp at h
            split at h
            · split at h
              · exact decKeyInfos_ok h
              · cases h
            · cases h

/-- What a loaded key message yields always fits the dump format. -/
theorem parseKeyMsg_ok (hP : P.Good) {e : GEnv} {data : Bytes} {ts : Int} {f : Found}
    (h : parseKeyMsg P e data ts = .ok f) : f.ok := by
  unfold parseKeyMsg at h
  split at h
  · cases h
  · split at h
    · cases h
    · split at h
      · cases h
      · split at h
        · cases h
        · split at h
          · cases h
          · obtain ⟨fr, h1, h⟩ := Out.bind_eq_ok.1 h
            obtain ⟨_, _, h⟩ := Out.bind_eq_ok.1 h
            cases h
            unfold parseSupp at h1
            split at h1
            · cases h1
            · split at h1
              · cases h1
              · obtain ⟨ks, h2, h1⟩ := Out.bind_eq_ok.1 h1
                split at h1
                · cases h1
                · split at h1
                  · cases h1
                  · rename_i g r3 hg
                    cases h1
                    exact ⟨loadSupp_ok h2, fun g' hg' => by cases hg'; exact takeInt_int64 hg⟩
          · obtain ⟨fr, h1, h⟩ := Out.bind_eq_ok.1 h
            obtain ⟨_, _, h⟩ := Out.bind_eq_ok.1 h
            cases h
            unfold parseFull at h1
            split at h1
            · cases h1
            · rename_i hts
              split at h1
              · cases h1
              · split at h1
                · cases h1
                · rename_i gen r2 hg
                  split at h1
                  · cases h1
                  · split at h1
                    · cases h1
                    · split at h1
                      · cases h1
                      · split at h1
                        · cases h1
                        · split at h1
                          · cases h1
                          · split at h1
                            · cases h1
                            · obtain ⟨k, h2, h1⟩ := Out.bind_eq_ok.1 h1
                              cases h1
                              cases k with
                              | none =>
                                exact ⟨fun x hx => (by cases hx), fun g' hg' => by
                                  cases hg'; exact takeInt_int64 hg⟩
                              | some k =>
                                refine ⟨fun x hx => ?_, fun g' hg' => by cases hg'⟩
                                have hx' : x = ⟨gen, ts, k⟩ := by simpa [foundOf] using hx
                                subst hx'
                                simp only [KeyInfo.ok, Bool.and_eq_true, beq_iff_eq]
                                refine ⟨⟨takeInt_int64 hg, ?_⟩, loadFull_len hP h2⟩
                                simpa using hts

/-! ### Reading back a dump -/

theorem decKeyInfo_enc {k : KeyInfo} (h : k.ok = true) : decKeyInfo (encKeyInfo k) = .ok k := by
  simp only [KeyInfo.ok, Bool.and_eq_true, beq_iff_eq] at h
  obtain ⟨⟨h1, h2⟩, h3⟩ := h
  have e1 : ([103] : Bytes) < [107] := by decide
  have e2 : ([103] : Bytes) < [116] := by decide
  have e3 : ([107] : Bytes) < [116] := by decide
  simp [decKeyInfo, encKeyInfo, dInt, dStr, dSeek, h1, h2, h3, tsOk_int64 h2]

theorem decKeyInfos_enc : ∀ {l : List KeyInfo}, (∀ k ∈ l, k.ok = true) →
    decKeyInfos (l.map encKeyInfo) = .ok l
  | [], _ => rfl
  | k :: t, h => by
    simp only [List.map_cons, decKeyInfos, decKeyInfo_enc (h k (List.mem_cons_self ..)), Out.bind_ok,
      decKeyInfos_enc fun x hx => h x (List.mem_cons_of_mem _ hx)]

theorem okL_keys : ∀ {l : List KeyInfo}, (∀ k ∈ l, k.ok = true) → Bt.okL (l.map encKeyInfo) = true
  | [], _ => rfl
  | k :: t, h => by
    have hk := h k (List.mem_cons_self ..)
    simp only [KeyInfo.ok, Bool.and_eq_true, beq_iff_eq] at hk
    simp [Bt.okL, encKeyInfo, Bt.ok, Bt.okD, int64_intOk hk.1.1, int64_intOk (tsOk_int64 hk.1.2),
      okL_keys fun x hx => h x (List.mem_cons_of_mem _ hx)]

theorem ascending_iff : ∀ {l : List KeyInfo}, ascending l = true ↔ Asc l
  | [] => by simp [ascending]
  | [a] => by simp [ascending]
  | a :: b :: t => by
    have ih := ascending_iff (l := b :: t)
    simp only [ascending, Bool.and_eq_true, decide_eq_true_eq, ih]
    constructor
    · rintro ⟨h1, h2⟩
      refine List.pairwise_cons.2 ⟨?_, h2⟩
      intro x hx
      rcases List.mem_cons.1 hx with rfl | hx
      · exact h1
      · exact lt_trans h1 ((List.pairwise_cons.1 h2).1 x hx)
    · intro h
      have h' := List.pairwise_cons.1 h
      exact ⟨h'.1 b (List.mem_cons_self ..), h'.2⟩

theorem addGen_end {g : Int} : ∀ {p : List (Int × List Bytes)}, (∀ e ∈ p, e.1 < g) → addGen g p = p ++ [(g, [])]
  | [], _ => rfl
  | (g', hs) :: t, h => by
    have h0 := h _ (List.mem_cons_self ..)
    dsimp only at h0
    simp only [addGen]
    rw [if_neg (by omega), if_neg (by omega), addGen_end fun e he => h e (List.mem_cons_of_mem _ he)]
    rfl

theorem addHash_end {g : Int} {h : Bytes} {hs : List Bytes} (hn : h ∉ hs) : ∀ {p : List (Int × List Bytes)},
    (∀ e ∈ p, e.1 < g) → addHash g h (p ++ [(g, hs)]) = p ++ [(g, hs ++ [h])]
  | [], _ => by simp [addHash, hn]
  | (g', hs') :: t, hp => by
    have h0 := hp _ (List.mem_cons_self ..)
    dsimp only at h0
    simp only [List.cons_append, addHash]
    rw [if_neg (by omega), if_neg (by omega), addHash_end hn fun e he => hp e (List.mem_cons_of_mem _ he)]

theorem addHashes_end {g : Int} {p : List (Int × List Bytes)} (hp : ∀ e ∈ p, e.1 < g) {hs : List Bytes}
    (hn : hs.Nodup) : addHashes g hs p = p ++ [(g, hs)] := by
  unfold addHashes
  rw [addGen_end hp]
  have key : ∀ (l done : List Bytes), (done ++ l).Nodup →
      l.foldl (fun a h => addHash g h a) (p ++ [(g, done)]) = p ++ [(g, done ++ l)] := by
    intro l
    induction l with
    | nil => intro done _; simp
    | cons x t ih =>
      intro done hd
      rw [List.foldl_cons]
      have hx : x ∉ done := by
        intro hh
        exact (List.nodup_append.1 hd).2.2 x hh x (List.mem_cons_self ..) rfl
      rw [addHash_end hx hp, ih (done ++ [x]) (by simpa using hd)]
      simp
  simpa using key hs [] (by simpa using hn)

theorem loadActive_enc : ∀ {t p : List (Int × List Bytes)}, AscA (p ++ t) → (∀ e ∈ t, e.2.Nodup) →
    (∀ e ∈ t, int64Ok e.1 = true) →
    loadActive (t.map fun e => .list (.int e.1 :: e.2.map .str)) p = some (p ++ t)
  | [], p, _, _, _ => by simp [loadActive]
  | (g, hs) :: t, p, ha, hn, hi => by
    simp only [List.map_cons, loadActive]
    rw [if_pos (hi _ (List.mem_cons_self ..)), allStrs_map]
    dsimp only
    rw [addHashes_end (fun e he => (List.pairwise_append.1 ha).2.2 e he _ (List.mem_cons_self ..))
      (hn _ (List.mem_cons_self ..))]
    rw [loadActive_enc (p := p ++ [(g, hs)]) (by simpa using ha) (fun e he => hn e (List.mem_cons_of_mem _ he))
      fun e he => hi e (List.mem_cons_of_mem _ he)]
    simp

theorem okL_active : ∀ {a : List (Int × List Bytes)}, (∀ e ∈ a, int64Ok e.1 = true) →
    Bt.okL (a.map fun e => .list (.int e.1 :: e.2.map .str)) = true
  | [], _ => rfl
  | e :: t, h => by
    have h0 := int64_intOk (h e (List.mem_cons_self ..))
    simp [Bt.okL, Bt.ok, h0, okL_strs, okL_active fun x hx => h x (List.mem_cons_of_mem _ hx)]

/-- What a dump keeps: everything but the dump flag, and the leftovers of a pending key that is gone. -/
def GKeys.persist (s : GKeys) : GKeys :=
  { keys := s.keys, active := s.active, needsDump := false
    pendingConfig := s.pendingConfig
    pendingKey := if s.pendingConfig = [] then [] else s.pendingKey
    pendingGen := if s.pendingConfig = [] then -1 else s.pendingGen }

/-- The keys of a dump (src/config/groups/keys.cpp:79-104) -/
def kActive : Bytes := asc ['a', 'c', 't', 'i', 'v', 'e']
/-- (src/config/groups/keys.cpp:89) -/
def kKeys : Bytes := asc ['k', 'e', 'y', 's']
/-- (src/config/groups/keys.cpp:104) -/
def kPending : Bytes := asc ['p', 'e', 'n', 'd', 'i', 'n', 'g']

theorem loadDump_makeDump {s : GKeys} (hr : RInv s) (hk : Asc s.keys) (ha : AscA s.active)
    (hn : ∀ e ∈ s.active, e.2.Nodup) : loadDump s.makeDump = .ok s.persist := by
  have hact := loadActive_enc (t := s.active) (p := []) (by simpa using ha) hn hr.active
  rw [List.nil_append] at hact
  set al : List Bt := s.active.map fun e => .list (.int e.1 :: e.2.map .str) with hal
  have hlkp : kActive < kKeys := by decide
  have core : ∀ tail : Bytes, loadDump (100 :: (encStr kActive ++ (encV (.list al) ++ (encStr kKeys ++
      (encV (.list (s.keys.map encKeyInfo)) ++ tail))))) =
      loadPending tail { GKeys.init with keys := s.keys, active := s.active } := by
    intro tail
    have o : openDict (100 :: (encStr kActive ++ (encV (.list al) ++ (encStr kKeys ++
        (encV (.list (s.keys.map encKeyInfo)) ++ tail))))) = some (encStr kActive ++ (encV (.list al) ++ (encStr kKeys ++
        (encV (.list (s.keys.map encKeyInfo)) ++ tail)))) := by
      obtain ⟨x, t, _, ht⟩ := encStr_head kActive
      rw [ht]; rfl
    unfold loadDump
    rw [o]
    dsimp only
    rw [show (asc ['a', 'c', 't', 'i', 'v', 'e']) = kActive from rfl, requireKey_hit]
    dsimp only
    rw [takeList_enc _ (okL_active hr.active)]
    dsimp only
    rw [hact]
    dsimp only
    rw [show (asc ['k', 'e', 'y', 's']) = kKeys from rfl, requireKey_hit]
    dsimp only
    rw [takeList_enc _ (okL_keys hr.keys)]
    dsimp only
    rw [decKeyInfos_enc hr.keys, Out.bind_ok, if_neg (by simp [ascending_iff.2 hk])]
  by_cases hp : s.pendingConfig = []
  · have e : s.makeDump = 100 :: (encStr kActive ++ (encV (.list al) ++ (encStr kKeys ++
        (encV (.list (s.keys.map encKeyInfo)) ++ [101])))) := by
      simp [GKeys.makeDump, hp, encV, encD, hal, kActive, kKeys]
    rw [e, core]
    unfold loadPending
    rw [show ([101] : Bytes).length = 0 + 1 from rfl, seekKey_end]
    simp [GKeys.persist, hp, GKeys.init]
  · obtain ⟨h1, h2⟩ := hr.pending hp
    set pd : BtDict := [([99], .str s.pendingConfig), ([103], .int s.pendingGen), ([107], .str s.pendingKey)] with hpd
    have e : s.makeDump = 100 :: (encStr kActive ++ (encV (.list al) ++ (encStr kKeys ++
        (encV (.list (s.keys.map encKeyInfo)) ++ (encStr kPending ++ (encV (.dict pd) ++ [101])))))) := by
      simp [GKeys.makeDump, hp, encV, encD, hal, kActive, kKeys, kPending, hpd]
    rw [e, core]
    unfold loadPending
    obtain ⟨n, hn'⟩ : ∃ n, (encStr kPending ++ (encV (.dict pd) ++ [101])).length = n + 1 :=
      ⟨_, (Nat.succ_pred_eq_of_pos (by rw [List.length_append]; have := encStr_length_pos kPending; omega)).symm⟩
    rw [hn', show (asc ['p', 'e', 'n', 'd', 'i', 'n', 'g']) = kPending from rfl, seekKey_hit]
    dsimp only
    rw [takeDict_enc _ (by simp [hpd, Bt.okD, Bt.ok, int64_intOk h2])]
    simp [hpd, dStr, dInt, dSeek, h2, h1, GKeys.persist, hp, GKeys.init]

end Verif
