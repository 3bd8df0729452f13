import Verif.Props.GroupAuth

/-!
# Group keys: concrete cases and counterexamples (C64–C72)
-/

namespace Verif

/-! ### Example primitives -/

/-- Example primitives: not secure, but with the functional properties. -/
def toyG : GPrims where
  toMPrims := toyM
  hashN := fun n k x => ((x.sum + k.sum) :: (k ++ List.replicate n 0)).take n
  edPub := fun s => (s ++ List.replicate 32 0).take 32
  xsk := fun s => (s ++ List.replicate 32 0).take 32
  xpk := fun p => some p
  sign := fun s x => (s ++ List.replicate 32 0).take 32 ++ (List.replicate 31 0 ++ [x.sum])
  verify := fun pk x sig => decide (sig = pk ++ (List.replicate 31 0 ++ [x.sum]))
  rng := fun s n => (List.replicate n (s.headD 0))

theorem toyG_good : toyG.Good where
  m := toyM_good
  hashLen := fun n k x => by simp [toyG]; omega
  xskLen := fun s => by simp [toyG]
  xpkPub := fun s => by
    have h : ((s ++ List.replicate 32 0).take 32).length = 32 := by simp
    show some _ = some (((s ++ List.replicate 32 0).take 32 ++ List.replicate 32 0).take 32)
    rw [List.take_append_of_le_length (by omega), List.take_take]
    rfl
  signLen := fun s x => by simp [toyG]
  signOk := fun s x => by simp [toyG]
  rngLen := fun s n => by simp [toyG]

def gSk : Bytes := List.replicate 32 3
def gU1 : Bytes := List.replicate 32 5
def gU2 : Bytes := List.replicate 32 6

/-- An admin and two members. -/
def gAdmin : GEnv := ⟨List.replicate 32 9, toyG.edPub gSk, some gSk⟩
def gMem1 : GEnv := ⟨gU1, toyG.edPub gSk, none⟩
def gMem2 : GEnv := ⟨gU2, toyG.edPub gSk, none⟩

def gIds : List Bytes := [toHex (5 :: toyG.pubOf (toyG.xsk gU1)), toHex (5 :: toyG.pubOf (toyG.xsk gU2))]

theorem gAdmin_own : OwnKey toyG gAdmin gSk := ⟨rfl, rfl⟩

/-! ### Messages with given keys exist -/

section
variable {P : GPrims}

/-- For every key and generation there is a message that brings it to the admins. -/
theorem message_exists (hP : P.Good) {e : GEnv} {sk : Bytes} (he : OwnKey P e sk) {k : KeyInfo}
    (hk : k.ok = true) (hg : 0 ≤ k.gen) : ∃ data, parseKeyMsg P e data k.ts = .ok ⟨[k], none⟩ := by
  obtain ⟨he1, he2⟩ := he
  simp only [KeyInfo.ok, Bool.and_eq_true, beq_iff_eq] at hk
  obtain ⟨⟨h1, h2⟩, h3⟩ := hk
  have hx : P.xpk e.groupPk = some (P.pubOf (P.xsk sk)) := by rw [he2, hP.xpkPub]
  refine ⟨_, (parseKeyMsg_full hP (u := e) (sk := sk) (nonce := List.replicate 24 0)
    (act := P.aead (seedHash P sk kAdmin) (List.replicate 24 0) k.key) (gen := k.gen) (cts := []) he2 hx h2 hg h1).trans ?_⟩
  unfold loadFull
  rw [if_neg (by simp), if_neg (by rw [hP.m.aeadLen, h3]; simp), if_neg (by simp), if_neg (by simp), he1]
  dsimp only
  rw [multiOpen_eq hP.m, show (List.replicate 24 (0 : UInt8)).take 24 = List.replicate 24 0 by rfl, hP.m.openSeal]
  rfl

/-- What an admin holds after loading messages that bring one key each. -/
def afterKeys (l : List (Bytes × KeyInfo)) : GKeys :=
  l.foldl (fun s x => (s.apply true x.1 ⟨[x.2], none⟩).1) .init

def logOf (l : List (Bytes × KeyInfo)) : List (Bytes × Found) := l.map fun x => (x.1, ⟨[x.2], none⟩)

theorem reach_after (hP : P.Good) {e : GEnv} {sk : Bytes} (he : OwnKey P e sk) :
    ∀ (l : List (Bytes × KeyInfo)), (∀ x ∈ l, x.2.ok = true ∧ 0 ≤ x.2.gen) → KReach P (afterKeys l) (logOf l) := by
  intro l
  induction l using List.reverseRecOn with
  | nil => intro _; exact .init
  | append_singleton l x ih =>
    intro h
    have h0 := ih fun y hy => h y (List.mem_append_left _ hy)
    obtain ⟨hx1, hx2⟩ := h x (by simp)
    obtain ⟨data, hd⟩ := message_exists hP he hx1 hx2
    have hl : (afterKeys l).load P e x.1 data x.2.ts = .ok ((afterKeys l).apply true x.1 ⟨[x.2], none⟩) := by
      unfold GKeys.load
      rw [hd, Out.bind_ok]
      have : e.admin = true := by simp [GEnv.admin, he.1]
      rw [this]
    have e1 : afterKeys (l ++ [x]) = ((afterKeys l).apply true x.1 ⟨[x.2], none⟩).1 := by
      simp [afterKeys, List.foldl_append]
    have e2 : logOf (l ++ [x]) = logOf l ++ [(x.1, ⟨[x.2], none⟩)] := by simp [logOf]
    rw [e1, e2]
    exact .load (b := ((afterKeys l).apply true x.1 ⟨[x.2], none⟩).2) h0 hd hl

theorem got_logOf {l : List (Bytes × KeyInfo)} {k : KeyInfo} : Got (logOf l) k ↔ ∃ h, (h, k) ∈ l := by
  unfold Got Delivered logOf
  constructor
  · rintro ⟨h, f, hf, hk⟩
    obtain ⟨x, hx, e⟩ := List.mem_map.1 hf
    cases e
    exact ⟨x.1, by rw [List.mem_singleton.1 hk]; exact hx⟩
  · rintro ⟨h, hk⟩
    exact ⟨h, ⟨[k], none⟩, List.mem_map.2 ⟨(h, k), hk, rfl⟩, by simp⟩

end

def gKeyA : Bytes := List.replicate 32 1
def gKeyB : Bytes := List.replicate 32 2
def gDay : Int := 24 * 3600 * 1000

/-! ### C64: what happens if a key comes with two timestamps -/

def gOrder1 : List (Bytes × KeyInfo) := [([1], ⟨0, 10, gKeyA⟩), ([2], ⟨0, 20, gKeyB⟩), ([3], ⟨0, 30, gKeyA⟩)]
def gOrder2 : List (Bytes × KeyInfo) := [([3], ⟨0, 30, gKeyA⟩), ([2], ⟨0, 20, gKeyB⟩), ([1], ⟨0, 10, gKeyA⟩)]

/-- C64.  Without the assumption that a key comes with one timestamp only, the claim is false: two
devices that loaded the same three messages, in opposite orders, encrypt with different keys. -/
theorem enc_key_needs_same_times : KReach toyG (afterKeys gOrder1) (logOf gOrder1) ∧
    KReach toyG (afterKeys gOrder2) (logOf gOrder2) ∧ (∀ k, Got (logOf gOrder1) k ↔ Got (logOf gOrder2) k) ∧
    (afterKeys gOrder1).groupEncKey = .ok gKeyB ∧ (afterKeys gOrder2).groupEncKey = .ok gKeyA := by
  refine ⟨reach_after toyG_good gAdmin_own _ (by decide +kernel), reach_after toyG_good gAdmin_own _ (by decide +kernel), ?_, ?_, ?_⟩
  · intro k
    rw [got_logOf, got_logOf]
    simp only [gOrder1, gOrder2, List.mem_cons, List.not_mem_nil, or_false]
    constructor <;> rintro ⟨h, h' | h' | h'⟩ <;> exact ⟨h, by simp [h']⟩
  · decide +kernel
  · decide +kernel

/-! ### C65: out-of-order timestamps -/

def gLate : List (Bytes × KeyInfo) :=
  [([1], ⟨1, 0, gKeyA⟩), ([2], ⟨2, 100 * gDay, gKeyA⟩), ([3], ⟨3, 200 * gDay, gKeyA⟩),
   ([4], ⟨4, 120 * gDay, gKeyA⟩), ([0], ⟨0, 0, gKeyB⟩)]
def gEarly : List (Bytes × KeyInfo) :=
  [([0], ⟨0, 0, gKeyB⟩), ([1], ⟨1, 0, gKeyA⟩), ([2], ⟨2, 100 * gDay, gKeyA⟩), ([3], ⟨3, 200 * gDay, gKeyA⟩),
   ([4], ⟨4, 120 * gDay, gKeyA⟩)]

/-- C65.  If timestamps are not in the order of the generations, the keys held depend on the order of
arrival: the same five messages leave the oldest key with one device and not with the other. -/
theorem held_needs_times_in_order : KReach toyG (afterKeys gLate) (logOf gLate) ∧
    KReach toyG (afterKeys gEarly) (logOf gEarly) ∧ (∀ k, Got (logOf gLate) k ↔ Got (logOf gEarly) k) ∧
    SameTimes (logOf gLate) ∧ gKeyB ∈ (afterKeys gLate).groupKeys ∧ gKeyB ∉ (afterKeys gEarly).groupKeys := by
  refine ⟨reach_after toyG_good gAdmin_own _ (by decide +kernel),
    reach_after toyG_good gAdmin_own _ (by decide +kernel), ?_, ?_, ?_, ?_⟩
  · intro k
    rw [got_logOf, got_logOf]
    simp only [gLate, gEarly, List.mem_cons, List.not_mem_nil, or_false]
    constructor <;> rintro ⟨h, h' | h' | h' | h' | h'⟩ <;> exact ⟨h, by simp [h']⟩
  · intro k k' hk hk' hg _
    rw [got_logOf] at hk hk'
    obtain ⟨h, hk⟩ := hk
    obtain ⟨h', hk'⟩ := hk'
    simp only [gLate, List.mem_cons, List.not_mem_nil, or_false, Prod.mk.injEq] at hk hk'
    rcases hk with ⟨_, rfl⟩ | ⟨_, rfl⟩ | ⟨_, rfl⟩ | ⟨_, rfl⟩ | ⟨_, rfl⟩ <;>
      rcases hk' with ⟨_, rfl⟩ | ⟨_, rfl⟩ | ⟨_, rfl⟩ | ⟨_, rfl⟩ | ⟨_, rfl⟩ <;> first | rfl | (simp at hg)
  · decide +kernel
  · decide +kernel

/-! ### C68: a changed hash list without the dump flag -/

/-- C68.  The full claim is false: loading a message that brings a known key under a new hash makes that
hash current, so that the dump changes, but the object does not say that it needs a dump. -/
theorem needs_dump_misses_hash : ∃ s s' log data, KReach toyG s log ∧ s.needsDump = false ∧
    s.load toyG gAdmin [2] data 10 = .ok (s', true) ∧ s'.needsDump = false ∧ s'.isCurrentHash [2] ∧
    ¬s.isCurrentHash [2] ∧ s'.dump.2 ≠ s.dump.2 := by
  obtain ⟨data, hd⟩ := message_exists toyG_good gAdmin_own (k := ⟨0, 10, gKeyA⟩) (by decide +kernel) (by decide)
  refine ⟨(afterKeys [([1], ⟨0, 10, gKeyA⟩)]).dump.1,
    ((afterKeys [([1], ⟨0, 10, gKeyA⟩)]).dump.1.apply true [2] ⟨[⟨0, 10, gKeyA⟩], none⟩).1,
    logOf [([1], ⟨0, 10, gKeyA⟩)], data,
    .dump (reach_after toyG_good gAdmin_own _ (by decide +kernel)), rfl, ?_, by decide +kernel, ?_, ?_, ?_⟩
  · unfold GKeys.load
    rw [hd, Out.bind_ok]
    rfl
  · refine ⟨(0, [[1], [2]]), by decide +kernel, by decide⟩
  · rintro ⟨e, he, hx⟩
    have : ∀ e ∈ (afterKeys [([1], ⟨0, 10, gKeyA⟩)]).dump.1.active, ([2] : Bytes) ∉ e.2 := by decide +kernel
    exact this e he hx
  · decide +kernel

/-! ### Concrete cases for the theorems -/

theorem toyTag_ne {K K' n m : Bytes} (hn : n.length = 24) (hK : 8 ≤ K.length) (hK' : 8 ≤ K'.length)
    (h : K.reverse.take 8 ≠ K'.reverse.take 8) : toyM.aeadOpen K n (toyM.aead K' n m) = none := by
  have ht : ∀ k : Bytes, 8 ≤ k.length → ((toyTag k n).drop 8).take 8 = k.reverse.take 8 := by
    intro k hk
    unfold toyTag
    have h4 : (k.take 4).length = 4 := by rw [List.length_take]; omega
    have h5 : (n.take 4).length = 4 := by rw [List.length_take]; omega
    have h6 : (k.reverse.take 8).length = 8 := by rw [List.length_take, List.length_reverse]; omega
    rw [List.drop_take, List.take_take]
    rw [List.append_assoc, List.drop_append_of_le_length (by rw [List.length_append]; omega)]
    rw [List.drop_of_length_le (by rw [List.length_append]; omega), List.nil_append]
    rw [List.take_append_of_le_length (by rw [h6]; decide)]
    rw [List.take_take]
    rfl
  unfold toyM
  dsimp only
  rw [if_neg]
  rintro ⟨h1, _⟩
  have hl : (toyTag K' n).length = 16 := by simp [toyTag]; omega
  rw [List.length_append, hl, Nat.add_sub_cancel, List.drop_left] at h1
  exact h (by rw [← ht K hK, ← ht K' hK', h1])

theorem noConfusion_toy {u v K nonce key : Bytes} (hn : nonce.length = 24)
    (huv : (toyG.pubOf (toyG.xsk u)).reverse.take 8 ≠ (toyG.pubOf (toyG.xsk v)).reverse.take 8)
    (hK : SharedKey toyG.toMPrims (toyG.xsk gSk) (toyG.xsk u) kMember K) {ids : List Bytes}
    (hids : ∀ x ∈ ids, x = toHex (5 :: toyG.pubOf (toyG.xsk u)) ∨ x = toHex (5 :: toyG.pubOf (toyG.xsk v))) :
    NoConfusion toyG K nonce key ids gSk := by
  intro sid hsid pk K' hpk hK' hne
  have last8 : ∀ {w k : Bytes}, SharedKey toyG.toMPrims (toyG.xsk gSk) (toyG.xsk w) kMember k →
      8 ≤ k.length ∧ k.reverse.take 8 = (toyG.pubOf (toyG.xsk w)).reverse.take 8 := by
    rintro w k ⟨s, _, rfl⟩
    have hl : (toyG.pubOf (toyG.xsk w)).length = 32 := toyM_good.pubLen _
    have e : toyG.hash (kMember.take 64) (s ++ toyG.pubOf (toyG.xsk gSk) ++ toyG.pubOf (toyG.xsk w)) =
      kMember.take 64 ++ (s ++ toyG.pubOf (toyG.xsk gSk) ++ toyG.pubOf (toyG.xsk w)) := rfl
    rw [e]
    refine ⟨by simp only [List.length_append]; omega, ?_⟩
    rw [← List.append_assoc, List.reverse_append, List.take_append_of_le_length (by rw [List.length_reverse]; omega)]
  rcases hids sid hsid with rfl | rfl
  · rw [show sessionIdPk (toHex (5 :: toyG.pubOf (toyG.xsk u))) = _ from sessionIdPk_toHex (toyG_good.m.pubLen _)] at hpk
    cases hpk
    rw [multiKey_send hK] at hK'
    exact absurd (Option.some.inj hK').symm hne
  · rw [show sessionIdPk (toHex (5 :: toyG.pubOf (toyG.xsk v))) = _ from sessionIdPk_toHex (toyG_good.m.pubLen _)] at hpk
    cases hpk
    obtain ⟨K2, hK2⟩ := sharedKey_exists toyM_good (toyG.xsk gSk) (toyG.xsk v) kMember
    have e : K' = K2 := by
      rw [show multiKey toyG.toMPrims (toyG.xsk gSk) (toyG.pubOf (toyG.xsk gSk)) (toyG.pubOf (toyG.xsk v)) true kMember =
        some K2 from multiKey_send hK2] at hK'
      exact (Option.some.inj hK').symm
    subst e
    obtain ⟨a1, a2⟩ := last8 hK
    obtain ⟨b1, b2⟩ := last8 hK2
    exact toyTag_ne hn a1 b1 (by rw [a2, b2]; exact huv)

/-- A first rekey for two members: it succeeds; the other admins and both members find the new key, and
encrypt with it once they have loaded the message; the admin's pending rekey is gone then. -/
theorem toy_rekey : ∃ s' msg, GKeys.init.rekey toyG gAdmin gIds = .ok (s', msg) ∧ s'.pendingGen = 0 ∧
    (∀ u ∈ [gAdmin, gMem1, gMem2], parseKeyMsg toyG u msg 1000 = .ok ⟨[⟨0, 1000, s'.pendingKey⟩], none⟩ ∧
      ∃ t', GKeys.init.load toyG u [7] msg 1000 = .ok (t', true) ∧
        KReach toyG t' [([7], ⟨[⟨0, 1000, s'.pendingKey⟩], none⟩)] ∧ t'.groupEncKey = .ok s'.pendingKey) ∧
    ∃ t', s'.load toyG gAdmin [7] msg 1000 = .ok (t', true) ∧ s'.pendingConfig? = some msg ∧
      t'.pendingConfig? = none ∧ t'.groupEncKey = .ok s'.pendingKey := by
  obtain ⟨s', msg, h⟩ := rekey_succeeds (s := GKeys.init) (ids := gIds) toyG_good gAdmin_own (by
    intro sid hsid
    simp only [gIds, List.mem_cons, List.not_mem_nil, or_false] at hsid
    rcases hsid with rfl | rfl
    · exact ⟨_, toyM_good.pubLen _, rfl⟩
    · exact ⟨_, toyM_good.pubLen _, rfl⟩) (by intro k hk; cases hk)
  have hg : s'.pendingGen = 0 := by
    obtain ⟨sk, gen, _, h3, rfl⟩ := rekey_state h
    cases h3; rfl
  have hne : (toyG.pubOf (toyG.xsk gU1)).reverse.take 8 ≠ (toyG.pubOf (toyG.xsk gU2)).reverse.take 8 := by
    decide +kernel
  have hparse : ∀ u ∈ [gAdmin, gMem1, gMem2],
      parseKeyMsg toyG u msg 1000 = .ok ⟨[⟨0, 1000, s'.pendingKey⟩], none⟩ := by
    intro u hu
    simp only [List.mem_cons, List.not_mem_nil, or_false] at hu
    rw [← hg]
    rcases hu with rfl | rfl | rfl
    · exact (rekey_reaches toyG_good gAdmin_own h (fun k hk => (by cases hk)) (u := gAdmin) rfl (by decide +kernel)).1 rfl
    · refine (rekey_reaches toyG_good gAdmin_own h (fun k hk => (by cases hk)) (u := gMem1) rfl (by decide +kernel)).2 rfl
        (by simp [gIds, gMem1]) ?_
      intro K nonce hK hn
      exact noConfusion_toy (u := gU1) (v := gU2) hn hne hK (by simp [gIds])
    · refine (rekey_reaches toyG_good gAdmin_own h (fun k hk => (by cases hk)) (u := gMem2) rfl (by decide +kernel)).2 rfl
        (by simp [gIds, gMem2]) ?_
      intro K nonce hK hn
      exact noConfusion_toy (u := gU2) (v := gU1) hn hne.symm hK (by simp [gIds])
  refine ⟨s', msg, h, hg, fun u hu => ⟨hparse u hu, ?_⟩, ?_⟩
  · have hl : GKeys.init.load toyG u [7] msg 1000 = .ok (GKeys.init.apply u.admin [7] ⟨[⟨0, 1000, s'.pendingKey⟩], none⟩) := by
      unfold GKeys.load; rw [hparse u hu, Out.bind_ok]
    have ht := new_key_takes_over toyG_good (.init : KReach toyG .init []) (hparse u hu)
      (t' := (GKeys.init.apply u.admin [7] ⟨[⟨0, 1000, s'.pendingKey⟩], none⟩).1)
      (b := (GKeys.init.apply u.admin [7] ⟨[⟨0, 1000, s'.pendingKey⟩], none⟩).2) hl
      (by rintro x ⟨_, _, hx, _⟩; cases hx) (.inl rfl)
    refine ⟨_, hl, ?_, ht.2.2.1⟩
    exact KReach.load (.init : KReach toyG .init []) (hparse u hu) hl
  · have hl : s'.load toyG gAdmin [7] msg 1000 = .ok (s'.apply true [7] ⟨[⟨0, 1000, s'.pendingKey⟩], none⟩) := by
      unfold GKeys.load; rw [hparse gAdmin (by simp), Out.bind_ok]; rfl
    have hr : KReach toyG s' [] := .rekey (.init : KReach toyG .init []) h
    have ht := new_key_takes_over toyG_good hr (hparse gAdmin (by simp))
      (t' := (s'.apply true [7] ⟨[⟨0, 1000, s'.pendingKey⟩], none⟩).1)
      (b := (s'.apply true [7] ⟨[⟨0, 1000, s'.pendingKey⟩], none⟩).2) hl
      (by rintro x ⟨_, _, hx, _⟩; cases hx) (.inr ⟨rfl, .inr rfl⟩)
    exact ⟨_, hl, (rekey_newer toyG_good (.init : KReach toyG .init []) h).2.2.1, ht.2.1, ht.2.2.1⟩

/-- A colliding rekey: two keys of generation 1 after one of generation 0; the admin must rekey, and both
orders of arrival give the same keys. -/
def gClash1 : List (Bytes × KeyInfo) := [([1], ⟨0, 10, gKeyA⟩), ([2], ⟨1, 20, gKeyB⟩), ([3], ⟨1, 30, gKeyA⟩)]
def gClash2 : List (Bytes × KeyInfo) := [([3], ⟨1, 30, gKeyA⟩), ([1], ⟨0, 10, gKeyA⟩), ([2], ⟨1, 20, gKeyB⟩)]

theorem gClash_times : SameTimes (logOf gClash1) ∧ TimesInOrder (logOf gClash1) ∧
    ∀ k, Got (logOf gClash1) k ↔ Got (logOf gClash2) k := by
  refine ⟨?_, ?_, ?_⟩
  · intro k k' hk hk' hg hkk
    rw [got_logOf] at hk hk'
    obtain ⟨h, hk⟩ := hk
    obtain ⟨h', hk'⟩ := hk'
    simp only [gClash1, List.mem_cons, List.not_mem_nil, or_false, Prod.mk.injEq] at hk hk'
    rcases hk with ⟨_, rfl⟩ | ⟨_, rfl⟩ | ⟨_, rfl⟩ <;> rcases hk' with ⟨_, rfl⟩ | ⟨_, rfl⟩ | ⟨_, rfl⟩ <;>
      first | rfl | (exact absurd hg (by decide)) | (exact absurd hkk (by decide +kernel))
  · intro k k' hk hk' hg
    rw [got_logOf] at hk hk'
    obtain ⟨h, hk⟩ := hk
    obtain ⟨h', hk'⟩ := hk'
    simp only [gClash1, List.mem_cons, List.not_mem_nil, or_false, Prod.mk.injEq] at hk hk'
    rcases hk with ⟨_, rfl⟩ | ⟨_, rfl⟩ | ⟨_, rfl⟩ <;> rcases hk' with ⟨_, rfl⟩ | ⟨_, rfl⟩ | ⟨_, rfl⟩ <;>
      first | (exact absurd hg (by decide)) | (show (_ : Int) ≤ _; decide)
  · intro k
    rw [got_logOf, got_logOf]
    simp only [gClash1, gClash2, List.mem_cons, List.not_mem_nil, or_false]
    constructor <;> rintro ⟨h, h' | h' | h'⟩ <;> exact ⟨h, by simp [h']⟩

theorem gClash1_reach : KReach toyG (afterKeys gClash1) (logOf gClash1) :=
  reach_after toyG_good gAdmin_own _ (by decide +kernel)
theorem gClash2_reach : KReach toyG (afterKeys gClash2) (logOf gClash2) :=
  reach_after toyG_good gAdmin_own _ (by decide +kernel)

/-- C64, C65, C69 applied to it. -/
example : (afterKeys gClash1).groupEncKey = (afterKeys gClash2).groupEncKey ∧
    (afterKeys gClash1).groupEncKey = .ok gKeyA ∧ (afterKeys gClash1).keys = (afterKeys gClash2).keys ∧
    (afterKeys gClash1).keys.length = 3 ∧ (afterKeys gClash1).needsRekey true = true ∧
    (∃ m, (afterKeys gClash1).groupEncKey = .ok m.key ∧ ∀ k, Got (logOf gClash1) k → NotOlder m k) := by
  obtain ⟨h1, h2, h3⟩ := gClash_times
  refine ⟨enc_key_agree toyG_good gClash1_reach gClash2_reach h1 h3 (by decide +kernel) (by decide +kernel),
    by decide +kernel, keys_held_agree toyG_good gClash1_reach gClash2_reach h1 h2 h3, by decide +kernel, ?_, ?_⟩
  · refine (needs_rekey_iff toyG_good gClash1_reach true).2 ⟨rfl, ⟨1, 20, gKeyB⟩, ⟨1, 30, gKeyA⟩, ?_, ?_, rfl, by decide +kernel, ?_⟩
    · exact got_logOf.2 ⟨[2], by decide +kernel⟩
    · exact got_logOf.2 ⟨[3], by decide +kernel⟩
    · intro k hk
      obtain ⟨h, hk⟩ := got_logOf.1 hk
      have : ∀ x ∈ gClash1, x.2.gen ≤ 1 := by decide +kernel
      exact this _ hk
  · obtain ⟨m, e, _, hm⟩ := enc_key_newest toyG_good gClash1_reach h1 (by decide +kernel)
      (k := ⟨0, 10, gKeyA⟩) (got_logOf.2 ⟨[1], by decide +kernel⟩)
    exact ⟨m, e, hm⟩

/-- C66, C67 applied to it; the keys of a restored object. -/
example : (∀ k ∈ (afterKeys gClash1).keys, ∃ x f, (afterKeys gClash1).isCurrentHash x ∧ (x, f) ∈ logOf gClash1 ∧
      k ∈ f.newKeys) ∧ ∃ s', loadDump (afterKeys gClash1).dump.2 = .ok s' ∧ s'.keys = (afterKeys gClash1).keys := by
  obtain ⟨s', h1, h2, _⟩ := keys_restore toyG_good gClash1_reach
  exact ⟨(current_hashes_cover toyG_good gClash1_reach).2.1, s', h1, h2⟩

/-- C65: with an expired generation: the first key is gone, in whatever order. -/
example : (afterKeys [([1], ⟨0, 0, gKeyA⟩), ([2], ⟨1, gDay, gKeyB⟩), ([3], ⟨2, 62 * gDay, gKeyA⟩)]).keys =
    [⟨1, gDay, gKeyB⟩, ⟨2, 62 * gDay, gKeyA⟩] := by decide +kernel

/-- C72 applied: a supplement for one new member. -/
theorem toy_supplement : ∃ msg, (afterKeys gClash1).supplement toyG gAdmin [toHex (5 :: toyG.pubOf (toyG.xsk gU1))] = .ok msg ∧
    ∃ t', GKeys.init.load toyG gMem1 [9] msg 5000 = .ok (t', true) ∧ t'.keys = (afterKeys gClash1).keys ∧
      t'.groupEncKey = .ok gKeyA := by
  have hne : (toyG.pubOf (toyG.xsk gU1)).reverse.take 8 ≠ (toyG.pubOf (toyG.xsk gU2)).reverse.take 8 := by
    decide +kernel
  obtain ⟨msg, hm⟩ : ∃ msg, (afterKeys gClash1).supplement toyG gAdmin [toHex (5 :: toyG.pubOf (toyG.xsk gU1))] = .ok msg := by
    have : ((afterKeys gClash1).supplement toyG gAdmin [toHex (5 :: toyG.pubOf (toyG.xsk gU1))]).isOk = true := by
      decide +kernel
    cases h : (afterKeys gClash1).supplement toyG gAdmin [toHex (5 :: toyG.pubOf (toyG.xsk gU1))] with
    | ok m => exact ⟨m, rfl⟩
    | err _ => rw [h] at this; cases this
    | hang => rw [h] at this; cases this
    | ub => rw [h] at this; cases this
  obtain ⟨g, _, _, h3⟩ := supplement_reaches toyG_good gClash1_reach gAdmin_own hm (u := gMem1) rfl 5000
  have hp := h3 rfl (by simp [gMem1]) (by
    intro K nonce hK hn
    exact noConfusion_toy (u := gU1) (v := gU2) hn hne hK (by simp))
  have hl : GKeys.init.load toyG gMem1 [9] msg 5000 =
      .ok (GKeys.init.apply gMem1.admin [9] ⟨(afterKeys gClash1).keys, some g⟩) := by
    unfold GKeys.load; rw [hp, Out.bind_ok]
  have hf := supplement_fresh toyG_good gClash1_reach (u := gMem1) (by decide +kernel) hp
    (t' := (GKeys.init.apply gMem1.admin [9] ⟨(afterKeys gClash1).keys, some g⟩).1)
    (b := (GKeys.init.apply gMem1.admin [9] ⟨(afterKeys gClash1).keys, some g⟩).2) hl
  refine ⟨msg, hm, _, ?_, hf.2.1 (by decide +kernel), ?_⟩
  · rw [hl, ← hf.2.2.1]
  · rw [hf.1 (by decide +kernel)]; decide +kernel

/-- C71 applied: the signature of the rekey message above. -/
example : ∃ s' msg, GKeys.init.rekey toyG gAdmin gIds = .ok (s', msg) ∧
    ∃ signed rest sig, msg = signed ++ rest ∧ sig <:+: rest ∧ sig.length = 64 ∧
      toyG.verify gMem1.groupPk signed sig = true ∧ CameFrom toyG gMem1 signed 1000 [⟨0, 1000, s'.pendingKey⟩] := by
  obtain ⟨s', msg, h, _, hp, _⟩ := toy_rekey
  obtain ⟨a, b, c, h1, h2, h3, h4, h5⟩ := keymsg_authentic toyG_good (hp gMem1 (by simp)).1
  exact ⟨s', msg, h, a, b, c, h1, h2, h3, h4, h5 (by simp)⟩

end Verif
