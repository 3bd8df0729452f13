import Verif.GroupKeysDump
import Mathlib.Data.Finset.Max

/-!
# The keys of a group (C64–C69)

`KReach P s log`: `s` is the state of a `Keys` object after any sequence of `load_key_message`, `rekey`,
`dump` and restores; `log` lists the messages loaded, each with its hash and the keys it brought.
-/

namespace Verif

variable {P : GPrims}

/-! ### Specification -/

/-- Which of two keys is the newer one: by generation, then timestamp, then key bytes. -/
def NotOlder (m k : KeyInfo) : Prop :=
  k.gen < m.gen ∨ k.gen = m.gen ∧ (k.ts < m.ts ∨ k.ts = m.ts ∧ (k.key < m.key ∨ k.key = m.key))

/-- The key was brought by some loaded message. -/
def Got (log : List (Bytes × Found)) (k : KeyInfo) : Prop := ∃ h, Delivered log h k

/-- No message was loaded that brings the same key of the same generation with another timestamp. -/
def SameTimes (log : List (Bytes × Found)) : Prop :=
  ∀ k k', Got log k → Got log k' → k.gen = k'.gen → k.key = k'.key → k.ts = k'.ts

/-! ### The invariant holds in every reachable state -/

theorem notOlder_iff {m k : KeyInfo} : NotOlder m k ↔ k ≤ m := by
  rw [le_iff_lt_or_eq, KeyInfo.lt_def]
  unfold NotOlder
  constructor
  · rintro (h | ⟨h1, h | ⟨h2, h | h⟩⟩)
    · exact .inl (.inl h)
    · exact .inl (.inr ⟨h1, .inl h⟩)
    · exact .inl (.inr ⟨h1, .inr ⟨h2, h⟩⟩)
    · right; cases m; cases k; simp_all
  · rintro ((h | ⟨h1, h | ⟨h2, h⟩⟩) | h)
    · exact .inl h
    · exact .inr ⟨h1, .inl h⟩
    · exact .inr ⟨h1, .inr ⟨h2, .inl h⟩⟩
    · subst h; exact .inr ⟨rfl, .inr ⟨rfl, .inr rfl⟩⟩

theorem sameTimes_oneTime {log : List (Bytes × Found)} (h : SameTimes log) : OneTime (Delivered log) :=
  fun x k x' k' a b => h k k' ⟨x, a⟩ ⟨x', b⟩

theorem rekey_state {e : GEnv} {s s' : GKeys} {ids : List Bytes} {msg : Bytes}
    (h : s.rekey P e ids = .ok (s', msg)) : ∃ sk gen, e.groupSk = some sk ∧ s.nextGen = .ok gen ∧
      s' = ⟨s.keys, s.active, (rekeyHash P sk ids gen).take 32, msg, gen, true⟩ := by
  unfold GKeys.rekey at h
  split at h
  · cases h
  · rename_i sk hsk
    split at h
    · cases h
    · obtain ⟨gen, h1, h⟩ := Out.bind_eq_ok.1 h
      obtain ⟨pks, h2, h⟩ := Out.bind_eq_ok.1 h
      obtain ⟨msg', h3, h⟩ := Out.bind_eq_ok.1 h
      cases h
      exact ⟨sk, gen, hsk, h1, rfl⟩

theorem KReach.inv (hP : P.Good) {s : GKeys} {log : List (Bytes × Found)} (h : KReach P s log) :
    KInv (Delivered log) (fun x => ∃ f, (x, f) ∈ log) s ∧ RInv s := by
  induction h with
  | init =>
    refine ⟨⟨List.Pairwise.nil, ?_, List.Pairwise.nil, ?_, ?_, fun _ => rfl, ?_, ?_, ?_, ?_⟩, ?_, ?_, ?_⟩
    · intro x hx; cases hx
    · intro x hx; cases hx
    · intro f t hh; cases hh
    · intro x hx; cases hx
    · intro x hx; cases hx
    · rintro h k ⟨f, hf, _⟩; cases hf
    · rintro _ h k ⟨f, hf, _⟩; cases hf
    · intro x hx; cases hx
    · intro x hx; cases hx
    · intro hh; exact absurd rfl hh
  | @load s s' log e hash data ts f b hr hp hl ih =>
    obtain ⟨hi, hrv⟩ := ih
    unfold GKeys.load at hl
    rw [hp, Out.bind_ok] at hl
    have hs' : s' = (s.apply e.admin hash f).1 := (congrArg Prod.fst (Out.ok.inj hl)).symm
    subst hs'
    refine ⟨?_, hrv.apply hi e.admin (parseKeyMsg_ok hP hp)⟩
    have h1 := hi.apply e.admin (hash := hash) f
    have h2 := h1.congr (D' := Delivered (log ++ [(hash, f)])) (by
      intro x y
      simp only [Delivered, List.mem_append, List.mem_singleton, Prod.mk.injEq]
      constructor
      · rintro (⟨g, h1, h2⟩ | ⟨rfl, h2⟩)
        · exact ⟨g, .inl h1, h2⟩
        · exact ⟨f, .inr ⟨rfl, rfl⟩, h2⟩
      · rintro ⟨g, h1 | ⟨rfl, rfl⟩, h2⟩
        · exact .inl ⟨g, h1, h2⟩
        · exact .inr ⟨rfl, h2⟩)
    refine h2.weaken ?_
    rintro x (⟨g, hg⟩ | rfl)
    · exact ⟨g, List.mem_append_left _ hg⟩
    · exact ⟨f, by simp⟩
  | @rekey s s' log e ids msg hr hk ih =>
    obtain ⟨hi, hrv⟩ := ih
    obtain ⟨sk, gen, _, hg, rfl⟩ := rekey_state hk
    refine ⟨hi.pending rfl rfl, hrv.keys, hrv.active, fun _ => ⟨?_, ?_⟩⟩
    · show ((rekeyHash P sk ids gen).take 32).length = 32
      simp [rekeyHash, hP.hashLen]
    · show int64Ok gen = true
      unfold GKeys.nextGen at hg
      split at hg
      · cases hg; decide
      · rename_i k hk'
        split at hg
        · cases hg
        · rename_i hne
          cases hg
          have := KeyInfo.ok_gen (hrv.keys k (getLast_mem hk'))
          simp only [int64Ok, Bool.and_eq_true, decide_eq_true_eq] at this ⊢
          omega
  | dump hr ih => exact ⟨ih.1.pending rfl rfl, ih.2.keys, ih.2.active, ih.2.pending⟩
  | @restore s s' log hr hd ih =>
    obtain ⟨hi, hrv⟩ := ih
    rw [loadDump_makeDump hrv hi.asc hi.ascA fun e he => (hi.hashes e he).2] at hd
    cases hd
    refine ⟨hi.pending rfl rfl, hrv.keys, hrv.active, fun hh => ?_⟩
    have hh' : s.pendingConfig ≠ [] := hh
    have := hrv.pending hh'
    simpa [GKeys.persist, hh'] using this

/-! ### C64: the key used for encryption -/

theorem groupEncKey_top {s : GKeys} (hp : s.pendingConfig = []) {m : KeyInfo} (hm : s.keys.getLast? = some m) :
    s.groupEncKey = .ok m.key := by
  simp [GKeys.groupEncKey, hp, hm]

/-- C64.  Whatever messages a device has loaded, in whatever order, interleaved with dumps and restores:
as soon as one brought a key, and unless it has a pending rekey of its own, `group_enc_key` is the newest
key it was ever given (same keys having arrived with the same timestamps). -/
theorem enc_key_newest (hP : P.Good) {s : GKeys} {log : List (Bytes × Found)} (h : KReach P s log)
    (hone : SameTimes log) (hp : s.pendingConfig? = none) {k : KeyInfo} (hk : Got log k) :
    ∃ m, s.groupEncKey = .ok m.key ∧ Got log m ∧ ∀ k', Got log k' → NotOlder m k' := by
  have hp' : s.pendingConfig = [] := by
    unfold GKeys.pendingConfig? at hp; by_contra hh; simp [hh] at hp
  obtain ⟨hi, _⟩ := h.inv hP
  obtain ⟨x, hx⟩ := hk
  obtain ⟨m, hm, _⟩ := hi.top (sameTimes_oneTime hone) x k hx
  obtain ⟨y, hy, _⟩ := hi.alive m (getLast_mem hm)
  refine ⟨m, groupEncKey_top hp' hm, ⟨y, hy⟩, ?_⟩
  rintro k' ⟨z, hz⟩
  obtain ⟨m', hm', hle⟩ := hi.top (sameTimes_oneTime hone) z k' hz
  rw [hm] at hm'
  cases hm'
  exact notOlder_iff.2 hle

/-- C64.  Two devices that were given the same keys, by whatever messages in whatever orders, encrypt
with the same key. -/
theorem enc_key_agree (hP : P.Good) {s t : GKeys} {log log' : List (Bytes × Found)} (h : KReach P s log)
    (h' : KReach P t log') (hone : SameTimes log) (hsame : ∀ k, Got log k ↔ Got log' k)
    (hp : s.pendingConfig? = none) (hp' : t.pendingConfig? = none) : s.groupEncKey = t.groupEncKey := by
  have hone' : SameTimes log' := fun k k' a b => hone k k' ((hsame k).2 a) ((hsame k').2 b)
  by_cases hk : ∃ k, Got log k
  · obtain ⟨k, hk⟩ := hk
    obtain ⟨m, e, hm, hmax⟩ := enc_key_newest hP h hone hp hk
    obtain ⟨m', e', hm', hmax'⟩ := enc_key_newest hP h' hone' hp' ((hsame k).1 hk)
    have h1 := notOlder_iff.1 (hmax m' ((hsame m').2 hm'))
    have h2 := notOlder_iff.1 (hmax' m ((hsame m).1 hm))
    rw [e, e', le_antisymm h2 h1]
  · have empty : ∀ {s : GKeys} {log : List (Bytes × Found)}, KReach P s log → s.pendingConfig? = none →
        (¬∃ k, Got log k) → s.groupEncKey = .err .foreign := by
      intro s log h hp hk
      have hp' : s.pendingConfig = [] := by
        unfold GKeys.pendingConfig? at hp; by_contra hh; simp [hh] at hp
      have hn : s.keys = [] := by
        cases hs : s.keys with
        | nil => rfl
        | cons f t =>
          obtain ⟨y, hy, _⟩ := (h.inv hP).1.alive f (by rw [hs]; exact List.mem_cons_self ..)
          exact absurd ⟨f, y, hy⟩ hk
      simp [GKeys.groupEncKey, hp', hn]
    rw [empty h hp hk, empty h' hp' fun ⟨k, hh⟩ => hk ⟨k, (hsame k).2 hh⟩]

/-! ### C65: which keys are held -/

/-- C65.  A key is held only if a loaded message brought it, and of a key that was brought only copies
that came with another timestamp may be missing, unless a later generation was already more than 60 days
older than a key of that or a later generation. -/
theorem keys_held (hP : P.Good) {s : GKeys} {log : List (Bytes × Found)} (h : KReach P s log) :
    (∀ k ∈ s.keys, Got log k) ∧
    (∀ k, Got log k → (∃ k' ∈ s.keys, k'.gen = k.gen ∧ k'.key = k.key) ∨
      ∃ n m, Got log n ∧ Got log m ∧ k.gen < n.gen ∧ n.gen ≤ m.gen ∧ n.ts + 60 * 24 * 3600 * 1000 < m.ts) := by
  obtain ⟨hi, _⟩ := h.inv hP
  constructor
  · intro k hk
    obtain ⟨x, hx, _⟩ := hi.alive k hk
    exact ⟨x, hx⟩
  · rintro k ⟨x, hx⟩
    exact hi.kept x k hx

/-- C65.  The keys a device lists for decryption are its pending key, then all keys held, newest first;
no generation lists the same key twice. -/
theorem keys_listed (hP : P.Good) {s : GKeys} {log : List (Bytes × Found)} (h : KReach P s log) :
    s.groupKeys = (match s.pendingConfig? with | some _ => [s.pendingKey] | none => []) ++
      s.keys.reverse.map (·.key) ∧
    s.keys.reverse.Pairwise (fun a b => NotOlder a b ∧ ¬(a.gen = b.gen ∧ a.key = b.key)) ∧
    s.size = s.groupKeys.length := by
  obtain ⟨hi, _⟩ := h.inv hP
  refine ⟨?_, ?_, ?_⟩
  · unfold GKeys.groupKeys GKeys.pendingConfig?
    by_cases hp : s.pendingConfig = [] <;> simp [hp]
  · rw [List.pairwise_reverse]
    refine List.Pairwise.imp_of_mem ?_ hi.asc
    intro a b ha hb hlt
    refine ⟨notOlder_iff.2 hlt.le, ?_⟩
    rintro ⟨h1, h2⟩
    have := hi.uniq a ha b hb h1.symm h2.symm
    exact absurd this hlt.ne
  · unfold GKeys.size GKeys.groupKeys
    by_cases hp : s.pendingConfig = [] <;> simp [hp]

/-! ### C66: the messages to keep on the swarm -/

/-- C66.  The hashes a device reports as current are hashes of messages it loaded; every key it holds
was brought by a message whose hash is reported; and it reports none once it holds no key. -/
theorem current_hashes_cover (hP : P.Good) {s : GKeys} {log : List (Bytes × Found)} (h : KReach P s log) :
    (∀ x, s.isCurrentHash x → ∃ f, (x, f) ∈ log) ∧
    (∀ k ∈ s.keys, ∃ x f, s.isCurrentHash x ∧ (x, f) ∈ log ∧ k ∈ f.newKeys) ∧
    (s.keys = [] → ∀ x, ¬s.isCurrentHash x) := by
  obtain ⟨hi, _⟩ := h.inv hP
  refine ⟨?_, ?_, ?_⟩
  · rintro x ⟨e, he, hx⟩
    exact hi.hsound e he x hx
  · intro k hk
    obtain ⟨x, ⟨f, hf, hkf⟩, e, he, _, hx⟩ := hi.alive k hk
    exact ⟨x, f, ⟨e, he, hx⟩, hf, hkf⟩
  · rintro hk x ⟨e, he, _⟩
    rw [hi.none hk] at he
    cases he

/-! ### C67: dump and restore -/

/-- C67.  In every reachable state, restoring from a dump gives back the keys, the message hashes and the
pending rekey, and everything computed from them. -/
theorem keys_restore (hP : P.Good) {s : GKeys} {log : List (Bytes × Found)} (h : KReach P s log) :
    ∃ s', loadDump s.dump.2 = .ok s' ∧ s'.keys = s.keys ∧ s'.active = s.active ∧
      s'.pendingConfig? = s.pendingConfig? ∧ s'.groupKeys = s.groupKeys ∧ s'.groupEncKey = s.groupEncKey ∧
      s'.size = s.size ∧ (∀ x, s'.isCurrentHash x ↔ s.isCurrentHash x) ∧
      (∀ a, s'.needsRekey a = s.needsRekey a) ∧ (∀ e ids, s'.rekey P e ids = s.rekey P e ids) ∧
      (∀ e ids, s'.supplement P e ids = s.supplement P e ids) ∧ s'.needsDump = false := by
  obtain ⟨hi, hr⟩ := h.inv hP
  refine ⟨s.persist, loadDump_makeDump hr hi.asc hi.ascA fun e he => (hi.hashes e he).2, rfl, rfl, rfl, ?_, ?_, rfl,
    fun x => Iff.rfl, fun a => rfl,
    fun e ids => rfl, fun e ids => rfl, rfl⟩
  · unfold GKeys.groupKeys GKeys.persist
    by_cases hp : s.pendingConfig = [] <;> simp [hp]
  · unfold GKeys.groupEncKey GKeys.persist
    by_cases hp : s.pendingConfig = [] <;> simp [hp]

/-! ### C68: does the state need to be dumped? -/

/-- The two states differ in the message hashes only, and only in that `hash` may have been added. -/
def OnlyHash (hash : Bytes) (s s' : GKeys) : Prop :=
  s'.keys = s.keys ∧ s'.pendingConfig = s.pendingConfig ∧ s'.pendingKey = s.pendingKey ∧
    s'.pendingGen = s.pendingGen ∧ ∀ x, (s.isCurrentHash x → s'.isCurrentHash x) ∧
      (s'.isCurrentHash x → s.isCurrentHash x ∨ x = hash)

theorem isCurrentHash_iff {s : GKeys} {x : Bytes} : s.isCurrentHash x ↔ ∃ g, ∃ e ∈ s.active, e.1 = g ∧ x ∈ e.2 :=
  ⟨fun ⟨e, he, hx⟩ => ⟨e.1, e, he, rfl, hx⟩, fun ⟨_, e, he, _, hx⟩ => ⟨e, he, hx⟩⟩

theorem insertKey_flag {s : GKeys} {hash : Bytes} {k : KeyInfo} (ha : AscA s.active)
    (h : (s.insertKey hash k).needsDump = false) :
    s.needsDump = false ∧ AscA (s.insertKey hash k).active ∧ OnlyHash hash s (s.insertKey hash k) := by
  unfold GKeys.insertKey at h ⊢
  split at h
  · rename_i hd
    rw [if_pos hd]
    refine ⟨h, addHash_asc ha, rfl, rfl, rfl, rfl, fun x => ?_⟩
    rw [isCurrentHash_iff, isCurrentHash_iff]
    refine ⟨?_, ?_⟩
    · rintro ⟨g, hh⟩
      exact ⟨g, (mem_addHash ha).2 (.inr hh)⟩
    · rintro ⟨g, hh⟩
      rcases (mem_addHash ha).1 hh with ⟨_, hx⟩ | hh
      · exact .inr hx
      · exact .inl ⟨g, hh⟩
  · rename_i hd
    rw [if_neg hd]
    split at h
    · rename_i hs
      rw [if_pos hs]
      exact ⟨h, ha, rfl, rfl, rfl, rfl, fun x => ⟨id, .inl⟩⟩
    · cases h

theorem OnlyHash.trans {hash : Bytes} {s t u : GKeys} (h : OnlyHash hash s t) (h' : OnlyHash hash t u) :
    OnlyHash hash s u := by
  obtain ⟨a1, a2, a3, a4, a5⟩ := h
  obtain ⟨b1, b2, b3, b4, b5⟩ := h'
  refine ⟨b1.trans a1, b2.trans a2, b3.trans a3, b4.trans a4, fun x => ⟨fun hx => (b5 x).1 ((a5 x).1 hx), fun hx => ?_⟩⟩
  rcases (b5 x).2 hx with hx | hx
  · exact (a5 x).2 hx
  · exact .inr hx

theorem foldl_flag_mono {hash : Bytes} : ∀ (ks : List KeyInfo) {s : GKeys},
    (ks.foldl (fun s k => s.insertKey hash k) s).needsDump = false → s.needsDump = false
  | [], _, h => h
  | k :: t, s, h => by
    have h1 := foldl_flag_mono t (s := s.insertKey hash k) h
    unfold GKeys.insertKey at h1
    split at h1
    · exact h1
    · split at h1
      · exact h1
      · cases h1

theorem foldl_flag {hash : Bytes} : ∀ (ks : List KeyInfo) {s : GKeys}, AscA s.active →
    (ks.foldl (fun s k => s.insertKey hash k) s).needsDump = false →
    OnlyHash hash s (ks.foldl (fun s k => s.insertKey hash k) s)
  | [], _, _, _ => ⟨rfl, rfl, rfl, rfl, fun _ => ⟨id, .inl⟩⟩
  | k :: t, s, ha, h => by
    rw [List.foldl_cons] at h ⊢
    obtain ⟨_, h2, h3⟩ := insertKey_flag ha (foldl_flag_mono t h)
    exact h3.trans (foldl_flag t h2 h)

/-- C68 (part).  If an object did not need a dump and does not need one after loading a message, then the
keys and the pending rekey are as before; at most the hash of the message became current.  (That the
message hashes are as before too would be needed for the full property; it is false, see
`needs_dump_misses_hash`.) -/
theorem keys_needs_dump_partial (hP : P.Good) {s s' : GKeys} {log : List (Bytes × Found)} (h : KReach P s log)
    {e : GEnv} {hash data : Bytes} {ts : Int} {b : Bool} (hl : s.load P e hash data ts = .ok (s', b))
    (hs : s'.needsDump = false) : s.needsDump = false ∧ OnlyHash hash s s' := by
  obtain ⟨hi, _⟩ := h.inv hP
  unfold GKeys.load at hl
  obtain ⟨f, hf, hl⟩ := Out.bind_eq_ok.1 hl
  have e' : s' = (s.apply e.admin hash f).1 := (congrArg Prod.fst (Out.ok.inj hl)).symm
  subst e'
  unfold GKeys.apply at hs ⊢
  cases hk : f.newKeys with
  | nil =>
    rw [hk] at hs
    cases hm : f.maxGen with
    | none => rw [hm] at hs; exact ⟨hs, rfl, rfl, rfl, rfl, fun _ => ⟨id, .inl⟩⟩
    | some g => rw [hm] at hs; cases hs
  | cons k t =>
    rw [hk] at hs
    dsimp only at hs ⊢
    have hm := foldl_flag_mono (k :: t) hs
    have hd : s.dropPending e.admin (k :: t) = s := by
      unfold GKeys.dropPending at hm ⊢
      dsimp only at hm ⊢
      split at hm
      · cases hm
      · rename_i hc; rw [if_neg hc]
    rw [hd] at hs hm ⊢
    exact ⟨hm, foldl_flag (k :: t) hi.ascA hs⟩

/-! ### C69: when a new rekey is needed -/

theorem got_le_top (hP : P.Good) {s : GKeys} {log : List (Bytes × Found)} (h : KReach P s log) {k : KeyInfo}
    (hk : Got log k) : ∃ m, s.keys.getLast? = some m ∧ k.gen ≤ m.gen := by
  obtain ⟨hheld, hkept⟩ := keys_held hP h
  obtain ⟨hi, _⟩ := h.inv hP
  classical
  let L := log.flatMap fun x => x.2.newKeys
  have hL : ∀ k, Got log k ↔ k ∈ L := by
    intro k
    simp only [Got, Delivered, L, List.mem_flatMap, Prod.exists]
  obtain ⟨m, hm, hmax⟩ := Finset.exists_max_image L.toFinset (fun k => k.gen) ⟨k, by simpa using (hL k).1 hk⟩
  have hm' : Got log m := (hL m).2 (by simpa using hm)
  have hmax' : ∀ x, Got log x → x.gen ≤ m.gen := fun x hx => hmax x (by simpa using (hL x).1 hx)
  rcases hkept m hm' with ⟨k', hk', hg, _⟩ | ⟨n, _, hn, _, hlt, _⟩
  · obtain ⟨l, hl⟩ := ne_nil_getLast (l := s.keys) (by intro hh; rw [hh] at hk'; cases hk')
    have h1 := KeyInfo.gen_le (asc_getLast hi.asc hl hk')
    have h2 := hmax' k hk
    exact ⟨l, hl, by omega⟩
  · have := hmax' n hn; omega

/-- C69.  `needs_rekey` is true exactly for an admin that was given two different keys of the latest
generation it knows of, no matter in which order. -/
theorem needs_rekey_iff (hP : P.Good) {s : GKeys} {log : List (Bytes × Found)} (h : KReach P s log)
    (admin : Bool) : s.needsRekey admin = true ↔ admin = true ∧ ∃ a b, Got log a ∧ Got log b ∧
      a.gen = b.gen ∧ a.key ≠ b.key ∧ ∀ k, Got log k → k.gen ≤ a.gen := by
  obtain ⟨hheld, hkept⟩ := keys_held hP h
  obtain ⟨hi, _⟩ := h.inv hP
  have hlast : ∀ x t, s.keys.reverse = x :: t → s.keys.getLast? = some x := by
    intro x t hr
    rw [← List.head?_reverse, hr]; rfl
  have hdesc : s.keys.reverse.Pairwise (fun a b => b < a) := List.pairwise_reverse.2 hi.asc
  constructor
  · intro hn
    unfold GKeys.needsRekey at hn
    split at hn
    · rename_i x y t hr
      simp only [Bool.and_eq_true, beq_iff_eq] at hn
      have hx : x ∈ s.keys := List.mem_reverse.1 (by rw [hr]; simp)
      have hy : y ∈ s.keys := List.mem_reverse.1 (by rw [hr]; simp)
      refine ⟨hn.1, x, y, hheld x hx, hheld y hy, hn.2, ?_, ?_⟩
      · intro hh
        have e := hi.uniq x hx y hy hn.2 hh
        rw [hr] at hdesc
        have := (List.pairwise_cons.1 hdesc).1 y (List.mem_cons_self ..)
        exact absurd e.symm this.ne
      · intro k hk
        obtain ⟨m, hm, hle⟩ := got_le_top hP h hk
        rw [hlast x _ hr] at hm
        cases hm
        exact hle
    · cases hn
  · rintro ⟨ha, a, b, hga, hgb, hab, hne, hmax⟩
    have hin : ∀ x, Got log x → x.gen = a.gen → ∃ x' ∈ s.keys, x'.gen = a.gen ∧ x'.key = x.key := by
      intro x hx hxg
      rcases hkept x hx with ⟨k', hk', h1, h2⟩ | ⟨n, _, hn, _, hlt, _⟩
      · exact ⟨k', hk', h1.trans hxg, h2⟩
      · have := hmax n hn; omega
    obtain ⟨a', ha', hag, hak⟩ := hin a hga rfl
    obtain ⟨b', hb', hbg, hbk⟩ := hin b hgb hab.symm
    have hne' : a' ≠ b' := by
      intro hh; apply hne; rw [← hak, ← hbk, hh]
    unfold GKeys.needsRekey
    cases hr : s.keys.reverse with
    | nil =>
      rw [List.reverse_eq_nil_iff] at hr
      rw [hr] at ha'; cases ha'
    | cons x t =>
      cases t with
      | nil =>
        have h1 : a' ∈ s.keys.reverse := List.mem_reverse.2 ha'
        have h2 : b' ∈ s.keys.reverse := List.mem_reverse.2 hb'
        rw [hr] at h1 h2
        rw [List.mem_singleton] at h1 h2
        exact absurd (h1.trans h2.symm) hne'
      | cons y t =>
        dsimp only
        rw [ha, Bool.true_and, beq_iff_eq]
        rw [hr] at hdesc
        have hx : x ∈ s.keys := List.mem_reverse.1 (by rw [hr]; simp)
        have hxle := hmax x (hheld x hx)
        have hd := List.pairwise_cons.1 hdesc
        have hyx := KeyInfo.gen_le (hd.1 y (List.mem_cons_self ..)).le
        -- one of the two is not the first, hence at most the second
        have key : ∀ z ∈ s.keys, z.gen = a.gen → z ≠ x → a.gen ≤ y.gen := by
          intro z hz hzg hzx
          have hz' : z ∈ s.keys.reverse := List.mem_reverse.2 hz
          rw [hr] at hz'
          rcases List.mem_cons.1 hz' with h1 | h1
          · exact absurd h1 hzx
          · rcases List.mem_cons.1 h1 with h1 | h1
            · subst h1; omega
            · have := KeyInfo.gen_le ((List.pairwise_cons.1 hd.2).1 z h1).le
              omega
        have hya : a.gen ≤ y.gen := by
          by_cases hax : a' = x
          · exact key b' hb' hbg fun hh => hne' (hax.trans hh.symm)
          · exact key a' ha' hag hax
        omega

end Verif
