import Verif.GroupKeysLemmas

/-!
# Invariant of a group key list
-/

namespace Verif

variable (P : GPrims)

/-- The states of a `Keys` object, with the messages loaded so far (hash and what was found in each):
any sequence of loads, rekeys, dumps and restores from dumps; the object may get the admin key in
between. -/
inductive KReach : GKeys → List (Bytes × Found) → Prop
  | init : KReach .init []
  | load {s s' : GKeys} {log : List (Bytes × Found)} {e : GEnv} {hash data : Bytes} {ts : Int} {f : Found}
      {b : Bool} : KReach s log → parseKeyMsg P e data ts = .ok f →
      s.load P e hash data ts = .ok (s', b) → KReach s' (log ++ [(hash, f)])
  | rekey {s s' : GKeys} {log : List (Bytes × Found)} {e : GEnv} {ids : List Bytes} {msg : Bytes} :
      KReach s log → s.rekey P e ids = .ok (s', msg) → KReach s' log
  | dump {s : GKeys} {log : List (Bytes × Found)} : KReach s log → KReach s.dump.1 log
  | restore {s s' : GKeys} {log : List (Bytes × Found)} : KReach s log → loadDump s.makeDump = .ok s' →
      KReach s' log

/-- A key was delivered by the message with this hash. -/
def Delivered (log : List (Bytes × Found)) (h : Bytes) (k : KeyInfo) : Prop :=
  ∃ f, (h, f) ∈ log ∧ k ∈ f.newKeys

/-- Every (generation, key) was delivered with one timestamp only. -/
def OneTime (D : Bytes → KeyInfo → Prop) : Prop :=
  ∀ h k h' k', D h k → D h' k' → k.gen = k'.gen → k.key = k'.key → k.ts = k'.ts

/-- Invariant: `D` are the delivered keys, `A` the hashes of the messages loaded. -/
structure KInv (D : Bytes → KeyInfo → Prop) (A : Bytes → Prop) (s : GKeys) : Prop where
  asc : Asc s.keys
  uniq : ∀ x ∈ s.keys, ∀ y ∈ s.keys, x.gen = y.gen → x.key = y.key → x = y
  ascA : AscA s.active
  hashes : ∀ e ∈ s.active, e.2 ≠ [] ∧ e.2.Nodup
  low : ∀ f t, s.keys = f :: t → ∀ e ∈ s.active, f.gen ≤ e.1
  none : s.keys = [] → s.active = []
  alive : ∀ k ∈ s.keys, ∃ h, D h k ∧ ∃ e ∈ s.active, e.1 = k.gen ∧ h ∈ e.2
  hsound : ∀ e ∈ s.active, ∀ h ∈ e.2, A h
  kept : ∀ h k, D h k → (∃ k' ∈ s.keys, k'.gen = k.gen ∧ k'.key = k.key) ∨
    ∃ n m, (∃ h, D h n) ∧ (∃ h, D h m) ∧ k.gen < n.gen ∧ n.gen ≤ m.gen ∧ n.ts + keyExpiry < m.ts
  top : OneTime D → ∀ h k, D h k → ∃ m, s.keys.getLast? = some m ∧ k ≤ m

theorem asc_getLast {l : List KeyInfo} (ha : Asc l) {m : KeyInfo} (hm : l.getLast? = some m) {x : KeyInfo}
    (hx : x ∈ l) : x ≤ m := by
  obtain ⟨p, rfl⟩ := List.getLast?_eq_some_iff.1 hm
  rcases List.mem_append.1 hx with h | h
  · exact le_of_lt ((List.pairwise_append.1 ha).2.2 x h m (by simp))
  · rw [List.mem_singleton.1 h]

theorem getLast_mem {l : List KeyInfo} {m : KeyInfo} (hm : l.getLast? = some m) : m ∈ l := by
  obtain ⟨p, rfl⟩ := List.getLast?_eq_some_iff.1 hm
  simp

theorem ne_nil_getLast {l : List KeyInfo} (h : l ≠ []) : ∃ m, l.getLast? = some m := by
  cases hl : l.getLast? with
  | none => rw [List.getLast?_eq_none_iff] at hl; exact absurd hl h
  | some m => exact ⟨m, rfl⟩

theorem removeExpired_keys {s : GKeys} (ha : Asc s.keys) :
    s.removeExpired.keys <:+ s.keys ∧ (s.keys ≠ [] → s.removeExpired.keys ≠ []) ∧
      ∀ x ∈ s.keys, x ∉ s.removeExpired.keys → ∃ n ∈ s.keys, ∃ m ∈ s.keys, x.gen < n.gen ∧ n.gen ≤ m.gen ∧
        n.ts + keyExpiry < m.ts := by
  by_cases h2 : 2 ≤ s.keys.length
  · have e : s.removeExpired.keys = pruneKeys (lastTs s.keys) s.keys := by
      simp [GKeys.removeExpired, h2]
    rw [e]
    refine ⟨pruneKeys_suffix _ _, fun h => pruneKeys_ne_nil _ h, ?_⟩
    intro x hx hn
    obtain ⟨n, hn', h1, h3, _⟩ := pruneKeys_dropped ha hx hn
    obtain ⟨m, hm⟩ := ne_nil_getLast (l := s.keys) (by intro hh; rw [hh] at hx; cases hx)
    refine ⟨n, hn', m, getLast_mem hm, h1, KeyInfo.gen_le (asc_getLast ha hm hn'), ?_⟩
    simpa [lastTs, hm] using h3
  · have e : s.removeExpired.keys = s.keys := by
      simp [GKeys.removeExpired, h2]
    rw [e]
    exact ⟨List.suffix_refl _, fun h => h, fun x hx hn => absurd hx hn⟩

theorem removeExpired_active {s : GKeys} {f : KeyInfo} {t : List KeyInfo} (hk : s.removeExpired.keys = f :: t) :
    s.removeExpired.active = s.active.dropWhile fun e => decide (e.1 < f.gen) := by
  unfold GKeys.removeExpired at hk ⊢
  dsimp only at hk ⊢
  rw [hk]

theorem removeExpired_nil {s : GKeys} (hk : s.removeExpired.keys = []) : s.removeExpired.active = [] := by
  unfold GKeys.removeExpired at hk ⊢
  dsimp only at hk ⊢
  rw [hk]

variable {D : Bytes → KeyInfo → Prop} {A : Bytes → Prop}

/-- More may have been delivered or loaded that left no trace. -/
theorem KInv.weaken {s : GKeys} (h : KInv D A s) {A' : Bytes → Prop} (hA : ∀ x, A x → A' x) : KInv D A' s :=
  { h with hsound := fun e he x hx => hA x (h.hsound e he x hx) }

/-- Adding a hash and removing what is expired. -/
theorem KInv.touch {s : GKeys} (h : KInv D A s) {g : Int} {hash : Bytes} (hA : A hash) :
    KInv D A ({ s with active := addHash g hash s.active } : GKeys).removeExpired := by
  set s1 : GKeys := { s with active := addHash g hash s.active } with hs1
  have hk1 : s1.keys = s.keys := rfl
  obtain ⟨hsuf, hne, hdrop⟩ := removeExpired_keys (s := s1) (by rw [hk1]; exact h.asc)
  have hasc : Asc s1.removeExpired.keys := h.asc.sublist hsuf.sublist
  have hA1 : AscA s1.active := addHash_asc h.ascA
  have hmem : ∀ e, e ∈ s1.removeExpired.active → e ∈ s1.active ∧
      ∀ f t, s1.removeExpired.keys = f :: t → f.gen ≤ e.1 := by
    intro e he
    cases hk : s1.removeExpired.keys with
    | nil => rw [removeExpired_nil hk] at he; cases he
    | cons f t =>
      rw [removeExpired_active hk, mem_dropWhile_asc hA1] at he
      exact ⟨he.1, fun f' t' hh => by cases hh; exact he.2⟩
  refine ⟨hasc, ?_, ?_, ?_, ?_, ?_, ?_, ?_, ?_, ?_⟩
  · intro x hx y hy
    exact h.uniq x (hsuf.subset hx) y (hsuf.subset hy)
  · cases hk : s1.removeExpired.keys with
    | nil => rw [removeExpired_nil hk]; exact List.Pairwise.nil
    | cons f t => rw [removeExpired_active hk]; exact hA1.sublist (List.dropWhile_sublist _)
  · intro e he
    exact addHash_nodup h.hashes e (hmem e he).1
  · intro f t hk e he
    exact (hmem e he).2 f t hk
  · exact removeExpired_nil
  · intro k hk
    obtain ⟨x, hx, e, he, h1, h2⟩ := h.alive k (hsuf.subset hk)
    refine ⟨x, hx, ?_⟩
    obtain ⟨e', he', h1', h2'⟩ := (mem_addHash (g := g) (h := hash) h.ascA (g' := k.gen) (h' := x)).2
      (.inr ⟨e, he, h1, h2⟩)
    refine ⟨e', ?_, h1', h2'⟩
    cases hk' : s1.removeExpired.keys with
    | nil => rw [hk'] at hk; cases hk
    | cons f t =>
      rw [removeExpired_active hk', mem_dropWhile_asc hA1]
      refine ⟨he', ?_⟩
      rw [h1']
      rw [hk'] at hk hasc
      rcases List.mem_cons.1 hk with rfl | hk
      · exact le_refl _
      · exact KeyInfo.gen_le (le_of_lt ((List.pairwise_cons.1 hasc).1 k hk))
  · intro e he x hx
    rcases (mem_addHash (g := g) (h := hash) h.ascA (g' := e.1) (h' := x)).1 ⟨e, (hmem e he).1, rfl, hx⟩ with
      ⟨_, rfl⟩ | ⟨e', he', _, hx'⟩
    · exact hA
    · exact h.hsound e' he' x hx'
  · intro x k hk
    rcases h.kept x k hk with ⟨k', hk', h1, h2⟩ | hh
    · by_cases hin : k' ∈ s1.removeExpired.keys
      · exact .inl ⟨k', hin, h1, h2⟩
      · obtain ⟨n, hn, m, hm, h3, h4, h5⟩ := hdrop k' hk' hin
        obtain ⟨hn', hn1, _⟩ := h.alive n hn
        obtain ⟨hm', hm1, _⟩ := h.alive m hm
        exact .inr ⟨n, m, ⟨hn', hn1⟩, ⟨hm', hm1⟩, by omega, h4, h5⟩
    · exact .inr hh
  · intro ho x k hk
    obtain ⟨m, hm, hle⟩ := h.top ho x k hk
    refine ⟨m, ?_, hle⟩
    rw [suffix_getLast? hsuf (hne (by intro hh; rw [hk1] at hh; rw [hh] at hm; cases hm)), hk1, hm]

theorem insKey_getLast {l : List KeyInfo} (ha : Asc l) (k : KeyInfo) (hk : k ∉ l) :
    ∃ m, (insKey k l).getLast? = some m ∧ k ≤ m ∧ ∀ x ∈ l, x ≤ m := by
  obtain ⟨m, hm⟩ := ne_nil_getLast (insKey_ne_nil k l)
  have ha' := insKey_asc ha hk
  exact ⟨m, hm, asc_getLast ha' hm (mem_insKey.2 (.inl rfl)), fun x hx =>
    asc_getLast ha' hm (mem_insKey.2 (.inr hx))⟩

/-- Inserting a delivered key. -/
theorem KInv.insertKey {s : GKeys} (h : KInv D A s) {hash : Bytes} {k : KeyInfo} (hA : A hash) :
    KInv (fun x y => D x y ∨ (x = hash ∧ y = k)) A (s.insertKey hash k) := by
  set D' : Bytes → KeyInfo → Prop := fun x y => D x y ∨ (x = hash ∧ y = k) with hD'
  have hone : OneTime D' → OneTime D := fun ho h1 k1 h2 k2 a b => ho h1 k1 h2 k2 (.inl a) (.inl b)
  unfold GKeys.insertKey
  by_cases hdup : s.keys.any (fun x => x.gen == k.gen && x.key == k.key) = true
  · rw [if_pos hdup]
    obtain ⟨k0, hk0, hb⟩ := List.any_eq_true.1 hdup
    simp only [Bool.and_eq_true, beq_iff_eq] at hb
    refine ⟨h.asc, h.uniq, addHash_asc h.ascA, addHash_nodup h.hashes, ?_, ?_, ?_, ?_, ?_, ?_⟩
    · intro f t hk e he
      have hk' : s.keys = f :: t := hk
      rcases addHash_fst he with h' | ⟨e', he', hh⟩
      · rw [h', ← hb.1]
        have hasc := h.asc
        rw [hk'] at hk0 hasc
        rcases List.mem_cons.1 hk0 with rfl | hk0
        · exact le_refl _
        · exact KeyInfo.gen_le (le_of_lt ((List.pairwise_cons.1 hasc).1 k0 hk0))
      · rw [← hh]; exact h.low f t hk' e' he'
    · intro hk
      have hk' : s.keys = [] := hk
      rw [hk'] at hk0; cases hk0
    · intro x hx
      obtain ⟨y, hy, e, he, h1, h2⟩ := h.alive x hx
      obtain ⟨e', he', h3, h4⟩ := (mem_addHash (g := k.gen) (h := hash) h.ascA (g' := x.gen) (h' := y)).2
        (.inr ⟨e, he, h1, h2⟩)
      exact ⟨y, .inl hy, e', he', h3, h4⟩
    · intro e he x hx
      rcases (mem_addHash (g := k.gen) (h := hash) h.ascA (g' := e.1) (h' := x)).1 ⟨e, he, rfl, hx⟩ with
        ⟨_, rfl⟩ | ⟨e', he', _, hx'⟩
      · exact hA
      · exact h.hsound e' he' x hx'
    · rintro x y (hxy | ⟨rfl, rfl⟩)
      · rcases h.kept x y hxy with hh | ⟨n, m, ⟨hn, hn'⟩, ⟨hm, hm'⟩, h1, h2, h3⟩
        · exact .inl hh
        · exact .inr ⟨n, m, ⟨hn, .inl hn'⟩, ⟨hm, .inl hm'⟩, h1, h2, h3⟩
      · exact .inl ⟨k0, hk0, hb⟩
    · rintro ho x y (hxy | ⟨rfl, rfl⟩)
      · exact h.top (hone ho) x y hxy
      · obtain ⟨z, hz, _⟩ := h.alive k0 hk0
        have ht := ho z k0 x y (.inl hz) (.inr ⟨rfl, rfl⟩) hb.1 hb.2
        have e : k0 = y := by
          cases k0; cases y
          simp only at hb ht
          obtain ⟨rfl, rfl⟩ := hb
          subst ht; rfl
        subst e
        obtain ⟨m, hm⟩ := ne_nil_getLast (l := s.keys) (by intro hh; rw [hh] at hk0; cases hk0)
        exact ⟨m, hm, asc_getLast h.asc hm hk0⟩
  · rw [if_neg hdup]
    by_cases hst : s.stale k = true
    · rw [if_pos hst]
      unfold GKeys.stale at hst
      split at hst
      · rename_i f g t hk
        simp only [Bool.and_eq_true, decide_eq_true_eq] at hst
        obtain ⟨m, hm⟩ := ne_nil_getLast (l := s.keys) (by rw [hk]; simp)
        have hf : f ∈ s.keys := by rw [hk]; simp
        have hlt : f.ts + keyExpiry < m.ts := by simpa [lastTs, hm] using hst.2
        have hfm := KeyInfo.gen_le (asc_getLast h.asc hm hf)
        obtain ⟨yf, hyf, _⟩ := h.alive f hf
        obtain ⟨ym, hym, _⟩ := h.alive m (getLast_mem hm)
        refine ⟨h.asc, h.uniq, h.ascA, h.hashes, h.low, h.none, ?_, h.hsound, ?_, ?_⟩
        · intro x hx
          obtain ⟨y, hy, hh⟩ := h.alive x hx
          exact ⟨y, .inl hy, hh⟩
        · rintro x y (hxy | ⟨rfl, rfl⟩)
          · rcases h.kept x y hxy with hh | ⟨n, m, ⟨hn, hn'⟩, ⟨hm, hm'⟩, h1, h2, h3⟩
            · exact .inl hh
            · exact .inr ⟨n, m, ⟨hn, .inl hn'⟩, ⟨hm, .inl hm'⟩, h1, h2, h3⟩
          · exact .inr ⟨f, m, ⟨yf, .inl hyf⟩, ⟨ym, .inl hym⟩, hst.1, hfm, hlt⟩
        · rintro ho x y (hxy | ⟨rfl, rfl⟩)
          · exact h.top (hone ho) x y hxy
          · refine ⟨m, hm, le_of_lt ?_⟩
            rw [KeyInfo.lt_def]; left; omega
      · cases hst
    · rw [if_neg hst]
      set s0 : GKeys := { s with keys := insKey k s.keys, active := addHash k.gen hash s.active } with hs0
      have hkn : k ∉ s.keys := by
        intro hh
        exact hdup (List.any_eq_true.2 ⟨k, hh, by simp⟩)
      have hk0 : s0.keys = insKey k s.keys := rfl
      have hasc0 : Asc s0.keys := insKey_asc h.asc hkn
      obtain ⟨hsuf, hne, hdrop⟩ := removeExpired_keys hasc0
      have hasc : Asc s0.removeExpired.keys := hasc0.sublist hsuf.sublist
      have hA1 : AscA s0.active := addHash_asc h.ascA
      have hdel : ∀ x ∈ s0.keys, ∃ h, D' h x ∧ ∃ e ∈ s0.active, e.1 = x.gen ∧ h ∈ e.2 := by
        intro x hx
        rcases mem_insKey.1 hx with rfl | hx
        · obtain ⟨e, he, h1, h2⟩ := (mem_addHash (g := x.gen) (h := hash) h.ascA (g' := x.gen) (h' := hash)).2
            (.inl ⟨rfl, rfl⟩)
          exact ⟨hash, .inr ⟨rfl, rfl⟩, e, he, h1, h2⟩
        · obtain ⟨y, hy, e, he, h1, h2⟩ := h.alive x hx
          obtain ⟨e', he', h3, h4⟩ := (mem_addHash (g := k.gen) (h := hash) h.ascA (g' := x.gen) (h' := y)).2
            (.inr ⟨e, he, h1, h2⟩)
          exact ⟨y, .inl hy, e', he', h3, h4⟩
      have hmem : ∀ e, e ∈ s0.removeExpired.active → e ∈ s0.active ∧
          ∀ f t, s0.removeExpired.keys = f :: t → f.gen ≤ e.1 := by
        intro e he
        cases hk : s0.removeExpired.keys with
        | nil => rw [removeExpired_nil hk] at he; cases he
        | cons f t =>
          rw [removeExpired_active hk, mem_dropWhile_asc hA1] at he
          exact ⟨he.1, fun f' t' hh => by cases hh; exact he.2⟩
      have hkept : ∀ x ∈ s0.keys, (∃ k' ∈ s0.removeExpired.keys, k'.gen = x.gen ∧ k'.key = x.key) ∨
          ∃ n m, (∃ h, D' h n) ∧ (∃ h, D' h m) ∧ x.gen < n.gen ∧ n.gen ≤ m.gen ∧ n.ts + keyExpiry < m.ts := by
        intro x hx
        by_cases hin : x ∈ s0.removeExpired.keys
        · exact .inl ⟨x, hin, rfl, rfl⟩
        · obtain ⟨n, hn, m, hm, h3, h4, h5⟩ := hdrop x hx hin
          obtain ⟨hn', hn1, _⟩ := hdel n hn
          obtain ⟨hm', hm1, _⟩ := hdel m hm
          exact .inr ⟨n, m, ⟨hn', hn1⟩, ⟨hm', hm1⟩, h3, h4, h5⟩
      refine ⟨hasc, ?_, ?_, ?_, ?_, ?_, ?_, ?_, ?_, ?_⟩
      · intro x hx y hy hg hkey
        have hnd : ∀ z ∈ s.keys, ¬ (z.gen = k.gen ∧ z.key = k.key) := by
          intro z hz hh
          exact hdup (List.any_eq_true.2 ⟨z, hz, by simp [hh]⟩)
        rcases mem_insKey.1 (hsuf.subset hx) with rfl | hx' <;> rcases mem_insKey.1 (hsuf.subset hy) with rfl | hy'
        · rfl
        · exact absurd ⟨hg.symm, hkey.symm⟩ (hnd y hy')
        · exact absurd ⟨hg, hkey⟩ (hnd x hx')
        · exact h.uniq x hx' y hy' hg hkey
      · show AscA s0.removeExpired.active
        cases hk : s0.removeExpired.keys with
        | nil => rw [removeExpired_nil hk]; exact List.Pairwise.nil
        | cons f t => rw [removeExpired_active hk]; exact hA1.sublist (List.dropWhile_sublist _)
      · intro e he
        exact addHash_nodup h.hashes e (hmem e he).1
      · intro f t hk e he
        exact (hmem e he).2 f t hk
      · exact removeExpired_nil
      · intro x hx
        obtain ⟨y, hy, e, he, h1, h2⟩ := hdel x (hsuf.subset hx)
        refine ⟨y, hy, e, ?_, h1, h2⟩
        show e ∈ s0.removeExpired.active
        have hx' : x ∈ s0.removeExpired.keys := hx
        cases hk' : s0.removeExpired.keys with
        | nil => rw [hk'] at hx'; cases hx'
        | cons f t =>
          rw [removeExpired_active hk', mem_dropWhile_asc hA1]
          refine ⟨he, ?_⟩
          rw [h1]
          rw [hk'] at hx' hasc
          rcases List.mem_cons.1 hx' with rfl | hk
          · exact le_refl _
          · exact KeyInfo.gen_le (le_of_lt ((List.pairwise_cons.1 hasc).1 x hk))
      · intro e he x hx
        rcases (mem_addHash (g := k.gen) (h := hash) h.ascA (g' := e.1) (h' := x)).1 ⟨e, (hmem e he).1, rfl, hx⟩ with
          ⟨_, rfl⟩ | ⟨e', he', _, hx'⟩
        · exact hA
        · exact h.hsound e' he' x hx'
      · rintro x y (hxy | ⟨rfl, rfl⟩)
        · rcases h.kept x y hxy with ⟨k', hk', h1, h2⟩ | ⟨n, m, ⟨hn, hn'⟩, ⟨hm, hm'⟩, h1, h2, h3⟩
          · rcases hkept k' (mem_insKey.2 (.inr hk')) with ⟨k2, hk2, h3, h4⟩ | ⟨n, m, hn, hm, h3, h4, h5⟩
            · exact .inl ⟨k2, hk2, h3.trans h1, h4.trans h2⟩
            · exact .inr ⟨n, m, hn, hm, by omega, h4, h5⟩
          · exact .inr ⟨n, m, ⟨hn, .inl hn'⟩, ⟨hm, .inl hm'⟩, h1, h2, h3⟩
        · exact hkept y (mem_insKey.2 (.inl rfl))
      · obtain ⟨m, hm, hmk, hml⟩ := insKey_getLast h.asc k hkn
        have hlast : s0.removeExpired.keys.getLast? = some m := by
          rw [suffix_getLast? hsuf (hne (by rw [hk0]; exact insKey_ne_nil _ _)), hk0, hm]
        rintro ho x y (hxy | ⟨rfl, rfl⟩)
        · obtain ⟨m', hm', hle⟩ := h.top (hone ho) x y hxy
          exact ⟨m, hlast, le_trans hle (hml m' (getLast_mem hm'))⟩
        · exact ⟨m, hlast, hmk⟩

theorem KInv.congr {s : GKeys} (h : KInv D A s) {D' : Bytes → KeyInfo → Prop} (hD : ∀ x y, D x y ↔ D' x y) :
    KInv D' A s := by
  have : D = D' := by funext x y; exact propext (hD x y)
  rw [← this]; exact h

theorem KInv.foldl {hash : Bytes} (hA : A hash) : ∀ (ks : List KeyInfo) {s : GKeys} {D : Bytes → KeyInfo → Prop},
    KInv D A s → KInv (fun x y => D x y ∨ (x = hash ∧ y ∈ ks)) A (ks.foldl (fun s k => s.insertKey hash k) s)
  | [], s, D, h => h.congr fun x y => by simp
  | k :: t, s, D, h => by
    rw [List.foldl_cons]
    refine (KInv.foldl hA t (h.insertKey (k := k) hA)).congr fun x y => ?_
    simp only [List.mem_cons]
    tauto

/-- Changes of the pending key do not matter. -/
theorem KInv.pending {s s' : GKeys} (h : KInv D A s) (h1 : s'.keys = s.keys) (h2 : s'.active = s.active) :
    KInv D A s' := by
  obtain ⟨a1, a2, a3, a4, a5, a6, a7, a8, a9, a10⟩ := h
  constructor <;> (try rw [h1]) <;> (try rw [h2]) <;> assumption

theorem KInv.apply {s : GKeys} (h : KInv D A s) (isAdmin : Bool) {hash : Bytes} (f : Found) :
    KInv (fun x y => D x y ∨ (x = hash ∧ y ∈ f.newKeys)) (fun x => A x ∨ x = hash)
      (s.apply isAdmin hash f).1 := by
  have h' : KInv D (fun x => A x ∨ x = hash) s := h.weaken fun x hx => .inl hx
  unfold GKeys.apply
  cases hk : f.newKeys with
  | nil =>
    cases hm : f.maxGen with
    | none => exact h'.congr fun x y => by simp
    | some g =>
      have := h'.touch (g := g) (hash := hash) (.inr rfl)
      refine KInv.pending (s := ({ s with active := addHash g hash s.active } : GKeys).removeExpired)
        (this.congr fun x y => ?_) rfl rfl
      simp
  | cons k t =>
    refine KInv.foldl (.inr rfl) (k :: t) ?_
    refine h'.pending ?_ ?_ <;> (unfold GKeys.dropPending; dsimp only; split <;> rfl)

end Verif
