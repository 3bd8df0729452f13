import Verif.GroupKeys
import Mathlib.Data.List.TakeWhile

/-!
# Lemmas on the group key list
-/

namespace Verif

theorem KeyInfo.lt_def (a b : KeyInfo) : a < b ↔ a.gen < b.gen ∨ (a.gen = b.gen ∧
    (a.ts < b.ts ∨ (a.ts = b.ts ∧ a.key < b.key))) := by
  show a.cmp < b.cmp ↔ _
  simp only [KeyInfo.cmp, Prod.Lex.toLex_lt_toLex]

theorem KeyInfo.gen_le {a b : KeyInfo} (h : a ≤ b) : a.gen ≤ b.gen := by
  rcases lt_or_eq_of_le h with h | h
  · rw [KeyInfo.lt_def] at h; omega
  · rw [h]

/-- Strictly ascending. -/
abbrev Asc (l : List KeyInfo) : Prop := l.Pairwise (· < ·)

theorem mem_insKey {k x : KeyInfo} : ∀ {l : List KeyInfo}, x ∈ insKey k l ↔ x = k ∨ x ∈ l
  | [] => by simp [insKey]
  | y :: t => by
    simp only [insKey]
    split
    · rw [List.mem_cons, mem_insKey, List.mem_cons]; tauto
    · rw [List.mem_cons]

theorem insKey_asc {k : KeyInfo} : ∀ {l : List KeyInfo}, Asc l → k ∉ l → Asc (insKey k l)
  | [], _, _ => by simp [insKey]
  | y :: t, h, hk => by
    simp only [insKey]
    replace h := List.pairwise_cons.1 h
    split
    · rename_i hy
      refine List.pairwise_cons.2 ⟨?_, insKey_asc h.2 fun hm => hk (List.mem_cons_of_mem _ hm)⟩
      intro z hz
      rcases mem_insKey.1 hz with rfl | hz
      · exact hy
      · exact h.1 z hz
    · rename_i hy
      have hky : k < y := lt_of_le_of_ne (not_lt.1 hy) fun e => hk (by rw [e]; exact List.mem_cons_self ..)
      refine List.pairwise_cons.2 ⟨?_, List.pairwise_cons.2 h⟩
      intro z hz
      rcases List.mem_cons.1 hz with rfl | hz
      · exact hky
      · exact lt_trans hky (h.1 z hz)

theorem insKey_ne_nil (k : KeyInfo) (l : List KeyInfo) : insKey k l ≠ [] := by
  cases l with
  | nil => simp [insKey]
  | cons y t => simp only [insKey]; split <;> simp

theorem pruneKeys_suffix (T : Int) (l : List KeyInfo) : pruneKeys T l <:+ l := by
  induction l using pruneKeys.induct (lastTs := T) with
  | case1 => rw [pruneKeys]; exact List.suffix_refl _
  | case2 k t h => rw [pruneKeys]; split
                   · exact List.suffix_refl _
                   · rename_i hh; rw [h] at hh; cases hh
  | case3 k t n r h hc ih =>
    rw [pruneKeys]
    split
    · exact List.suffix_refl _
    · rename_i n' r' hh
      rw [h] at hh
      cases hh
      rw [if_pos hc]
      refine ih.trans ?_
      rw [← h]
      exact (List.dropWhile_suffix _).trans (List.suffix_cons k t)
  | case4 k t n r h hc =>
    rw [pruneKeys]
    split
    · exact List.suffix_refl _
    · rename_i n' r' hh
      rw [h] at hh
      cases hh
      rw [if_neg hc]; exact List.suffix_refl _

theorem pruneKeys_ne_nil (T : Int) {l : List KeyInfo} (hl : l ≠ []) : pruneKeys T l ≠ [] := by
  induction l using pruneKeys.induct (lastTs := T) with
  | case1 => exact absurd rfl hl
  | case2 k t h => rw [pruneKeys]; split
                   · simp
                   · rename_i hh; rw [h] at hh; cases hh
  | case3 k t n r h hc ih =>
    rw [pruneKeys]
    split
    · simp
    · rename_i n' r' hh
      rw [h] at hh
      cases hh
      rw [if_pos hc]
      exact ih (by simp)
  | case4 k t n r h hc =>
    rw [pruneKeys]
    split
    · simp
    · rename_i n' r' hh
      rw [h] at hh
      cases hh
      rw [if_neg hc]; simp

theorem suffix_getLast? {α : Type _} {l l' : List α} (h : l <:+ l') (hl : l ≠ []) :
    l.getLast? = l'.getLast? := by
  obtain ⟨p, rfl⟩ := h
  rw [List.getLast?_append]
  cases l with
  | nil => exact absurd rfl hl
  | cons a t => simp [List.getLast?_cons]

/-- What pruning drops: whole generations, each followed by a key that is more than 60 days older than
the last one. -/
theorem pruneKeys_dropped {T : Int} {l : List KeyInfo} (hs : Asc l) {x : KeyInfo} (hx : x ∈ l)
    (hn : x ∉ pruneKeys T l) : ∃ n ∈ l, x.gen < n.gen ∧ n.ts + keyExpiry < T ∧
      ∀ y ∈ pruneKeys T l, n.gen ≤ y.gen := by
  induction l using pruneKeys.induct (lastTs := T) with
  | case1 => cases hx
  | case2 k t h =>
    rw [pruneKeys] at hn
    split at hn
    · exact absurd hx hn
    · rename_i hh; rw [h] at hh; cases hh
  | case3 k t n r h hc ih =>
    have e : pruneKeys T (k :: t) = pruneKeys T (n :: r) := by
      rw [pruneKeys]
      split
      · rename_i hh; rw [h] at hh; cases hh
      · rename_i n' r' hh
        rw [h] at hh
        cases hh
        rw [if_pos hc]
    rw [e] at hn ⊢
    have hsuf : (n :: r) <:+ (k :: t) := by
      rw [← h]; exact (List.dropWhile_suffix _).trans (List.suffix_cons k t)
    have hs' : Asc (n :: r) := hs.sublist hsuf.sublist
    by_cases hxr : x ∈ n :: r
    · obtain ⟨m, hm, h1, h2, h3⟩ := ih hs' hxr hn
      exact ⟨m, hsuf.subset hm, h1, h2, h3⟩
    · have hng : n.gen ≠ k.gen := by
        intro hh
        have h0 := List.head_dropWhile_not (fun x : KeyInfo => x.gen == k.gen) (l := t) (by rw [h]; simp)
        simp only [h, List.head_cons] at h0
        simp [hh] at h0
      have hnt : n ∈ k :: t := hsuf.subset (List.mem_cons_self ..)
      have hkn : k.gen < n.gen := by
        rcases List.mem_cons.1 hnt with hh | hh
        · exact absurd (by rw [hh]) hng
        · have := KeyInfo.gen_le (le_of_lt ((List.pairwise_cons.1 hs).1 n hh))
          omega
      have hxk : x.gen = k.gen := by
        rcases List.mem_cons.1 hx with hh | hh
        · rw [hh]
        · have htd := List.takeWhile_append_dropWhile (p := fun x : KeyInfo => x.gen == k.gen) (l := t)
          rw [← htd, h, List.mem_append] at hh
          rcases hh with hh | hh
          · simpa using List.mem_takeWhile_imp hh
          · exact absurd hh hxr
      refine ⟨n, hnt, by omega, hc, ?_⟩
      intro y hy
      have hy' := (pruneKeys_suffix T (n :: r)).subset hy
      rcases List.mem_cons.1 hy' with hh | hh
      · rw [hh]
      · exact KeyInfo.gen_le (le_of_lt ((List.pairwise_cons.1 hs').1 y hh))
  | case4 k t n r h hc =>
    rw [pruneKeys] at hn
    split at hn
    · exact absurd hx hn
    · rename_i n' r' hh
      rw [h] at hh
      cases hh
      rw [if_neg hc] at hn
      exact absurd hx hn

/-! ### The record of hashes -/

/-- Ascending generations. -/
abbrev AscA (a : List (Int × List Bytes)) : Prop := a.Pairwise fun x y => x.1 < y.1

theorem mem_addHash {g : Int} {h : Bytes} : ∀ {a : List (Int × List Bytes)}, AscA a → ∀ {g' : Int} {h' : Bytes},
    ((∃ e ∈ addHash g h a, e.1 = g' ∧ h' ∈ e.2) ↔ (g' = g ∧ h' = h) ∨ ∃ e ∈ a, e.1 = g' ∧ h' ∈ e.2)
  | [], _, g', h' => by simp [addHash]; tauto
  | (g0, hs) :: t, ha, g', h' => by
    have ih := mem_addHash (g := g) (h := h) (List.pairwise_cons.1 ha).2 (g' := g') (h' := h')
    simp only [addHash]
    split
    · simp only [List.exists_mem_cons_iff, List.mem_singleton]
      constructor
      · rintro (⟨rfl, rfl⟩ | h') <;> tauto
      · rintro (⟨rfl, rfl⟩ | h') <;> tauto
    · split
      · rename_i h1 h2
        subst h2
        simp only [List.exists_mem_cons_iff]
        split
        · rename_i hm
          constructor
          · tauto
          · rintro (⟨rfl, rfl⟩ | h') <;> tauto
        · simp only [List.mem_append, List.mem_singleton]
          constructor
          · rintro (⟨rfl, h | rfl⟩ | h') <;> tauto
          · rintro (⟨rfl, rfl⟩ | h') <;> tauto
      · simp only [List.exists_mem_cons_iff]
        rw [ih]
        tauto

theorem addHash_fst {g : Int} {h : Bytes} : ∀ {a : List (Int × List Bytes)} {e : Int × List Bytes},
    e ∈ addHash g h a → e.1 = g ∨ ∃ e' ∈ a, e'.1 = e.1
  | [], e, he => by simp [addHash] at he; simp [he]
  | (g0, hs) :: t, e, he => by
    simp only [addHash] at he
    split at he
    · rcases List.mem_cons.1 he with rfl | he
      · exact .inl rfl
      · exact .inr ⟨e, he, rfl⟩
    · split at he
      · rcases List.mem_cons.1 he with rfl | he
        · exact .inr ⟨_, List.mem_cons_self .., rfl⟩
        · exact .inr ⟨e, List.mem_cons_of_mem _ he, rfl⟩
      · rcases List.mem_cons.1 he with rfl | he
        · exact .inr ⟨_, List.mem_cons_self .., rfl⟩
        · rcases addHash_fst he with h' | ⟨e', he', hh⟩
          · exact .inl h'
          · exact .inr ⟨e', List.mem_cons_of_mem _ he', hh⟩

theorem addHash_asc {g : Int} {h : Bytes} : ∀ {a : List (Int × List Bytes)}, AscA a → AscA (addHash g h a)
  | [], _ => by simp [addHash]
  | (g0, hs) :: t, ha => by
    simp only [addHash]
    have ha' := List.pairwise_cons.1 ha
    split
    · rename_i hg
      refine List.pairwise_cons.2 ⟨?_, ha⟩
      intro e he
      rcases List.mem_cons.1 he with rfl | he
      · exact hg
      · exact lt_trans hg (ha'.1 e he)
    · split
      · exact List.pairwise_cons.2 ⟨fun e he => ha'.1 e he, ha'.2⟩
      · refine List.pairwise_cons.2 ⟨?_, addHash_asc ha'.2⟩
        intro e he
        rcases addHash_fst he with h' | ⟨e', he', hh⟩
        · dsimp only; omega
        · rw [← hh]; exact ha'.1 e' he'

theorem addHash_nodup {g : Int} {h : Bytes} : ∀ {a : List (Int × List Bytes)},
    (∀ e ∈ a, e.2 ≠ [] ∧ e.2.Nodup) → ∀ e ∈ addHash g h a, e.2 ≠ [] ∧ e.2.Nodup
  | [], _ => by simp [addHash]
  | (g0, hs) :: t, ha => by
    have h0 := ha _ (List.mem_cons_self ..)
    have ht : ∀ e ∈ t, e.2 ≠ [] ∧ e.2.Nodup := fun e he => ha e (List.mem_cons_of_mem _ he)
    simp only [addHash]
    split
    · intro e he
      rcases List.mem_cons.1 he with rfl | he
      · simp
      · exact ha e he
    · split
      · intro e he
        rcases List.mem_cons.1 he with rfl | he
        · split
          · exact h0
          · rename_i hm
            refine ⟨by simp, ?_⟩
            rw [List.nodup_append]
            refine ⟨h0.2, by simp, ?_⟩
            intro x hx y hy hxy
            rw [List.mem_singleton] at hy
            rw [hxy, hy] at hx
            exact hm hx
        · exact ht e he
      · intro e he
        rcases List.mem_cons.1 he with rfl | he
        · exact h0
        · exact addHash_nodup ht e he

theorem mem_dropWhile_asc {a : List (Int × List Bytes)} (ha : AscA a) (g : Int) (e : Int × List Bytes) :
    e ∈ a.dropWhile (fun e => decide (e.1 < g)) ↔ e ∈ a ∧ g ≤ e.1 := by
  induction a with
  | nil => simp
  | cons x t ih =>
    have ha' := List.pairwise_cons.1 ha
    rw [List.dropWhile_cons]
    split
    · rename_i hx
      simp only [decide_eq_true_eq] at hx
      rw [ih ha'.2, List.mem_cons]
      constructor
      · rintro ⟨h1, h2⟩; exact ⟨.inr h1, h2⟩
      · rintro ⟨rfl | h1, h2⟩
        · omega
        · exact ⟨h1, h2⟩
    · rename_i hx
      simp only [decide_eq_true_eq, not_lt] at hx
      constructor
      · intro h
        refine ⟨h, ?_⟩
        rcases List.mem_cons.1 h with rfl | h
        · exact hx
        · exact le_trans hx (le_of_lt (ha'.1 e h))
      · exact fun h => h.1

end Verif
