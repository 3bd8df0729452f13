import Verif.ParseSound
import Mathlib.Data.List.Nodup
import Mathlib.Data.List.Pairwise

/-! Helper lemmas about which configs a merge keeps, and about the sorted order. -/

namespace Verif

theorem zipIdx_mem_iff {α : Type*} {l : List α} {x : α} {i : Nat} :
    (x, i) ∈ l.zipIdx ↔ l[i]? = some x := by
  simp [List.mem_zipIdx_iff_getElem?]

theorem le_maxSeq {cs : List Msg} {c : Msg} (h : c ∈ cs) : c.seqno ≤ maxSeq cs := by
  induction cs with
  | nil => simp at h
  | cons a t ih =>
    rcases List.mem_cons.1 h with rfl | h
    · exact le_max_left _ _
    · exact le_trans (ih h) (le_max_right _ _)

theorem maxSeq_le_iff {cs : List Msg} (hr : ∀ c ∈ cs, int64Ok c.seqno = true) (hne : cs ≠ [])
    (x : Int) : maxSeq cs ≤ x ↔ ∀ c ∈ cs, c.seqno ≤ x := by
  refine ⟨fun h c hc => le_trans (le_maxSeq hc) h, fun h => ?_⟩
  induction cs with
  | nil => exact absurd rfl hne
  | cons a t ih =>
    have ha := h a List.mem_cons_self
    have ha' := hr a List.mem_cons_self
    simp only [int64Ok, Bool.and_eq_true, decide_eq_true_eq] at ha'
    simp only [maxSeq]
    refine max_le ha ?_
    cases t with
    | nil => simp only [maxSeq]; omega
    | cons b t =>
      exact ih (fun c hc => hr c (List.mem_cons_of_mem _ hc)) (by simp)
        fun c hc => h c (List.mem_cons_of_mem _ hc)

theorem maxSeq_mem {cs : List Msg} (hr : ∀ c ∈ cs, int64Ok c.seqno = true) (hne : cs ≠ []) :
    ∃ c ∈ cs, c.seqno = maxSeq cs := by
  by_contra hcon
  push Not at hcon
  have : maxSeq cs ≤ maxSeq cs - 1 := (maxSeq_le_iff hr hne _).2 fun c hc => by
    have h1 := le_maxSeq hc
    have h2 := hcon c hc
    omega
  omega

/-- `c` is *current* in the batch: no message of the batch lists it in its history and it is less
than `lag` behind the highest seqno. -/
def Current (lag : Int) (cs : List Msg) (c : Msg) : Prop :=
  c ∈ cs ∧ (∀ c2 ∈ cs, ∀ p ∈ c2.lagged, p.1 ≠ c.sh) ∧ ∀ c2 ∈ cs, c2.seqno < c.seqno + lag

/-- What the merge relies on: accepted messages, and no two different ones with the same seqno and
hash. -/
structure GoodBatch (cs : List Msg) : Prop where
  nodupsh : ∀ a ∈ cs, ∀ b ∈ cs, a.sh = b.sh → a = b
  window : ∀ a ∈ cs, ∀ p ∈ a.lagged, p.1.1 < a.seqno
  range : ∀ a ∈ cs, int64Ok a.seqno = true

theorem includes_iff {c2 : Msg} {sh : SH} : includes c2 sh = true ↔ ∃ p ∈ c2.lagged, p.1 = sh := by
  unfold includes
  cases h : mget sh c2.lagged with
  | none =>
    rw [mget_eq_none_iff] at h
    simp only [Option.isSome_none, Bool.false_eq_true, false_iff, not_exists, not_and]
    exact fun p hp => h p hp
  | some d => simpa using ⟨d, mem_of_mget h⟩

theorem redundantAt_iff {lag : Int} {cs : List Msg} (hg : GoodBatch cs) (hne : cs ≠ []) {i : Nat}
    {c : Msg} (hc : cs[i]? = some c) :
    redundantAt lag cs i c = false ↔
      Current lag cs c ∧ ∀ j < i, ∀ c2, cs[j]? = some c2 → c2.sh ≠ c.sh := by
  have hcm : c ∈ cs := List.mem_of_getElem? hc
  unfold redundantAt
  rw [Bool.or_eq_false_iff, List.any_eq_false, decide_eq_false_iff_not]
  have hmax : ¬ (c.seqno + lag ≤ maxSeq cs) ↔ ∀ c2 ∈ cs, c2.seqno < c.seqno + lag := by
    rw [not_le]
    have := maxSeq_le_iff hg.range hne (c.seqno + lag - 1)
    constructor
    · intro h c2 h2
      have := le_maxSeq h2
      omega
    · intro h
      have := this.2 fun c2 h2 => by have := h c2 h2; omega
      omega
  rw [hmax]
  constructor
  · rintro ⟨h1, h2⟩
    refine ⟨⟨hcm, ?_, h2⟩, ?_⟩
    · intro c2 hc2 p hp hpe
      obtain ⟨j, hj⟩ := List.getElem?_of_mem hc2
      have hw := hg.window c2 hc2 p hp
      by_cases hij : j = i
      · subst hij
        rw [hc] at hj; cases hj
        rw [hpe] at hw
        exact absurd hw (lt_irrefl _)
      · have := h1 (c2, j) (zipIdx_mem_iff.2 hj)
        have hi : includes c2 c.sh = true := includes_iff.2 ⟨p, hp, hpe⟩
        simp [hij, hi] at this
    · intro j hj c2 hc2 he
      have := h1 (c2, j) (zipIdx_mem_iff.2 hc2)
      simp only [ne_eq, Bool.and_eq_true, Bool.or_eq_true, decide_eq_true_eq, not_and, not_or] at this
      exact (this (by omega)).2 hj he
  · rintro ⟨⟨_, h1, h2⟩, h3⟩
    refine ⟨?_, h2⟩
    rintro ⟨c2, j⟩ hj
    rw [zipIdx_mem_iff] at hj
    simp only [ne_eq, Bool.and_eq_true, Bool.or_eq_true, decide_eq_true_eq, not_and, not_or]
    intro _
    refine ⟨?_, fun hj' => h3 j hj' c2 hj⟩
    rw [includes_iff]
    rintro ⟨p, hp, he⟩
    exact h1 c2 (List.mem_of_getElem? hj) p hp he

theorem mem_kept {lag : Int} {cs : List Msg} {c : Msg} {i : Nat} :
    (c, i) ∈ kept lag cs ↔ cs[i]? = some c ∧ redundantAt lag cs i c = false := by
  unfold kept flagged
  simp only [List.mem_map, List.mem_filter, Prod.exists, Bool.not_eq_true', Prod.mk.injEq]
  constructor
  · rintro ⟨a, b, r, ⟨⟨x, y, hxy, h1, h2, h3⟩, hr⟩, rfl, rfl⟩
    subst h1 h2
    exact ⟨zipIdx_mem_iff.1 hxy, by rw [h3]; exact hr⟩
  · rintro ⟨h1, h2⟩
    exact ⟨c, i, false, ⟨⟨c, i, zipIdx_mem_iff.2 h1, rfl, rfl, h2⟩, rfl⟩, rfl, rfl⟩

theorem first_index {cs : List Msg} {c : Msg} (h : c ∈ cs) :
    ∃ i : Nat, cs[i]? = some c ∧ ∀ j < i, ∀ c2, cs[j]? = some c2 → c2 ≠ c := by
  induction cs with
  | nil => simp at h
  | cons a t ih =>
    by_cases hac : a = c
    · exact ⟨0, by simp [hac], by simp⟩
    · have h : c ∈ t := by
        rcases List.mem_cons.1 h with rfl | h
        · exact absurd rfl hac
        · exact h
      obtain ⟨i, h1, h2⟩ := ih h
      refine ⟨i + 1, by simpa using h1, ?_⟩
      intro j hj c2 hc2
      cases j with
      | zero => simp at hc2; rw [← hc2]; exact hac
      | succ j => exact h2 j (by omega) c2 (by simpa using hc2)

theorem mem_kept_fst {lag : Int} {cs : List Msg} (hg : GoodBatch cs) (c : Msg) :
    c ∈ (kept lag cs).map (·.1) ↔ Current lag cs c := by
  constructor
  · intro h
    obtain ⟨⟨c', i⟩, hm, rfl⟩ := List.mem_map.1 h
    obtain ⟨h1, h2⟩ := mem_kept.1 hm
    have hne : cs ≠ [] := by rintro rfl; simp at h1
    exact ((redundantAt_iff hg hne h1).1 h2).1
  · intro h
    have hne : cs ≠ [] := by rintro rfl; exact absurd h.1 (by simp)
    obtain ⟨i, h1, h2⟩ := first_index h.1
    refine List.mem_map.2 ⟨(c, i), mem_kept.2 ⟨h1, (redundantAt_iff hg hne h1).2 ⟨h, ?_⟩⟩, rfl⟩
    intro j hj c2 hc2 he
    exact h2 j hj c2 hc2 (hg.nodupsh _ (List.mem_of_getElem? hc2) _ h.1 he)

theorem kept_idx_pairwise (lag : Int) (cs : List Msg) :
    (kept lag cs).Pairwise fun a b => a.2 < b.2 := by
  unfold kept flagged
  rw [List.pairwise_map]
  refine List.Pairwise.filter _ ?_
  rw [List.pairwise_map]
  rw [List.pairwise_iff_getElem]
  intro i j hi hj hij
  simp only [List.getElem_zipIdx]
  omega

theorem kept_nodup {lag : Int} {cs : List Msg} (hg : GoodBatch cs) :
    ((kept lag cs).map (·.1)).Pairwise fun a b => a.sh ≠ b.sh := by
  rw [List.pairwise_map]
  refine List.Pairwise.imp_of_mem ?_ (kept_idx_pairwise lag cs)
  rintro ⟨a, i⟩ ⟨b, j⟩ ha hb hij he
  obtain ⟨a1, a2⟩ := mem_kept.1 ha
  obtain ⟨b1, b2⟩ := mem_kept.1 hb
  have hne : cs ≠ [] := by rintro rfl; simp at a1
  exact ((redundantAt_iff hg hne b1).1 b2).2 i hij a a1 he

/-! ### the highest message is current -/

theorem exists_max_sh {cs : List Msg} (hne : cs ≠ []) : ∃ c ∈ cs, ∀ d ∈ cs, d.sh ≤ c.sh := by
  induction cs with
  | nil => exact absurd rfl hne
  | cons a t ih =>
    cases t with
    | nil => exact ⟨a, by simp, by simp⟩
    | cons b t =>
      obtain ⟨c, hc, hm⟩ := ih (by simp)
      by_cases h : a.sh ≤ c.sh
      · exact ⟨c, List.mem_cons_of_mem _ hc, by
          intro d hd
          rcases List.mem_cons.1 hd with rfl | hd
          · exact h
          · exact hm d hd⟩
      · refine ⟨a, List.mem_cons_self, ?_⟩
        intro d hd
        rcases List.mem_cons.1 hd with rfl | hd
        · exact le_refl _
        · exact le_trans (hm d hd) (le_of_lt (not_le.1 h))

theorem sh_le_seqno {a b : Msg} (h : a.sh ≤ b.sh) : a.seqno ≤ b.seqno := by
  have := Prod.Lex.le_iff.1 h
  simp only [Msg.sh, ofLex_toLex] at this
  omega

theorem sh_lt_of_seqno {a b : Msg} (h : a.seqno < b.seqno) : a.sh < b.sh := by
  refine Prod.Lex.lt_iff.2 (.inl ?_)
  simpa [Msg.sh] using h

theorem max_current {lag : Int} (hlag : 1 ≤ lag) {cs : List Msg} (hg : GoodBatch cs) {c : Msg}
    (hc : c ∈ cs) (hm : ∀ d ∈ cs, d.sh ≤ c.sh) : Current lag cs c := by
  refine ⟨hc, ?_, ?_⟩
  · intro c2 h2 p hp he
    have h1 := hg.window c2 h2 p hp
    have h3 := sh_le_seqno (hm c2 h2)
    rw [he] at h1
    have : c.seqno < c2.seqno := h1
    omega
  · intro c2 h2
    have := sh_le_seqno (hm c2 h2)
    omega

theorem max_seqno_eq {cs : List Msg} (hr : ∀ c ∈ cs, int64Ok c.seqno = true) {c : Msg}
    (hc : c ∈ cs) (hm : ∀ d ∈ cs, d.sh ≤ c.sh) : c.seqno = maxSeq cs :=
  le_antisymm (le_maxSeq hc)
    ((maxSeq_le_iff hr (by rintro rfl; simp at hc) _).2 fun d hd => sh_le_seqno (hm d hd))

/-! ### sorting -/

theorem mem_insDesc {m x : Msg} {l : List Msg} : x ∈ insDesc m l ↔ x = m ∨ x ∈ l := by
  induction l with
  | nil => simp [insDesc]
  | cons a t ih =>
    simp only [insDesc]; split
    · simp
    · simp only [List.mem_cons, ih]; tauto

theorem mem_sortDesc {x : Msg} {l : List Msg} : x ∈ sortDesc l ↔ x ∈ l := by
  induction l with
  | nil => simp [sortDesc]
  | cons a t ih => simp [sortDesc, mem_insDesc, ih]

theorem insDesc_sorted {m : Msg} {l : List Msg} (h : l.Pairwise fun a b => b.sh < a.sh)
    (hn : ∀ x ∈ l, x.sh ≠ m.sh) : (insDesc m l).Pairwise fun a b => b.sh < a.sh := by
  induction l with
  | nil => simp [insDesc]
  | cons a t ih =>
    have hh := List.pairwise_cons.1 h
    simp only [insDesc]; split
    · rename_i hlt
      refine List.pairwise_cons.2 ⟨?_, h⟩
      intro b hb
      rcases List.mem_cons.1 hb with rfl | hb
      · exact hlt
      · exact lt_trans (hh.1 b hb) hlt
    · rename_i hlt
      refine List.pairwise_cons.2 ⟨?_, ih hh.2 fun x hx => hn x (List.mem_cons_of_mem _ hx)⟩
      intro b hb
      rcases mem_insDesc.1 hb with rfl | hb
      · exact lt_of_le_of_ne (not_lt.1 hlt) (Ne.symm (hn a List.mem_cons_self))
      · exact hh.1 b hb

theorem sortDesc_sorted {l : List Msg} (h : l.Pairwise fun a b => a.sh ≠ b.sh) :
    (sortDesc l).Pairwise fun a b => b.sh < a.sh := by
  induction l with
  | nil => simp [sortDesc]
  | cons a t ih =>
    have hh := List.pairwise_cons.1 h
    refine insDesc_sorted (ih hh.2) ?_
    intro x hx
    exact Ne.symm (hh.1 x (mem_sortDesc.1 hx))

theorem desc_ext {l l' : List Msg} (h : l.Pairwise fun a b => b.sh < a.sh)
    (h' : l'.Pairwise fun a b => b.sh < a.sh) (e : ∀ x, x ∈ l ↔ x ∈ l') : l = l' := by
  induction l generalizing l' with
  | nil =>
    cases l' with
    | nil => rfl
    | cons a t => exact absurd ((e a).2 List.mem_cons_self) (by simp)
  | cons a t ih =>
    cases l' with
    | nil => exact absurd ((e a).1 List.mem_cons_self) (by simp)
    | cons b t' =>
      have h1 := List.pairwise_cons.1 h
      have h2 := List.pairwise_cons.1 h'
      have hab : a = b := by
        rcases List.mem_cons.1 ((e a).1 List.mem_cons_self) with hh | hh
        · exact hh
        · rcases List.mem_cons.1 ((e b).2 List.mem_cons_self) with hk | hk
          · exact hk.symm
          · exact absurd (lt_trans (h1.1 b hk) (h2.1 a hh)) (lt_irrefl _)
      subst hab
      congr 1
      refine ih h1.2 h2.2 fun x => ⟨fun hx => ?_, fun hx => ?_⟩
      · rcases List.mem_cons.1 ((e x).1 (List.mem_cons_of_mem _ hx)) with rfl | hh
        · exact absurd (h1.1 _ hx) (lt_irrefl _)
        · exact hh
      · rcases List.mem_cons.1 ((e x).2 (List.mem_cons_of_mem _ hx)) with rfl | hh
        · exact absurd (h2.1 _ hx) (lt_irrefl _)
        · exact hh

/-- The kept messages in descending order: a function of the *set* of messages. -/
theorem keptSorted_spec {lag : Int} {cs : List Msg} (hg : GoodBatch cs) :
    (sortDesc ((kept lag cs).map (·.1))).Pairwise (fun a b => b.sh < a.sh) ∧
      ∀ c, c ∈ sortDesc ((kept lag cs).map (·.1)) ↔ Current lag cs c :=
  ⟨sortDesc_sorted (kept_nodup hg), fun c => mem_sortDesc.trans (mem_kept_fst hg c)⟩

theorem Current.congr {lag : Int} {cs cs' : List Msg} (h : ∀ c, c ∈ cs ↔ c ∈ cs') (c : Msg) :
    Current lag cs c ↔ Current lag cs' c := by
  unfold Current
  simp only [h]

theorem keptSorted_congr {lag : Int} {cs cs' : List Msg} (hg : GoodBatch cs)
    (hg' : GoodBatch cs') (h : ∀ c, c ∈ cs ↔ c ∈ cs') :
    sortDesc ((kept lag cs).map (·.1)) = sortDesc ((kept lag cs').map (·.1)) :=
  desc_ext (keptSorted_spec hg).1 (keptSorted_spec hg').1 fun c => by
    rw [(keptSorted_spec hg).2, (keptSorted_spec hg').2, Current.congr h]

theorem GoodBatch.congr {cs cs' : List Msg} (hg : GoodBatch cs) (h : ∀ c, c ∈ cs' → c ∈ cs) :
    GoodBatch cs' :=
  ⟨fun a ha b hb => hg.nodupsh a (h a ha) b (h b hb), fun a ha => hg.window a (h a ha),
    fun a ha => hg.range a (h a ha)⟩

theorem maxSeq_congr {cs cs' : List Msg} (hg : GoodBatch cs) (hne : cs ≠ [])
    (h : ∀ c, c ∈ cs ↔ c ∈ cs') : maxSeq cs = maxSeq cs' := by
  have hg' := hg.congr fun c hc => (h c).2 hc
  have hne' : cs' ≠ [] := by
    rintro rfl
    cases cs with
    | nil => exact hne rfl
    | cons a t => exact absurd ((h a).1 List.mem_cons_self) (by simp)
  apply le_antisymm
  · exact (maxSeq_le_iff hg.range hne _).2 fun c hc => le_maxSeq ((h c).1 hc)
  · exact (maxSeq_le_iff hg'.range hne' _).2 fun c hc => le_maxSeq ((h c).2 hc)

/-! ### `std::max_element` -/

theorem maxElem_spec {l : List (Msg × Nat × Bool)} {r : Msg × Nat × Bool}
    (h : maxElem l = some r) : r ∈ l ∧ ∀ x ∈ l, better r x = false := by
  cases l with
  | nil => simp [maxElem] at h
  | cons a t =>
    simp only [maxElem, Option.some.injEq] at h
    -- `better` is a strict weak order
    have tr : ∀ x y z : Msg × Nat × Bool, better x y = false → better y z = false →
        better x z = false := by
      rintro ⟨x, i, rx⟩ ⟨y, j, ry⟩ ⟨z, k, rz⟩
      unfold better
      cases rx <;> cases ry <;> cases rz <;> simp <;> intro h1 h2 <;> exact le_trans h2 h1
    have irr : ∀ x : Msg × Nat × Bool, better x x = false := by
      rintro ⟨x, i, rx⟩; simp [better]
    have asym : ∀ x y : Msg × Nat × Bool, better x y = true → better y x = false := by
      rintro ⟨x, i, rx⟩ ⟨y, j, ry⟩
      unfold better
      cases rx <;> cases ry <;> simp <;> exact le_of_lt
    induction t generalizing a r with
    | nil =>
      simp only [List.foldl_nil] at h
      subst h
      exact ⟨by simp, by intro x hx; rw [List.mem_singleton] at hx; rw [hx]; exact irr _⟩
    | cons b t ih =>
      simp only [List.foldl_cons] at h
      obtain ⟨h1, h2⟩ := ih _ h
      by_cases hb : better a b = true
      · rw [if_pos hb] at h1 h2
        refine ⟨List.mem_cons_of_mem _ h1, ?_⟩
        intro x hx
        rcases List.mem_cons.1 hx with rfl | hx
        · exact tr _ _ _ (h2 b List.mem_cons_self) (asym _ _ hb)
        · exact h2 x hx
      · rw [if_neg hb] at h1 h2
        have hb : better a b = false := by simpa using hb
        refine ⟨?_, ?_⟩
        · rcases List.mem_cons.1 h1 with rfl | h1
          · exact List.mem_cons_self
          · exact List.mem_cons_of_mem _ (List.mem_cons_of_mem _ h1)
        · intro x hx
          rcases List.mem_cons.1 hx with rfl | hx
          · exact h2 _ List.mem_cons_self
          · rcases List.mem_cons.1 hx with rfl | hx
            · exact tr _ _ _ (h2 a List.mem_cons_self) hb
            · exact h2 x (List.mem_cons_of_mem _ hx)

theorem mem_flagged {lag : Int} {cs : List Msg} {c : Msg} {i : Nat} {r : Bool} :
    (c, i, r) ∈ flagged lag cs ↔ cs[i]? = some c ∧ r = redundantAt lag cs i c := by
  unfold flagged
  simp only [List.mem_map, Prod.exists, Prod.mk.injEq]
  constructor
  · rintro ⟨a, b, h, rfl, rfl, rfl⟩; exact ⟨zipIdx_mem_iff.1 h, rfl⟩
  · rintro ⟨h, rfl⟩; exact ⟨c, i, zipIdx_mem_iff.2 h, rfl, rfl, rfl⟩

theorem maxElem_isSome {l : List (Msg × Nat × Bool)} (h : l ≠ []) : ∃ r, maxElem l = some r := by
  cases l with
  | nil => exact absurd rfl h
  | cons a t => exact ⟨_, rfl⟩

/-- The element chosen by a client that cannot sign is the highest message. -/
theorem maxElem_flagged {lag : Int} (hlag : 1 ≤ lag) {cs : List Msg} (hg : GoodBatch cs)
    {c : Msg} {i : Nat} {r : Bool} (h : maxElem (flagged lag cs) = some (c, i, r)) :
    cs[i]? = some c ∧ ∀ d ∈ cs, d.sh ≤ c.sh := by
  obtain ⟨h1, h2⟩ := maxElem_spec h
  obtain ⟨hi, hr⟩ := mem_flagged.1 h1
  have hcm := List.mem_of_getElem? hi
  have hne : cs ≠ [] := by rintro rfl; simp at hcm
  refine ⟨hi, ?_⟩
  obtain ⟨m, hm, hmax⟩ := exists_max_sh hne
  have hcur := max_current hlag hg hm hmax
  obtain ⟨⟨m', j⟩, hj, he⟩ := List.mem_map.1 ((mem_kept_fst hg m).2 hcur)
  simp only at he; subst he
  obtain ⟨hj1, hj2⟩ := mem_kept.1 hj
  have hb := h2 (m', j, false) (mem_flagged.2 ⟨hj1, hj2.symm⟩)
  cases hrr : r with
  | true => subst hrr; simp [better] at hb
  | false =>
    subst hrr
    simp only [better, ne_eq, not_true, if_false, decide_eq_false_iff_not, not_lt] at hb
    intro d hd
    exact le_trans (hmax d hd) hb

end Verif
