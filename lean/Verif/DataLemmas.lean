import Verif.Data

/-! Helper lemmas about the data layer (no property statements here). -/

namespace Verif

/-! ### scalars -/

@[simp] theorem btScalar_bt {x : Scalar} (h : x.ok = true) : btScalar x.bt = .ok (some x) := by
  cases x <;> simp_all [Scalar.bt, btScalar, Scalar.ok]

theorem Scalar.bt_inj {x y : Scalar} (h : x.bt = y.bt) : x = y := by
  cases x <;> cases y <;> simp_all [Scalar.bt]

/-! ### sets -/

theorem addAll_map {l : List Scalar} (h : l.all Scalar.ok = true) (s : List Scalar) :
    addAll (l.map Scalar.bt) s = .ok (l.foldl (fun s x => sput x s) s) := by
  induction l generalizing s with
  | nil => rfl
  | cons a t ih =>
    simp only [List.all_cons, Bool.and_eq_true] at h
    simp only [List.map_cons, addAll, btScalar_bt h.1, List.foldl_cons]
    exact ih h.2 _

theorem delAll_map {l : List Scalar} (h : l.all Scalar.ok = true) (s : List Scalar) :
    delAll (l.map Scalar.bt) s = .ok (l.foldl (fun s x => sdel x s) s) := by
  induction l generalizing s with
  | nil => rfl
  | cons a t ih =>
    simp only [List.all_cons, Bool.and_eq_true] at h
    simp only [List.map_cons, delAll, btScalar_bt h.1, List.foldl_cons]
    exact ih h.2 _

theorem foldl_sput {l s : List Scalar} (hs : SSorted s) :
    SSorted (l.foldl (fun s x => sput x s) s) ∧
      ∀ x, x ∈ l.foldl (fun s x => sput x s) s ↔ x ∈ l ∨ x ∈ s := by
  induction l generalizing s with
  | nil => simpa using hs
  | cons a t ih =>
    obtain ⟨h1, h2⟩ := ih (hs.sput a)
    refine ⟨h1, fun x => ?_⟩
    simp only [List.foldl_cons, h2, mem_sput, List.mem_cons]; tauto

theorem foldl_sdel {l s : List Scalar} (hs : SSorted s) :
    SSorted (l.foldl (fun s x => sdel x s) s) ∧
      ∀ x, x ∈ l.foldl (fun s x => sdel x s) s ↔ x ∉ l ∧ x ∈ s := by
  induction l generalizing s with
  | nil => simpa using hs
  | cons a t ih =>
    obtain ⟨h1, h2⟩ := ih (hs.sdel a)
    refine ⟨h1, fun x => ?_⟩
    simp only [List.foldl_cons, h2, mem_sdel hs, List.mem_cons]; tauto

/-- The two-iterator loop computes the set differences. -/
theorem mem_diffSet {o n : List Scalar} (ho : SSorted o) (hn : SSorted n) :
    (∀ x, x ∈ (diffSet o n).1 ↔ x ∈ n ∧ x ∉ o) ∧ (∀ x, x ∈ (diffSet o n).2 ↔ x ∈ o ∧ x ∉ n) := by
  induction o generalizing n with
  | nil => simp [diffSet]
  | cons a os ih =>
    have hh := List.pairwise_cons.1 ho
    simp only [diffSet]
    induction n with
    | nil =>
      have := ih hh.2 (n := []) (by simp)
      simp only [diffSetIns]
      constructor
      · intro x; have := this.1 x; simp_all
      · intro x; have := this.2 x; simp_all
    | cons b ns ihn =>
      have hh' := List.pairwise_cons.1 hn
      simp only [diffSetIns]
      split
      · rename_i hlt
        have hb : b ∉ a :: os := by
          intro hm
          rcases List.mem_cons.1 hm with rfl | hm
          · exact absurd hlt (lt_irrefl _)
          · exact absurd (lt_trans hlt (hh.1 _ hm)) (lt_irrefl _)
        obtain ⟨i1, i2⟩ := ihn hh'.2
        constructor
        · intro x
          simp only [List.mem_cons, i1]
          constructor
          · rintro (rfl | h)
            · exact ⟨.inl rfl, by simpa using hb⟩
            · exact ⟨.inr h.1, by simpa using h.2⟩
          · rintro ⟨rfl | h, h2⟩
            · exact .inl rfl
            · exact .inr ⟨h, by simpa using h2⟩
        · intro x
          simp only [i2]
          constructor
          · rintro ⟨h1, h2⟩
            refine ⟨h1, ?_⟩
            intro hm
            rcases List.mem_cons.1 hm with rfl | hm
            · exact hb h1
            · exact h2 hm
          · rintro ⟨h1, h2⟩
            exact ⟨h1, fun hm => h2 (List.mem_cons_of_mem _ hm)⟩
      · split
        · rename_i _ hlt
          obtain ⟨i1, i2⟩ := ih hh.2 hn
          have ha : a ∉ b :: ns := by
            intro hm
            rcases List.mem_cons.1 hm with rfl | hm
            · exact absurd hlt (lt_irrefl _)
            · exact absurd (lt_trans hlt (hh'.1 _ hm)) (lt_irrefl _)
          constructor
          · intro x
            simp only [i1]
            constructor
            · rintro ⟨h1, h2⟩
              refine ⟨h1, ?_⟩
              intro hm
              rcases List.mem_cons.1 hm with rfl | hm
              · exact ha h1
              · exact h2 hm
            · rintro ⟨h1, h2⟩
              exact ⟨h1, fun hm => h2 (List.mem_cons_of_mem _ hm)⟩
          · intro x
            simp only [List.mem_cons, i2]
            constructor
            · rintro (rfl | h)
              · exact ⟨.inl rfl, by simpa using ha⟩
              · exact ⟨.inr h.1, by simpa using h.2⟩
            · rintro ⟨rfl | h, h2⟩
              · exact .inl rfl
              · exact .inr ⟨h, by simpa using h2⟩
        · rename_i h1 h2
          have hab : a = b := le_antisymm (not_lt.1 h1) (not_lt.1 h2)
          subst hab
          obtain ⟨i1, i2⟩ := ih hh.2 hh'.2
          have ha1 : a ∉ os := fun hm => absurd (hh.1 _ hm) (lt_irrefl _)
          have ha2 : a ∉ ns := fun hm => absurd (hh'.1 _ hm) (lt_irrefl _)
          constructor
          · intro x
            simp only [i1, List.mem_cons]
            constructor
            · rintro ⟨h1, h2⟩
              exact ⟨.inr h1, by rintro (he | h); exacts [ha2 (he ▸ h1), h2 h]⟩
            · rintro ⟨h1, h2⟩
              have hne : x ≠ a := fun h => h2 (.inl h)
              exact ⟨h1.resolve_left hne, fun h => h2 (.inr h)⟩
          · intro x
            simp only [i2, List.mem_cons]
            constructor
            · rintro ⟨h1, h2⟩
              exact ⟨.inr h1, by rintro (he | h); exacts [ha1 (he ▸ h1), h2 h]⟩
            · rintro ⟨h1, h2⟩
              have hne : x ≠ a := fun h => h2 (.inl h)
              exact ⟨h1.resolve_left hne, fun h => h2 (.inr h)⟩

theorem diffSet_sublist (o n : List Scalar) :
    List.Sublist (diffSet o n).1 n ∧ List.Sublist (diffSet o n).2 o := by
  induction o generalizing n with
  | nil => simp [diffSet]
  | cons a os ih =>
    simp only [diffSet]
    induction n with
    | nil => simp only [diffSetIns]; exact ⟨(ih []).1, (ih []).2.cons_cons _⟩
    | cons b ns ihn =>
      simp only [diffSetIns]
      split
      · exact ⟨ihn.1.cons_cons _, ihn.2⟩
      · split
        · exact ⟨(ih _).1, (ih _).2.cons_cons _⟩
        · exact ⟨(ih _).1.cons _, (ih _).2.cons _⟩

/-! ### typed/wf of lookups -/

theorem typed_of_mget {d : Dict} (h : typedD d = true) {k : Bytes} {v : Val}
    (e : mget k d = some v) : v.typed = true := (typedD_iff.1 h).2 _ (mem_of_mget e)

theorem wf_of_mget {d : Dict} (h : wfD d = true) {k : Bytes} {v : Val}
    (e : mget k d = some v) : v.wf = true := (wfD_iff.1 h).2 _ (mem_of_mget e)

theorem wfD_sorted {d : Dict} (h : wfD d = true) : KSorted d := (wfD_iff.1 h).1

theorem wfD_nil : wfD [] = true := rfl

theorem wf_dict {d : Dict} : (Val.dict d).wf = true ↔ d ≠ [] ∧ wfD d = true := by
  simp only [Val.wf, Val.typed, Val.full, wfD, Bool.and_eq_true, Bool.not_eq_true',
    List.isEmpty_eq_false_iff]
  tauto

theorem wf_set {s : List Scalar} :
    (Val.set s).wf = true ↔ s ≠ [] ∧ SSorted s ∧ s.all Scalar.ok = true := by
  simp only [Val.wf, Val.typed, Val.full, Bool.and_eq_true, Bool.not_eq_true',
    List.isEmpty_eq_false_iff, decide_eq_true_eq]
  tauto

theorem wf_scalar {x : Scalar} : (Val.scalar x).wf = true ↔ x.ok = true := by
  simp [Val.wf, Val.typed, Val.full]

theorem wfD_cons {k : Bytes} {v : Val} {t : Dict} :
    wfD ((k, v) :: t) = true ↔ v.wf = true ∧ (∀ b ∈ t, k < b.1) ∧ wfD t = true := by
  simp only [wfD, Val.wf, typedD, prunedD, Bool.and_eq_true, List.all_eq_true, decide_eq_true_eq]
  tauto

theorem typedD_cons {k : Bytes} {v : Val} {t : Dict} :
    typedD ((k, v) :: t) = true ↔ v.typed = true ∧ (∀ b ∈ t, k < b.1) ∧ typedD t = true := by
  simp only [typedD, Bool.and_eq_true, List.all_eq_true, decide_eq_true_eq]

/-! ### prune -/

theorem mem_pruneD_key {d : Dict} {b : Bytes × Val} (h : b ∈ pruneD d) :
    ∃ v, (b.1, v) ∈ d ∧ b.2 = v.prune ∧ b.2.emptyVal = false := by
  induction d with
  | nil => simp [pruneD] at h
  | cons a t ih =>
    obtain ⟨k, v⟩ := a
    simp only [pruneD] at h
    split at h
    · obtain ⟨w, h1, h2⟩ := ih h; exact ⟨w, List.mem_cons_of_mem _ h1, h2⟩
    · rename_i he
      rcases List.mem_cons.1 h with rfl | h
      · exact ⟨v, List.mem_cons_self, rfl, by simpa using he⟩
      · obtain ⟨w, h1, h2⟩ := ih h; exact ⟨w, List.mem_cons_of_mem _ h1, h2⟩

mutual
theorem prune_typed : ∀ v : Val, v.typed = true → v.prune.typed = true
  | .dict d, h => by simp only [Val.prune, Val.typed] at *; exact pruneD_typed d h
  | .set s, h => h
  | .scalar x, h => h
theorem pruneD_typed : ∀ d : Dict, typedD d = true → typedD (pruneD d) = true
  | [], _ => rfl
  | (k, v) :: t, h => by
    obtain ⟨h1, h2, h3⟩ := typedD_cons.1 h
    simp only [pruneD]
    split
    · exact pruneD_typed t h3
    · refine typedD_cons.2 ⟨prune_typed v h1, ?_, pruneD_typed t h3⟩
      intro b hb
      obtain ⟨w, hw, _⟩ := mem_pruneD_key hb
      exact h2 (b.1, w) hw
end

theorem full_iff_of_prune {v : Val} : v.full = true ↔ v.emptyVal = false ∧
    (match v with | .dict d => prunedD d = true | _ => True) := by
  cases v <;> simp [Val.full, Val.emptyVal]

mutual
theorem prune_pruned : ∀ v : Val, v.prune.emptyVal = false → v.prune.full = true
  | .dict d, h => by
    simp only [Val.prune, Val.emptyVal, Val.full] at *
    simp [h, pruneD_pruned d]
  | .set s, h => by simpa [Val.prune, Val.emptyVal, Val.full] using h
  | .scalar x, h => by simp [Val.prune, Val.full]
theorem pruneD_pruned : ∀ d : Dict, prunedD (pruneD d) = true
  | [] => rfl
  | (k, v) :: t => by
    simp only [pruneD]
    split
    · exact pruneD_pruned t
    · rename_i he
      simp only [prunedD, pruneD_pruned t, prune_pruned v (by simpa using he), Bool.and_self]
end

theorem pruneD_wf {d : Dict} (h : typedD d = true) : wfD (pruneD d) = true := by
  simp [wfD, pruneD_typed d h, pruneD_pruned d]

theorem full_not_empty {v : Val} (h : v.full = true) : v.emptyVal = false :=
  (full_iff_of_prune.1 h).1

mutual
theorem prune_of_full : ∀ v : Val, v.full = true → v.prune = v
  | .dict d, h => by
    simp only [Val.full, Bool.and_eq_true] at h
    simp only [Val.prune, pruneD_of_pruned d h.2]
  | .set s, _ => rfl
  | .scalar x, _ => rfl
theorem pruneD_of_pruned : ∀ d : Dict, prunedD d = true → pruneD d = d
  | [], _ => rfl
  | (k, v) :: t, h => by
    simp only [prunedD, Bool.and_eq_true] at h
    simp only [pruneD, prune_of_full v h.1, full_not_empty h.1, pruneD_of_pruned t h.2]
    simp
end

theorem pruneD_of_wf {d : Dict} (h : wfD d = true) : pruneD d = d := by
  simp only [wfD, Bool.and_eq_true] at h; exact pruneD_of_pruned d h.2

theorem mget_pruneD {d : Dict} (h : KSorted d) (k : Bytes) :
    mget k (pruneD d) = (mget k d).bind fun v =>
      if v.prune.emptyVal then none else some v.prune := by
  induction d with
  | nil => simp [pruneD, mget]
  | cons a t ih =>
    obtain ⟨k', v⟩ := a
    have hn : ∀ x, x = k' → mget x (pruneD t) = none := by
      intro x hx; subst hx
      apply mget_none_of_lt
      intro b hb
      obtain ⟨w, hw, _⟩ := mem_pruneD_key hb
      exact h.head (b.1, w) hw
    simp only [pruneD]
    by_cases hk : k = k'
    · simp only [mget, if_pos hk, Option.bind_some]
      split
      · exact hn k hk
      · simp [mget, hk]
    · simp only [mget, if_neg hk]
      split
      · exact ih h.tail
      · simp only [mget, if_neg hk]; exact ih h.tail

/-! ### diff lookups -/

theorem mget_map {α β : Type} (f : α → β) (g : List (Bytes × α) → List (Bytes × β))
    (h0 : g [] = []) (h1 : ∀ k v t, g ((k, v) :: t) = (k, f v) :: g t) (l : List (Bytes × α))
    (x : Bytes) : mget x (g l) = (mget x l).map f := by
  induction l with
  | nil => simp [h0, mget]
  | cons a t ih =>
    obtain ⟨k, v⟩ := a
    simp only [h1, mget]; split <;> simp [ih]

theorem mget_addD (d : Dict) (x : Bytes) : mget x (addD d) = (mget x d).map addV :=
  mget_map addV addD (by simp [addD]) (by simp [addD]) d x

theorem mget_delD (d : Dict) (x : Bytes) : mget x (delD d) = (mget x d).map delV :=
  mget_map delV delD (by simp [delD]) (by simp [delD]) d x

theorem mget_dictBt (d : Dict) (x : Bytes) : mget x (dictBt d) = (mget x d).map Val.bt :=
  mget_map Val.bt dictBt (by simp [dictBt]) (by simp [dictBt]) d x

theorem addD_eq_map (d : Dict) : addD d = d.map fun p => (p.1, addV p.2) := by
  induction d with
  | nil => simp [addD]
  | cons a t ih => obtain ⟨k, v⟩ := a; simp [addD, ih]

theorem delD_eq_map (d : Dict) : delD d = d.map fun p => (p.1, delV p.2) := by
  induction d with
  | nil => simp [delD]
  | cons a t ih => obtain ⟨k, v⟩ := a; simp [delD, ih]

theorem dictBt_eq_map (d : Dict) : dictBt d = d.map fun p => (p.1, Val.bt p.2) := by
  induction d with
  | nil => simp [dictBt]
  | cons a t ih => obtain ⟨k, v⟩ := a; simp [dictBt, ih]

theorem mget_append {α : Type} (a b : List (Bytes × α)) (x : Bytes) :
    mget x (a ++ b) = (mget x a).or (mget x b) := by
  induction a with
  | nil => simp [mget]
  | cons p t ih =>
    obtain ⟨k, v⟩ := p
    simp only [List.cons_append, mget]; split <;> simp [ih]

/-- Splitting a sorted map at a key. -/
theorem mget_takeWhile {d : Dict} (h : KSorted d) (k x : Bytes) :
    mget x (d.takeWhile fun p => decide (p.1 < k)) = if x < k then mget x d else none := by
  induction d with
  | nil => simp [mget]
  | cons a t ih =>
    obtain ⟨k', v⟩ := a
    rw [List.takeWhile_cons]
    by_cases hk : k' < k
    · simp only [hk, decide_true, if_true, mget, ih h.tail]
      by_cases hx : x = k'
      · subst hx; simp [hk]
      · simp [hx]
    · simp only [hk, decide_false, Bool.false_eq_true, if_false, mget]
      by_cases hx : x < k
      · rw [if_pos hx, if_neg (by rintro rfl; exact hk hx), mget_none_of_lt]
        intro b hb; exact lt_trans (lt_of_lt_of_le hx (not_lt.1 hk)) (h.head _ hb)
      · rw [if_neg hx]

theorem mget_dropWhile {d : Dict} (h : KSorted d) (k x : Bytes) :
    mget x (d.dropWhile fun p => decide (p.1 < k)) = if x < k then none else mget x d := by
  induction d with
  | nil => simp [mget]
  | cons a t ih =>
    obtain ⟨k', v⟩ := a
    rw [List.dropWhile_cons]
    by_cases hk : k' < k
    · simp only [hk, decide_true, if_true, ih h.tail, mget]
      by_cases hx : x = k'
      · subst hx; simp [hk]
      · simp [hx]
    · simp only [hk, decide_false, Bool.false_eq_true, if_false, mget]
      by_cases hx : x < k
      · rw [if_pos hx, if_neg (by rintro rfl; exact hk hx), mget_none_of_lt]
        intro b hb; exact lt_trans (lt_of_lt_of_le hx (not_lt.1 hk)) (h.head _ hb)
      · rw [if_neg hx]

theorem KSorted.dropWhile {d : Dict} (h : KSorted d) (k : Bytes) :
    KSorted (d.dropWhile fun p => decide (p.1 < k)) :=
  List.Pairwise.sublist (List.dropWhile_sublist _) h

theorem KSorted.takeWhile {d : Dict} (h : KSorted d) (k : Bytes) :
    KSorted (d.takeWhile fun p => decide (p.1 < k)) :=
  List.Pairwise.sublist (List.takeWhile_sublist _) h

theorem dropWhile_head_ge {d : Dict} {k : Bytes} {p : Bytes × Val} {t : Dict}
    (e : d.dropWhile (fun p => decide (p.1 < k)) = p :: t) : k ≤ p.1 := by
  have := List.head?_dropWhile_not (p := fun p : Bytes × Val => decide (p.1 < k)) (l := d)
  rw [e] at this
  simpa using this

/-- What the diff says about a key, as a function of the two values at the key. -/
def diffAt (o n : Option Val) : Option Bt :=
  match o, n with
  | none, none => none
  | none, some n => some (addV n)
  | some o, none => some (delV o)
  | some o, some n => diffV o n

theorem mget_diffD {old new : Dict} (ho : KSorted old) (hn : KSorted new) (x : Bytes) :
    mget x (diffD old new) = diffAt (mget x old) (mget x new) := by
  induction old generalizing new with
  | nil =>
    simp only [diffD, mget_addD, mget]
    cases mget x new <;> simp [diffAt]
  | cons a old ih =>
    obtain ⟨k, o⟩ := a
    have hlt : ∀ {x}, x < k → mget x old = none := fun hx =>
      mget_none_of_lt fun b hb => lt_trans hx (ho.head _ hb)
    have hself : mget k old = none := mget_none_of_lt ho.head
    simp only [diffD, mget_append, mget_addD, mget_takeWhile hn]
    have hdw := mget_dropWhile hn k x
    by_cases hx : x < k
    · -- below the head key
      have hxk : x ≠ k := ne_of_lt hx
      simp only [hx, if_true] at hdw ⊢
      have hrest : ∀ r : List (Bytes × Bt), mget x r = none →
          ((mget x new).map addV).or (mget x r) = diffAt (mget x ((k, o) :: old)) (mget x new) := by
        intro r hr
        simp only [hr, Option.or_none, mget, if_neg hxk, hlt hx]
        cases mget x new <;> simp [diffAt]
      apply hrest
      split
      · simp only [mget, if_neg hxk]
        rw [ih ho.tail (by simp)]; simp [mget, hlt hx, diffAt]
      · rename_i k' n rest e
        have hs : KSorted ((k', n) :: rest) := e ▸ hn.dropWhile k
        rw [e] at hdw
        have hr : mget x rest = none := by
          simp only [mget] at hdw; split at hdw
          · simp at hdw
          · exact hdw
        split
        · simp only [mget, if_neg hxk]
          rw [ih ho.tail hs, hdw]; simp [hlt hx, diffAt]
        · split
          · rw [ih ho.tail hs.tail, hr]; simp [hlt hx, diffAt]
          · simp only [mget, if_neg hxk]; rw [ih ho.tail hs.tail, hr]; simp [hlt hx, diffAt]
    · simp only [if_neg hx, Option.map_none, Option.none_or] at hdw ⊢
      split
      · rename_i e
        rw [e] at hdw
        have hxn : mget x new = none := by rw [← hdw]; simp [mget]
        simp only [mget, hxn]
        split
        · simp [diffAt]
        · rw [ih ho.tail (by simp)]; simp [mget]
      · rename_i k' n rest e
        have hs : KSorted ((k', n) :: rest) := e ▸ hn.dropWhile k
        have hge := dropWhile_head_ge e
        rw [e] at hdw
        split
        · rename_i hkk
          simp only [mget]
          split
          · rename_i hxk; subst hxk
            have hxn : mget x new = none := by
              rw [← hdw]; apply mget_none_of_lt
              intro b hb
              rcases List.mem_cons.1 hb with rfl | hb
              · exact hkk
              · exact lt_trans hkk (hs.head _ hb)
            simp [hxn, diffAt]
          · rw [ih ho.tail hs, hdw]
        · rename_i hkk
          have hk' : k = k' := le_antisymm hge (not_lt.1 hkk)
          subst hk'
          by_cases hxk : x = k
          · subst hxk
            have hxn : mget x new = some n := by rw [← hdw]; simp [mget]
            have hr : mget x rest = none := mget_none_of_lt hs.head
            have hrec : mget x (diffD old rest) = none := by
              rw [ih ho.tail hs.tail, hself, hr]; simp [diffAt]
            simp only [mget, if_true, hxn, diffAt]
            split
            · rename_i hd; rw [hrec, hd]
            · rename_i b hd; simp [mget, hd]
          · have hxn : mget x new = mget x rest := by rw [← hdw]; simp [mget, hxk]
            simp only [mget, if_neg hxk, hxn]
            split
            · exact ih ho.tail hs.tail
            · simp only [mget, if_neg hxk]; exact ih ho.tail hs.tail

/-- Keys of the diff are keys of one of the dicts. -/
theorem mem_diffD_key {old new : Dict} {b : Bytes × Bt} (h : b ∈ diffD old new) :
    (∃ p ∈ old, p.1 = b.1) ∨ (∃ p ∈ new, p.1 = b.1) := by
  induction old generalizing new with
  | nil =>
    simp only [diffD, addD_eq_map, List.mem_map] at h
    obtain ⟨p, hp, rfl⟩ := h
    exact .inr ⟨p, hp, rfl⟩
  | cons a old ih =>
    obtain ⟨k, o⟩ := a
    simp only [diffD, List.mem_append, addD_eq_map, List.mem_map] at h
    rcases h with ⟨p, hp, rfl⟩ | h
    · exact .inr ⟨p, (List.takeWhile_sublist _).subset hp, rfl⟩
    · have sub : ∀ p, p ∈ new.dropWhile (fun p => decide (p.1 < k)) → p ∈ new :=
        fun p hp => (List.dropWhile_sublist _).subset hp
      have key : ∀ n', (∀ p ∈ n', p ∈ new) → b ∈ diffD old n' →
          (∃ p ∈ (k, o) :: old, p.1 = b.1) ∨ (∃ p ∈ new, p.1 = b.1) := by
        intro n' hn' hb
        rcases ih hb with ⟨p, hp, e⟩ | ⟨p, hp, e⟩
        · exact .inl ⟨p, List.mem_cons_of_mem _ hp, e⟩
        · exact .inr ⟨p, hn' p hp, e⟩
      split at h
      · rcases List.mem_cons.1 h with rfl | h
        · exact .inl ⟨_, List.mem_cons_self, rfl⟩
        · exact key [] (by simp) h
      · rename_i k' n rest e
        have hsub : ∀ p ∈ (k', n) :: rest, p ∈ new := fun p hp => sub p (e ▸ hp)
        split at h
        · rcases List.mem_cons.1 h with rfl | h
          · exact .inl ⟨_, List.mem_cons_self, rfl⟩
          · exact key _ hsub h
        · split at h
          · exact key rest (fun p hp => hsub p (List.mem_cons_of_mem _ hp)) h
          · rcases List.mem_cons.1 h with rfl | h
            · exact .inl ⟨_, List.mem_cons_self, rfl⟩
            · exact key rest (fun p hp => hsub p (List.mem_cons_of_mem _ hp)) h

theorem addD_sorted {d : Dict} (h : KSorted d) : KSorted (addD d) := by
  rw [addD_eq_map]; exact List.pairwise_map.2 h

theorem delD_sorted {d : Dict} (h : KSorted d) : KSorted (delD d) := by
  rw [delD_eq_map]; exact List.pairwise_map.2 h

theorem dictBt_sorted {d : Dict} (h : KSorted d) : KSorted (dictBt d) := by
  rw [dictBt_eq_map]; exact List.pairwise_map.2 h

theorem diffD_sorted {old new : Dict} (ho : KSorted old) (hn : KSorted new) :
    KSorted (diffD old new) := by
  induction old generalizing new with
  | nil => simpa [diffD] using addD_sorted hn
  | cons a old ih =>
    obtain ⟨k, o⟩ := a
    have consS : ∀ b n', KSorted n' → (∀ p ∈ n', k < p.1) →
        KSorted ((k, b) :: diffD old n') := by
      intro b n' hn' hl
      refine kSorted_cons.2 ⟨?_, ih ho.tail hn'⟩
      intro p hp
      rcases mem_diffD_key hp with ⟨q, hq, e⟩ | ⟨q, hq, e⟩
      · exact e ▸ ho.head _ hq
      · exact e ▸ hl _ hq
    have keyS : ∀ n', KSorted n' → (∀ p ∈ n', k < p.1) →
        ∀ q ∈ diffD old n', k < q.1 := by
      intro n' hn' hl p hp
      rcases mem_diffD_key hp with ⟨q, hq, e⟩ | ⟨q, hq, e⟩
      · exact e ▸ ho.head _ hq
      · exact e ▸ hl _ hq
    simp only [diffD]
    refine List.pairwise_append.2 ⟨addD_sorted (hn.takeWhile k), ?_, ?_⟩
    · split
      · exact consS _ _ (by simp) (by simp)
      · rename_i k' n rest e
        have hs : KSorted ((k', n) :: rest) := e ▸ hn.dropWhile k
        have hge := dropWhile_head_ge e
        split
        · rename_i hkk
          refine consS _ _ hs ?_
          intro p hp
          rcases List.mem_cons.1 hp with rfl | hp
          · exact hkk
          · exact lt_trans hkk (hs.head _ hp)
        · have hl : ∀ p ∈ rest, k < p.1 := fun p hp => lt_of_le_of_lt hge (hs.head _ hp)
          split
          · exact ih ho.tail hs.tail
          · exact consS _ _ hs.tail hl
    · intro p hp q hq
      have hpk : p.1 < k := by
        simp only [addD_eq_map, List.mem_map] at hp
        obtain ⟨p', hp', rfl⟩ := hp
        have := List.all_eq_true.1 (List.all_takeWhile (p := fun p : Bytes × Val => decide (p.1 < k))
          (l := new)) _ hp'
        simpa using this
      suffices k ≤ q.1 from lt_of_lt_of_le hpk this
      split at hq
      · rcases List.mem_cons.1 hq with rfl | hq
        · exact le_rfl
        · exact le_of_lt (keyS _ (by simp) (by simp) _ hq)
      · rename_i k' n rest e
        have hs : KSorted ((k', n) :: rest) := e ▸ hn.dropWhile k
        have hge := dropWhile_head_ge e
        split at hq
        · rename_i hkk
          rcases List.mem_cons.1 hq with rfl | hq
          · exact le_rfl
          · refine le_of_lt (keyS _ hs ?_ _ hq)
            intro p hp
            rcases List.mem_cons.1 hp with rfl | hp
            · exact hkk
            · exact lt_trans hkk (hs.head _ hp)
        · have hl : ∀ p ∈ rest, k < p.1 := fun p hp => lt_of_le_of_lt hge (hs.head _ hp)
          split at hq
          · exact le_of_lt (keyS _ hs.tail hl _ hq)
          · rcases List.mem_cons.1 hq with rfl | hq
            · exact le_rfl
            · exact le_of_lt (keyS _ hs.tail hl _ hq)

/-! ### apply lookups -/

theorem mset_sorted {m : Dict} (h : KSorted m) (k : Bytes) (v : Option Val) :
    KSorted (mset k v m) := by
  cases v
  · exact h.mdel k
  · exact h.mput k _

theorem mget_mset {m : Dict} (h : KSorted m) (k : Bytes) (v : Option Val) (x : Bytes) :
    mget x (mset k v m) = if x = k then v else mget x m := by
  cases v
  · exact mget_mdel h k x
  · exact mget_mput h k _ x

/-- Characterisation of a successful application of a diff with distinct keys: each key is treated
independently. -/
theorem applyD_spec {df : BtDict} (hd : KSorted df) {data src r : Dict} (hs : KSorted data)
    (e : applyD df data src = .ok r) :
    KSorted r ∧ ∀ x, match mget x df with
      | none => mget x r = mget x data
      | some v => applyV v (mget x data) (mget x src) = .ok (mget x r) := by
  induction df generalizing data with
  | nil =>
    simp only [applyD, Out.ok.injEq] at e
    subst e; exact ⟨hs, fun x => by simp [mget]⟩
  | cons a t ih =>
    obtain ⟨k, v⟩ := a
    simp only [applyD] at e
    obtain ⟨o, h1, h2⟩ := Out.bind_eq_ok.1 e
    obtain ⟨hr, hx⟩ := ih hd.tail (mset_sorted hs k o) h2
    refine ⟨hr, fun x => ?_⟩
    have := hx x
    by_cases hxk : x = k
    · subst hxk
      have hn : mget x t = none := mget_none_of_lt hd.head
      simp only [hn, mget_mset hs, if_true] at this
      simp only [mget, if_true, this, h1]
    · simp only [mget, if_neg hxk]
      simpa only [mget_mset hs, if_neg hxk] using this

/-- Sufficient condition for success. -/
theorem applyD_ok {df : BtDict} (hd : KSorted df) {data src : Dict} (hs : KSorted data)
    (h : ∀ k v, (k, v) ∈ df → ∃ o, applyV v (mget k data) (mget k src) = .ok o) :
    ∃ r, applyD df data src = .ok r := by
  induction df generalizing data with
  | nil => exact ⟨data, rfl⟩
  | cons a t ih =>
    obtain ⟨k, v⟩ := a
    obtain ⟨o, ho⟩ := h k v List.mem_cons_self
    simp only [applyD, ho, Out.bind_ok]
    apply ih hd.tail (mset_sorted hs k o)
    intro k' v' hm
    have hne : k' ≠ k := ne_of_gt (hd.head _ hm)
    simp only [mget_mset hs, if_neg hne]
    exact h k' v' (List.mem_cons_of_mem _ hm)

/-- `applyD` with a target: if every entry produces the target value and untouched keys already have
it, the result is the target. -/
theorem applyD_target {df : BtDict} (hd : KSorted df) {data src tgt : Dict} (hs : KSorted data)
    (ht : KSorted tgt)
    (h : ∀ x, match mget x df with
      | none => mget x data = mget x tgt
      | some v => applyV v (mget x data) (mget x src) = .ok (mget x tgt)) :
    applyD df data src = .ok tgt := by
  obtain ⟨r, hr⟩ := applyD_ok hd hs (src := src) (by
    intro k v hm
    have := h k
    rw [mget_of_mem hd hm] at this
    exact ⟨_, this⟩)
  rw [hr]
  obtain ⟨h1, h2⟩ := applyD_spec hd hs hr
  congr 1
  refine map_ext h1 ht fun x => ?_
  have a := h x
  have b := h2 x
  cases hx : mget x df with
  | none => simp only [hx] at a b; rw [b, a]
  | some v =>
    simp only [hx] at a b
    rw [a] at b
    exact (Out.ok.inj b).symm

/-! ### the main diff/apply facts -/

/-- Applying a set diff to the old set gives the new set. -/
theorem applyV_setDiff {o n : List Scalar} (ho : SSorted o) (hn : SSorted n)
    (ho' : o.all Scalar.ok = true) (hn' : n.all Scalar.ok = true) (x : List Scalar) :
    applyV (setDiffBt (diffSet o n)) (some (.set o)) (some (.set x)) = .ok (some (.set n)) := by
  have hsub := diffSet_sublist o n
  have h1 : (diffSet o n).1.all Scalar.ok = true :=
    List.all_eq_true.2 fun a ha => List.all_eq_true.1 hn' a (hsub.1.subset ha)
  have h2 : (diffSet o n).2.all Scalar.ok = true :=
    List.all_eq_true.2 fun a ha => List.all_eq_true.1 ho' a (hsub.2.subset ha)
  simp only [setDiffBt, applyV, setDiffParts, curSet, addAll_map h1, Out.bind_ok, delAll_map h2]
  congr 3
  obtain ⟨s1, m1⟩ := foldl_sput (l := (diffSet o n).1) ho
  obtain ⟨s2, m2⟩ := foldl_sdel (l := (diffSet o n).2) s1
  obtain ⟨d1, d2⟩ := mem_diffSet ho hn
  refine set_ext s2 hn fun y => ?_
  rw [m2, m1, d1, d2]
  tauto

theorem applyV_setAdd {n : List Scalar} (hn : SSorted n) (hn' : n.all Scalar.ok = true)
    (cur : Option Val) (hc : ∀ s, cur ≠ some (.set s)) (x : List Scalar) :
    applyV (setDiffBt (n, [])) cur (some (.set x)) = .ok (some (.set n)) := by
  have hcur : curSet cur = [] := by
    unfold curSet; split
    · rename_i s; exact absurd rfl (hc s)
    · rfl
  simp only [setDiffBt, applyV, setDiffParts, addAll_map hn', hcur, Out.bind_ok, List.map_nil,
    delAll]
  congr 3
  obtain ⟨s1, m1⟩ := foldl_sput (l := n) (s := []) (by simp)
  exact set_ext s1 hn fun y => by rw [m1]; simp

mutual
/-- A new (or type-changed) value is reproduced by applying its diff. -/
theorem applyV_add : ∀ (n : Val) (cur : Option Val), n.wf = true →
    (match n, cur with
      | .dict _, some (.dict _) => False
      | .set _, some (.set _) => False
      | _, _ => True) →
    applyV (addV n) cur (some n) = .ok (some n)
  | .scalar x, cur, _, _ => by simp [addV, applyV]
  | .set s, cur, h, hc => by
    obtain ⟨_, h1, h2⟩ := wf_set.1 h
    simp only [addV]
    refine applyV_setAdd h1 h2 cur ?_ s
    rintro s' rfl
    exact hc
  | .dict d, cur, h, hc => by
    obtain ⟨_, h1⟩ := wf_dict.1 h
    have hcur : curDict cur = [] := by
      unfold curDict; split
      · exact hc.elim
      · rfl
    simp only [addV, applyV, hcur, applyD_add d h1, Out.bind_ok]
theorem applyD_add : ∀ d : Dict, wfD d = true → applyD (addD d) [] d = .ok d
  | d, h => by
    have hs := wfD_sorted h
    refine applyD_target (addD_sorted hs) (by simp) hs fun x => ?_
    rw [mget_addD]
    cases hx : mget x d with
    | none => simp [mget]
    | some v =>
      simp only [Option.map_some, mget]
      exact applyD_add_aux d h x v hx
theorem applyD_add_aux : ∀ (d : Dict), wfD d = true → ∀ (x : Bytes) (v : Val),
    mget x d = some v → applyV (addV v) none (some v) = .ok (some v)
  | [], _, x, v, hx => by simp [mget] at hx
  | (k, w) :: t, h, x, v, hx => by
    obtain ⟨h1, h2, h3⟩ := wfD_cons.1 h
    have hw := applyV_add w none h1 (by cases w <;> trivial)
    have ht := applyD_add_aux t h3
    simp only [mget] at hx
    split at hx
    · simp only [Option.some.injEq] at hx; subst hx; exact hw
    · exact ht x v hx
end

/-- The same-key step, given the fact for nested dicts. -/
theorem applyV_diff_step (o n : Val) (ho : o.typed = true) (hn : n.wf = true)
    (rec_ : ∀ a b, o = .dict a → n = .dict b → applyD (diffD a b) a b = .ok b) :
    match diffV o n with
    | none => o = n
    | some v => applyV v (some o) (some n) = .ok (some n) := by
  cases o with
  | scalar a =>
    cases n with
    | scalar b =>
      by_cases h : a = b
      · subst h; simp [diffV]
      · simp [diffV, h, applyV]
    | set s => simp only [diffV]; exact applyV_add _ _ hn trivial
    | dict s => simp only [diffV]; exact applyV_add _ _ hn trivial
  | set a =>
    cases n with
    | scalar b => simp only [diffV]; exact applyV_add _ _ hn trivial
    | dict s => simp only [diffV]; exact applyV_add _ _ hn trivial
    | set b =>
      obtain ⟨_, hb1, hb2⟩ := wf_set.1 hn
      simp only [Val.typed, Bool.and_eq_true, decide_eq_true_eq] at ho
      simp only [diffV, diffSetOpt]
      split
      · rename_i hnone
        split at hnone
        · rename_i he
          simp only [Bool.and_eq_true, List.isEmpty_iff] at he
          obtain ⟨d1, d2⟩ := mem_diffSet ho.1 hb1
          congr 1
          refine set_ext ho.1 hb1 fun x => ?_
          have e1 := d1 x; have e2 := d2 x
          rw [he.1] at e1; rw [he.2] at e2
          simp only [List.not_mem_nil, false_iff] at e1 e2
          tauto
        · simp at hnone
      · rename_i v hsome
        split at hsome
        · simp at hsome
        · simp only [Option.some.injEq] at hsome
          subst hsome
          exact applyV_setDiff ho.1 hb1 ho.2 hb2 b
  | dict a =>
    cases n with
    | scalar b => simp only [diffV]; exact applyV_add _ _ hn trivial
    | set s => simp only [diffV]; exact applyV_add _ _ hn trivial
    | dict b =>
      have hrec := rec_ a b rfl rfl
      simp only [diffV]
      split
      · rename_i hnone
        split at hnone
        · rename_i he
          rw [List.isEmpty_iff.1 he] at hrec
          simp only [applyD, Out.ok.injEq] at hrec
          rw [hrec]
        · simp at hnone
      · rename_i v hsome
        split at hsome
        · simp at hsome
        · simp only [Option.some.injEq] at hsome
          subst hsome
          simp only [applyV, curDict, hrec, Out.bind_ok]

/-- Lifting the same-key facts to whole dicts. -/
theorem applyD_diff_of (old new : Dict) (ho : typedD old = true) (hn : wfD new = true)
    (h : ∀ x o n, mget x old = some o → mget x new = some n →
      match diffV o n with
      | none => o = n
      | some v => applyV v (some o) (some n) = .ok (some n)) :
    applyD (diffD old new) old new = .ok new := by
  have hos := typedD_sorted ho
  have hns := wfD_sorted hn
  refine applyD_target (diffD_sorted hos hns) hos hns fun x => ?_
  rw [mget_diffD hos hns]
  cases h1 : mget x old with
  | none =>
    cases h2 : mget x new with
    | none => simp [diffAt]
    | some n =>
      simp only [diffAt]
      exact applyV_add n none (wf_of_mget hn h2) (by cases n <;> trivial)
  | some o =>
    cases h2 : mget x new with
    | none =>
      simp only [diffAt]
      cases o <;> simp [delV, setDiffBt, applyV]
    | some n =>
      simp only [diffAt]
      have := h x o n h1 h2
      split
      · rename_i hd; rw [hd] at this; rw [this]
      · rename_i v hd; rw [hd] at this; exact this

mutual
theorem applyV_diff : ∀ (n o : Val), o.typed = true → n.wf = true →
    match diffV o n with
    | none => o = n
    | some v => applyV v (some o) (some n) = .ok (some n)
  | .scalar x, o, ho, hn => applyV_diff_step o _ ho hn (by intro a b _ h; cases h)
  | .set x, o, ho, hn => applyV_diff_step o _ ho hn (by intro a b _ h; cases h)
  | .dict b, o, ho, hn => applyV_diff_step o _ ho hn (by
      intro a b' h1 h2
      cases h2
      subst h1
      have hw := (wf_dict.1 hn).2
      exact applyD_diff_of a b (by simpa [Val.typed] using ho) hw fun x o' n' e1 e2 =>
        applyD_diff_aux b hw x n' e2 o' (typed_of_mget (by simpa [Val.typed] using ho) e1))
theorem applyD_diff_aux : ∀ (d : Dict), wfD d = true → ∀ (x : Bytes) (n : Val),
    mget x d = some n → ∀ o : Val, o.typed = true →
    match diffV o n with
    | none => o = n
    | some v => applyV v (some o) (some n) = .ok (some n)
  | [], _, x, v, hx, _, _ => by simp [mget] at hx
  | (k, w) :: t, h, x, v, hx, o, ho => by
    obtain ⟨h1, h2, h3⟩ := wfD_cons.1 h
    have hw := applyV_diff w o ho h1
    have ht := applyD_diff_aux t h3
    simp only [mget] at hx
    split at hx
    · simp only [Option.some.injEq] at hx; subst hx; exact hw
    · exact ht x v hx o ho
end

/-- Applying the diff between two dicts to the old one, with the new one as the source of values,
gives the new one. -/
theorem applyD_diff {old new : Dict} (ho : typedD old = true) (hn : wfD new = true) :
    applyD (diffD old new) old new = .ok new :=
  applyD_diff_of old new ho hn fun x o n h1 h2 =>
    applyD_diff_aux new hn x n h2 o (typed_of_mget ho h1)

/-! ### parsing is the inverse of serialising -/

theorem parseScalar_ok {b : Bt} {x : Scalar} (h : parseScalar b = .ok x) :
    b = x.bt ∧ x.ok = true := by
  cases b <;> simp only [parseScalar] at h
  · split at h
    · rename_i hi; cases h; exact ⟨rfl, hi⟩
    · cases h
  · cases h; exact ⟨rfl, rfl⟩
  · cases h
  · cases h

theorem parseSet_ok {l : List Bt} {last : Option Scalar} {s : List Scalar}
    (h : parseSet last l = .ok s) :
    l = s.map Scalar.bt ∧ s.all Scalar.ok = true ∧ SSorted s ∧
      ∀ y, last = some y → ∀ x ∈ s, y < x := by
  induction l generalizing last s with
  | nil => simp only [parseSet, Out.ok.injEq] at h; subst h; simp
  | cons b t ih =>
    simp only [parseSet] at h
    obtain ⟨x, hx, h⟩ := Out.bind_eq_ok.1 h
    split at h
    · cases h
    · rename_i hlast
      obtain ⟨r, hr, h⟩ := Out.bind_eq_ok.1 h
      simp only [Out.ok.injEq] at h; subst h
      obtain ⟨e1, e2⟩ := parseScalar_ok hx
      obtain ⟨i1, i2, i3, i4⟩ := ih hr
      refine ⟨by simp [e1, i1], by simp [e2, i2], ?_, ?_⟩
      · exact List.pairwise_cons.2 ⟨fun z hz => i4 x rfl z hz, i3⟩
      · rintro y rfl z hz
        have hyx : y < x := by simpa [outOfOrder] using hlast
        rcases List.mem_cons.1 hz with rfl | hz
        · exact hyx
        · exact lt_trans hyx (i4 x rfl z hz)

theorem parseSet_map {s : List Scalar} {last : Option Scalar} (h1 : s.all Scalar.ok = true)
    (h2 : SSorted s) (h3 : ∀ y, last = some y → ∀ x ∈ s, y < x) :
    parseSet last (s.map Scalar.bt) = .ok s := by
  induction s generalizing last with
  | nil => rfl
  | cons a t ih =>
    simp only [List.all_cons, Bool.and_eq_true] at h1
    have h2' := List.pairwise_cons.1 h2
    have hp : parseScalar a.bt = .ok a := by
      cases a <;> simp_all [Scalar.bt, parseScalar, Scalar.ok]
    simp only [List.map_cons, parseSet, hp, Out.bind_ok]
    rw [if_neg, ih h1.2 h2'.2]
    · rfl
    · rintro y ⟨⟩ x hx; exact h2'.1 x hx
    · cases last with
      | none => simp [outOfOrder]
      | some y => simpa [outOfOrder] using h3 y rfl a List.mem_cons_self

mutual
theorem parseV_ok : ∀ (b : Bt) (v : Val), parseV b = .ok v → b = v.bt ∧ v.wf = true
  | .int i, v, h => by
    simp only [parseV] at h
    split at h
    · rename_i hi; cases h; exact ⟨rfl, wf_scalar.2 hi⟩
    · cases h
  | .str s, v, h => by
    simp only [parseV] at h; cases h; exact ⟨rfl, wf_scalar.2 rfl⟩
  | .list l, v, h => by
    simp only [parseV] at h
    split at h
    · cases h
    · rename_i hne
      obtain ⟨s, hs, h⟩ := Out.bind_eq_ok.1 h
      cases h
      obtain ⟨e1, e2, e3, _⟩ := parseSet_ok hs
      refine ⟨by rw [Val.bt, e1], wf_set.2 ⟨?_, e3, e2⟩⟩
      rintro rfl; simp at e1; simp [e1] at hne
  | .dict d, v, h => by
    simp only [parseV] at h
    split at h
    · cases h
    · rename_i hne
      obtain ⟨r, hr, h⟩ := Out.bind_eq_ok.1 h
      cases h
      obtain ⟨e1, e2, _⟩ := parseD_ok d none r hr
      refine ⟨by rw [Val.bt, e1], wf_dict.2 ⟨?_, e2⟩⟩
      rintro rfl; simp [dictBt] at e1; simp [e1] at hne
theorem parseD_ok : ∀ (d : BtDict) (last : Option Bytes) (r : Dict), parseD last d = .ok r →
    d = dictBt r ∧ wfD r = true ∧ ∀ y, last = some y → ∀ p ∈ r, y < p.1
  | [], last, r, h => by
    simp only [parseD, Out.ok.injEq] at h; subst h; simp [dictBt, wfD_nil]
  | (k, v) :: t, last, r, h => by
    simp only [parseD] at h
    split at h
    · cases h
    · rename_i hlast
      obtain ⟨x, hx, h⟩ := Out.bind_eq_ok.1 h
      obtain ⟨r', hr, h⟩ := Out.bind_eq_ok.1 h
      cases h
      obtain ⟨a1, a2⟩ := parseV_ok v x hx
      obtain ⟨b1, b2, b3⟩ := parseD_ok t (some k) r' hr
      refine ⟨by rw [dictBt, a1, b1], wfD_cons.2 ⟨a2, fun b hb => b3 k rfl b hb, b2⟩, ?_⟩
      rintro y rfl p hp
      have hyk : y < k := by simpa [outOfOrder] using hlast
      rcases List.mem_cons.1 hp with rfl | hp
      · exact hyk
      · exact lt_trans hyk (b3 k rfl p hp)
end

mutual
theorem parseV_bt : ∀ (v : Val), v.wf = true → parseV v.bt = .ok v
  | .scalar (.int i), h => by
    have := wf_scalar.1 h
    simp only [Scalar.ok] at this
    simp [Val.bt, Scalar.bt, parseV, this]
  | .scalar (.str s), h => rfl
  | .set s, h => by
    obtain ⟨h0, h1, h2⟩ := wf_set.1 h
    simp only [Val.bt, parseV]
    rw [if_neg (by simpa using h0), parseSet_map h2 h1 (by simp)]; rfl
  | .dict d, h => by
    obtain ⟨h0, h1⟩ := wf_dict.1 h
    simp only [Val.bt, parseV]
    rw [if_neg, parseD_bt d none h1 (by simp)]
    · rfl
    · cases d with
      | nil => exact absurd rfl h0
      | cons a t => obtain ⟨k, v⟩ := a; simp [dictBt]
theorem parseD_bt : ∀ (d : Dict) (last : Option Bytes), wfD d = true →
    (∀ y, last = some y → ∀ p ∈ d, y < p.1) → parseD last (dictBt d) = .ok d
  | [], _, _, _ => rfl
  | (k, v) :: t, last, h, hl => by
    obtain ⟨h1, h2, h3⟩ := wfD_cons.1 h
    simp only [dictBt, parseD]
    rw [if_neg, parseV_bt v h1, Out.bind_ok, parseD_bt t (some k) h3]
    · rfl
    · rintro y ⟨⟩ p hp; exact h2 p hp
    · cases last with
      | none => simp [outOfOrder]
      | some y => simpa [outOfOrder] using hl y rfl _ List.mem_cons_self
end

theorem Scalar.bt_ok {x : Scalar} (h : x.ok = true) : x.bt.ok = true := by
  cases x with
  | int i =>
    simp only [Scalar.ok, int64Ok, Bool.and_eq_true, decide_eq_true_eq] at h
    simp only [Scalar.bt, Bt.ok, intOk, Bool.and_eq_true, decide_eq_true_eq]
    omega
  | str s => rfl

theorem okL_map {s : List Scalar} (h : s.all Scalar.ok = true) :
    Bt.okL (s.map Scalar.bt) = true := by
  induction s with
  | nil => rfl
  | cons a t ih =>
    simp only [List.all_cons, Bool.and_eq_true] at h
    simp [Bt.okL, Scalar.bt_ok h.1, ih h.2]

mutual
theorem Val.bt_ok : ∀ v : Val, v.typed = true → v.bt.ok = true
  | .scalar x, h => Scalar.bt_ok (by simpa [Val.typed] using h)
  | .set s, h => by
    simp only [Val.typed, Bool.and_eq_true] at h
    simp only [Val.bt, Bt.ok]; exact okL_map h.2
  | .dict d, h => by
    simp only [Val.bt, Bt.ok]; exact dictBt_ok d (by simpa [Val.typed] using h)
theorem dictBt_ok : ∀ d : Dict, typedD d = true → Bt.okD (dictBt d) = true
  | [], _ => rfl
  | (k, v) :: t, h => by
    obtain ⟨h1, _, h3⟩ := typedD_cons.1 h
    simp [dictBt, Bt.okD, Val.bt_ok v h1, dictBt_ok t h3]
end

theorem wfD_typed {d : Dict} (h : wfD d = true) : typedD d = true := by
  simp only [wfD, Bool.and_eq_true] at h; exact h.1

/-! ### `load_diff` is a validator: it returns what it was given -/

mutual
theorem loadV_ok : ∀ (b b' : Bt), loadV b = .ok b' → b' = b
  | .int i, b', h => by simp [loadV] at h
  | .str s, b', h => by
    simp only [loadV] at h; split at h
    · cases h; rfl
    · cases h
  | .list l, b', h => by
    simp only [loadV] at h; split at h
    · cases h
    · obtain ⟨_, _, h⟩ := Out.bind_eq_ok.1 h; cases h; rfl
  | .dict d, b', h => by
    simp only [loadV] at h
    obtain ⟨r, hr, h⟩ := Out.bind_eq_ok.1 h
    cases h; rw [(loadD_ok d none r hr).1]
theorem loadD_ok : ∀ (d : BtDict) (last : Option Bytes) (r : BtDict), loadD last d = .ok r →
    r = d ∧ KSorted d ∧ ∀ y, last = some y → ∀ p ∈ d, y < p.1
  | [], last, r, h => by
    simp only [loadD, Out.ok.injEq] at h; subst h; simp
  | (k, v) :: t, last, r, h => by
    simp only [loadD] at h
    split at h
    · cases h
    · rename_i hlast
      obtain ⟨x, hx, h⟩ := Out.bind_eq_ok.1 h
      obtain ⟨r', hr, h⟩ := Out.bind_eq_ok.1 h
      cases h
      have a1 := loadV_ok v x hx
      obtain ⟨b1, b2, b3⟩ := loadD_ok t (some k) r' hr
      subst a1 b1
      refine ⟨rfl, kSorted_cons.2 ⟨fun b hb => b3 k rfl b hb, b2⟩, ?_⟩
      rintro y rfl p hp
      have hyk : y < k := by simpa [outOfOrder] using hlast
      rcases List.mem_cons.1 hp with rfl | hp
      · exact hyk
      · exact lt_trans hyk (b3 k rfl p hp)
end

theorem loadD_intro {d : BtDict} {last : Option Bytes} (hs : KSorted d)
    (hl : ∀ y, last = some y → ∀ p ∈ d, y < p.1)
    (hv : ∀ p ∈ d, loadV p.2 = .ok p.2) : loadD last d = .ok d := by
  induction d generalizing last with
  | nil => rfl
  | cons a t ih =>
    obtain ⟨k, v⟩ := a
    simp only [loadD]
    have := hv (k, v) List.mem_cons_self
    rw [if_neg, this, Out.bind_ok, ih hs.tail (by rintro y ⟨⟩ p hp; exact hs.head p hp)
      fun p hp => hv p (List.mem_cons_of_mem _ hp)]
    · rfl
    · cases last with
      | none => simp [outOfOrder]
      | some y => simpa [outOfOrder] using hl y rfl _ List.mem_cons_self

theorem checkAdj_map {s : List Scalar} (h1 : s.all Scalar.ok = true) (h2 : SSorted s) :
    checkAdj (s.map Scalar.bt) = .ok () := by
  induction s with
  | nil => rfl
  | cons a t ih =>
    cases t with
    | nil => rfl
    | cons b t =>
      simp only [List.all_cons, Bool.and_eq_true] at h1
      have h2' := List.pairwise_cons.1 h2
      have hab := h2'.1 b List.mem_cons_self
      have := ih (by simp [h1]) h2'.2
      simp only [List.map_cons] at this ⊢
      simp [checkAdj, checkOrder, btScalar_bt h1.1, btScalar_bt h1.2.1, hab, this]

theorem loadV_setDiff {p : List Scalar × List Scalar} (h1 : p.1.all Scalar.ok = true)
    (h2 : SSorted p.1) (h3 : p.2.all Scalar.ok = true) (h4 : SSorted p.2) :
    loadV (setDiffBt p) = .ok (setDiffBt p) := by
  simp [setDiffBt, loadV, checkSubs, checkSub, checkAdj_map h1 h2, checkAdj_map h3 h4]

mutual
theorem loadV_addV : ∀ v : Val, v.typed = true → loadV (addV v) = .ok (addV v)
  | .scalar x, _ => by simp [addV, loadV]
  | .set s, h => by
    simp only [Val.typed, Bool.and_eq_true, decide_eq_true_eq] at h
    exact loadV_setDiff h.2 h.1 rfl (by simp)
  | .dict d, h => by
    simp only [addV, loadV]
    rw [loadD_intro (addD_sorted (typedD_sorted (by simpa [Val.typed] using h))) (by simp)
      (loadD_addD d (by simpa [Val.typed] using h))]; rfl
theorem loadD_addD : ∀ d : Dict, typedD d = true → ∀ p ∈ addD d, loadV p.2 = .ok p.2
  | [], _, p, hp => by simp [addD] at hp
  | (k, v) :: t, h, p, hp => by
    obtain ⟨h1, _, h3⟩ := typedD_cons.1 h
    have a := loadV_addV v h1
    have b := loadD_addD t h3
    simp only [addD, List.mem_cons] at hp
    rcases hp with rfl | hp
    · exact a
    · exact b p hp
end

mutual
theorem loadV_delV : ∀ v : Val, v.typed = true → loadV (delV v) = .ok (delV v)
  | .scalar x, _ => by simp [delV, loadV]
  | .set s, h => by
    simp only [Val.typed, Bool.and_eq_true, decide_eq_true_eq] at h
    exact loadV_setDiff rfl (by simp) h.2 h.1
  | .dict d, h => by
    simp only [delV, loadV]
    rw [loadD_intro (delD_sorted (typedD_sorted (by simpa [Val.typed] using h))) (by simp)
      (loadD_delD d (by simpa [Val.typed] using h))]; rfl
theorem loadD_delD : ∀ d : Dict, typedD d = true → ∀ p ∈ delD d, loadV p.2 = .ok p.2
  | [], _, p, hp => by simp [delD] at hp
  | (k, v) :: t, h, p, hp => by
    obtain ⟨h1, _, h3⟩ := typedD_cons.1 h
    have a := loadV_delV v h1
    have b := loadD_delD t h3
    simp only [delD, List.mem_cons] at hp
    rcases hp with rfl | hp
    · exact a
    · exact b p hp
end

theorem loadV_diffSetOpt {a b : List Scalar} (ha : SSorted a) (ha' : a.all Scalar.ok = true)
    (hb : SSorted b) (hb' : b.all Scalar.ok = true) {v : Bt} (h : diffSetOpt a b = some v) :
    loadV v = .ok v := by
  simp only [diffSetOpt] at h
  split at h
  · cases h
  · cases h
    have hsub := diffSet_sublist a b
    exact loadV_setDiff
      (List.all_eq_true.2 fun x hx => List.all_eq_true.1 hb' x (hsub.1.subset hx))
      (List.Pairwise.sublist hsub.1 hb)
      (List.all_eq_true.2 fun x hx => List.all_eq_true.1 ha' x (hsub.2.subset hx))
      (List.Pairwise.sublist hsub.2 ha)

mutual
theorem loadV_diffV : ∀ (o n : Val) (v : Bt), o.typed = true → n.typed = true →
    diffV o n = some v → loadV v = .ok v
  | .scalar a, n, v, _, hn, h => by
    cases n with
    | scalar b =>
      simp only [diffV] at h; split at h
      · cases h; simp [loadV]
      · cases h
    | set b => simp only [diffV] at h; cases h; exact loadV_addV _ hn
    | dict b => simp only [diffV] at h; cases h; exact loadV_addV _ hn
  | .set a, n, v, ho, hn, h => by
    cases n with
    | scalar b => simp only [diffV] at h; cases h; exact loadV_addV _ hn
    | dict b => simp only [diffV] at h; cases h; exact loadV_addV _ hn
    | set b =>
      simp only [diffV] at h
      simp only [Val.typed, Bool.and_eq_true, decide_eq_true_eq] at ho hn
      exact loadV_diffSetOpt ho.1 ho.2 hn.1 hn.2 h
  | .dict a, n, v, ho, hn, h => by
    cases n with
    | scalar b => simp only [diffV] at h; cases h; exact loadV_addV _ hn
    | set b => simp only [diffV] at h; cases h; exact loadV_addV _ hn
    | dict b =>
      simp only [Val.typed] at ho hn
      simp only [diffV] at h
      split at h
      · cases h
      · cases h
        simp only [loadV]
        rw [loadD_intro (diffD_sorted (typedD_sorted ho) (typedD_sorted hn)) (by simp)
          (fun p hp => loadD_diffD a b ho hn p hp)]; rfl
theorem loadD_diffD : ∀ (old new : Dict), typedD old = true → typedD new = true →
    ∀ p ∈ diffD old new, loadV p.2 = .ok p.2
  | [], new, _, hn, p, hp => loadD_addD new hn p (by simpa [diffD] using hp)
  | (k, o) :: old, new, ho, hn, p, hp => by
    obtain ⟨h1, _, h3⟩ := typedD_cons.1 ho
    have hsub : ∀ n', List.Sublist n' new → typedD n' = true := fun n' hs =>
      typedD_iff.2 ⟨List.Pairwise.sublist hs (typedD_iff.1 hn).1,
        fun b hb => (typedD_iff.1 hn).2 b (hs.subset hb)⟩
    have ih := fun n' (hs : List.Sublist n' new) => loadD_diffD old n' h3 (hsub n' hs)
    have ihv := fun n v => loadV_diffV o n v h1
    have hdel := loadV_delV o h1
    simp only [diffD, List.mem_append] at hp
    rcases hp with hp | hp
    · exact loadD_addD _ (hsub _ (List.takeWhile_sublist _)) p hp
    · split at hp
      · rcases List.mem_cons.1 hp with rfl | hp
        · exact hdel
        · exact ih [] (List.nil_sublist _) p hp
      · rename_i k' n rest e
        have hs : List.Sublist ((k', n) :: rest) new := e ▸ List.dropWhile_sublist _
        have hs' : List.Sublist rest new := (List.sublist_cons_self _ _).trans hs
        have hnt : n.typed = true := (typedD_iff.1 hn).2 _ (hs.subset List.mem_cons_self)
        split at hp
        · rcases List.mem_cons.1 hp with rfl | hp
          · exact hdel
          · exact ih _ hs p hp
        · split at hp
          · exact ih _ hs' p hp
          · rename_i b hb
            rcases List.mem_cons.1 hp with rfl | hp
            · exact ihv n b hnt hb
            · exact ih _ hs' p hp
end

/-- A diff computed by the library is accepted by its own validator. -/
theorem loadD_diff {old new : Dict} (ho : typedD old = true) (hn : typedD new = true) :
    loadD none (diffD old new) = .ok (diffD old new) :=
  loadD_intro (diffD_sorted (typedD_sorted ho) (typedD_sorted hn)) (by simp)
    (fun p hp => loadD_diffD old new ho hn p hp)

/-! ### No empty optional is dereferenced when both dicts are pruned -/

theorem any_addUb_false {d : Dict} (h : prunedD d = true) :
    d.any (fun p => addUb p.2) = false := by
  rw [List.any_eq_false]
  intro p hp
  have := prunedD_iff.1 h p hp
  simp [addUb, this]

theorem pruned_sublist {d d' : Dict} (h : prunedD d = true) (hs : List.Sublist d' d) :
    prunedD d' = true := prunedD_iff.2 fun b hb => prunedD_iff.1 h b (hs.subset hb)

mutual
theorem diffUbV_false : ∀ (o n : Val), o.full = true → n.full = true → diffUbV o n = false
  | .scalar a, n, _, hn => by cases n <;> simp [diffUbV, addUb, hn]
  | .set a, n, _, hn => by cases n <;> simp [diffUbV, addUb, hn]
  | .dict a, n, ho, hn => by
    cases n with
    | dict b =>
      simp only [Val.full, Bool.and_eq_true] at ho hn
      simp only [diffUbV]; exact diffUb_false a b ho.2 hn.2
    | _ => simp [diffUbV, addUb, hn]
theorem diffUb_false : ∀ (old new : Dict), prunedD old = true → prunedD new = true →
    diffUb old new = false
  | [], new, _, hn => by simp only [diffUb]; exact any_addUb_false hn
  | (k, o) :: old, new, ho, hn => by
    simp only [prunedD, Bool.and_eq_true] at ho
    have ih := fun n' (hs : List.Sublist n' new) => diffUb_false old n' ho.2 (pruned_sublist hn hs)
    have ihv := fun n => diffUbV_false o n ho.1
    have ho' : addUb o = false := by simp [addUb, ho.1]
    simp only [diffUb, any_addUb_false (pruned_sublist hn (List.takeWhile_sublist _)),
      Bool.false_or]
    split
    · simp [ho', ih [] (List.nil_sublist _)]
    · rename_i k' n rest e
      have hs : List.Sublist ((k', n) :: rest) new := e ▸ List.dropWhile_sublist _
      have hs' : List.Sublist rest new := (List.sublist_cons_self _ _).trans hs
      have hnt : n.full = true := prunedD_iff.1 hn _ (hs.subset List.mem_cons_self)
      split
      · simp [ho', ih _ hs]
      · simp [ihv n hnt, ih _ hs']
end

end Verif
