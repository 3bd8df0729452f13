import Verif.Basic

/-!
# Ordered maps and sets

`std::map` / `std::set` are modelled by their in-order traversal: a list sorted strictly by key.
The functions below are the `std::map`/`std::set` operations the modelled code uses; "sorted" is a
separate predicate that the operations are proved to preserve.
-/

namespace Verif

section OMap
variable {K : Type*} [LinearOrder K] {V : Type*}

/-- Invariant of `std::map`: keys strictly ascending. -/
def KSorted (m : List (K × V)) : Prop := m.Pairwise fun a b => a.1 < b.1

instance (m : List (K × V)) : Decidable (KSorted m) := by unfold KSorted; infer_instance

/-- `map.find(k)`: value stored at a key. -/
def mget (k : K) : List (K × V) → Option V
  | [] => none
  | (k', v) :: t => if k = k' then some v else mget k t

/-- `map[k] = v` (`insert_or_assign`). -/
def mput (k : K) (v : V) : List (K × V) → List (K × V)
  | [] => [(k, v)]
  | (k', v') :: t =>
    if k < k' then (k, v) :: (k', v') :: t
    else if k = k' then (k, v) :: t
    else (k', v') :: mput k v t

/-- `map.emplace(k, v)`: insert only if the key is absent. -/
def memplace (k : K) (v : V) : List (K × V) → List (K × V)
  | [] => [(k, v)]
  | (k', v') :: t =>
    if k < k' then (k, v) :: (k', v') :: t
    else if k = k' then (k', v') :: t
    else (k', v') :: memplace k v t

/-- `map.erase(k)`. -/
def mdel (k : K) : List (K × V) → List (K × V)
  | [] => []
  | (k', v') :: t => if k = k' then t else (k', v') :: mdel k t

theorem KSorted.tail {a : K × V} {m : List (K × V)} (h : KSorted (a :: m)) : KSorted m :=
  (List.pairwise_cons.1 h).2

theorem KSorted.head {a : K × V} {m : List (K × V)} (h : KSorted (a :: m)) :
    ∀ b ∈ m, a.1 < b.1 := (List.pairwise_cons.1 h).1

@[simp] theorem KSorted.nil : KSorted ([] : List (K × V)) := List.Pairwise.nil

theorem kSorted_cons {a : K × V} {m : List (K × V)} :
    KSorted (a :: m) ↔ (∀ b ∈ m, a.1 < b.1) ∧ KSorted m := List.pairwise_cons

theorem mget_of_mem {m : List (K × V)} (h : KSorted m) {k : K} {v : V} (hm : (k, v) ∈ m) :
    mget k m = some v := by
  induction m with
  | nil => simp at hm
  | cons a t ih =>
    obtain ⟨k', v'⟩ := a
    rcases List.mem_cons.1 hm with h1 | h1
    · cases h1; simp [mget]
    · have := h.head _ h1
      simp only [mget]
      rw [if_neg (by rintro rfl; exact absurd this (lt_irrefl _))]
      exact ih h.tail h1

theorem mem_of_mget {m : List (K × V)} {k : K} {v : V} (h : mget k m = some v) : (k, v) ∈ m := by
  induction m with
  | nil => simp [mget] at h
  | cons a t ih =>
    obtain ⟨k', v'⟩ := a
    simp only [mget] at h
    split at h
    · simp_all
    · exact List.mem_cons_of_mem _ (ih h)

theorem mget_iff_mem {m : List (K × V)} (h : KSorted m) {k : K} {v : V} :
    mget k m = some v ↔ (k, v) ∈ m := ⟨mem_of_mget, mget_of_mem h⟩

theorem mget_none_of_lt {m : List (K × V)} {k : K} (h : ∀ b ∈ m, k < b.1) : mget k m = none := by
  induction m with
  | nil => rfl
  | cons a t ih =>
    obtain ⟨k', v'⟩ := a
    have := h _ List.mem_cons_self
    simp only [mget]
    rw [if_neg (ne_of_lt this)]
    exact ih fun b hb => h b (List.mem_cons_of_mem _ hb)

theorem mget_eq_none_iff {m : List (K × V)} {k : K} : mget k m = none ↔ ∀ b ∈ m, b.1 ≠ k := by
  induction m with
  | nil => simp [mget]
  | cons a t ih =>
    obtain ⟨k', v'⟩ := a
    simp only [mget]
    split
    · subst_vars; simp
    · rename_i hne
      rw [ih]
      constructor
      · intro h b hb
        rcases List.mem_cons.1 hb with rfl | hb
        · exact fun he => hne he.symm
        · exact h b hb
      · intro h b hb; exact h b (List.mem_cons_of_mem _ hb)

/-- Two sorted association lists with the same lookups are equal. -/
theorem map_ext {m m' : List (K × V)} (h : KSorted m) (h' : KSorted m')
    (e : ∀ k, mget k m = mget k m') : m = m' := by
  induction m generalizing m' with
  | nil =>
    cases m' with
    | nil => rfl
    | cons a t => obtain ⟨k, v⟩ := a; have := e k; simp [mget] at this
  | cons a t ih =>
    obtain ⟨k, v⟩ := a
    cases m' with
    | nil => have := e k; simp [mget] at this
    | cons a' t' =>
      obtain ⟨k', v'⟩ := a'
      have hk : k = k' := by
        rcases lt_trichotomy k k' with hlt | heq | hlt
        · have h1 := e k
          rw [mget_none_of_lt (m := (k', v') :: t')] at h1
          · simp [mget] at h1
          · intro b hb
            rcases List.mem_cons.1 hb with rfl | hb
            · exact hlt
            · exact lt_trans hlt (h'.head _ hb)
        · exact heq
        · have h1 := e k'
          rw [mget_none_of_lt (m := (k, v) :: t)] at h1
          · simp [mget] at h1
          · intro b hb
            rcases List.mem_cons.1 hb with rfl | hb
            · exact hlt
            · exact lt_trans hlt (h.head _ hb)
      subst hk
      have hv : v = v' := by have := e k; simpa [mget] using this
      subst hv
      congr 1
      apply ih h.tail h'.tail
      intro x
      by_cases hx : x = k
      · subst hx
        rw [mget_none_of_lt h.head, mget_none_of_lt h'.head]
      · have := e x; simpa [mget, hx] using this

theorem mem_mput {m : List (K × V)} {k : K} {v : V} {b : K × V} (hb : b ∈ mput k v m) :
    b = (k, v) ∨ b ∈ m := by
  induction m with
  | nil => simpa [mput] using hb
  | cons a t ih =>
    obtain ⟨k', v'⟩ := a
    simp only [mput] at hb
    split at hb
    · simpa using hb
    · split at hb
      · rcases List.mem_cons.1 hb with h | h
        · exact .inl h
        · exact .inr (List.mem_cons_of_mem _ h)
      · rcases List.mem_cons.1 hb with h | h
        · exact .inr (h ▸ List.mem_cons_self)
        · rcases ih h with h | h
          · exact .inl h
          · exact .inr (List.mem_cons_of_mem _ h)

theorem KSorted.mput {m : List (K × V)} (h : KSorted m) (k : K) (v : V) :
    KSorted (mput k v m) := by
  induction m with
  | nil => simp [Verif.mput, kSorted_cons]
  | cons a t ih =>
    obtain ⟨k', v'⟩ := a
    simp only [Verif.mput]
    split
    · rename_i hlt
      refine kSorted_cons.2 ⟨?_, h⟩
      intro b hb
      rcases List.mem_cons.1 hb with rfl | hb
      · exact hlt
      · exact lt_trans hlt (h.head _ hb)
    · split
      · rename_i he; subst he
        exact kSorted_cons.2 ⟨h.head, h.tail⟩
      · rename_i h1 h2
        refine kSorted_cons.2 ⟨?_, ih h.tail⟩
        intro b hb
        rcases mem_mput hb with rfl | hb
        · exact lt_of_le_of_ne (not_lt.1 h1) (Ne.symm h2)
        · exact h.head _ hb

theorem mget_mput {m : List (K × V)} (h : KSorted m) (k : K) (v : V) (x : K)
    [Decidable (x = k)] :
    mget x (mput k v m) = if x = k then some v else mget x m := by
  induction m with
  | nil => simp [mput, mget]
  | cons a t ih =>
    obtain ⟨k', v'⟩ := a
    simp only [mput]
    split
    · simp [mget]
    · split
      · rename_i he; subst he
        simp only [mget]; split <;> rfl
      · rename_i h1 h2
        simp only [mget, ih h.tail]
        by_cases hx : x = k'
        · subst hx; simp [Ne.symm h2]
        · simp [hx]

theorem mem_mdel {m : List (K × V)} {k : K} {b : K × V} (hb : b ∈ mdel k m) : b ∈ m := by
  induction m with
  | nil => simp [mdel] at hb
  | cons a t ih =>
    obtain ⟨k', v'⟩ := a
    simp only [mdel] at hb
    split at hb
    · exact List.mem_cons_of_mem _ hb
    · rcases List.mem_cons.1 hb with rfl | hb
      · exact List.mem_cons_self
      · exact List.mem_cons_of_mem _ (ih hb)

theorem mdel_sublist (k : K) (m : List (K × V)) : List.Sublist (mdel k m) m := by
  induction m with
  | nil => simp [mdel]
  | cons a t ih =>
    obtain ⟨k', v'⟩ := a
    simp only [mdel]; split
    · exact List.sublist_cons_self _ _
    · exact ih.cons_cons _

theorem KSorted.mdel {m : List (K × V)} (h : KSorted m) (k : K) : KSorted (mdel k m) :=
  List.Pairwise.sublist (mdel_sublist k m) h

theorem mget_mdel {m : List (K × V)} (h : KSorted m) (k x : K) [Decidable (x = k)] :
    mget x (mdel k m) = if x = k then none else mget x m := by
  induction m with
  | nil => simp [mdel, mget]
  | cons a t ih =>
    obtain ⟨k', v'⟩ := a
    simp only [mdel]
    split
    · rename_i he; subst he
      by_cases hx : x = k
      · subst hx; simp [mget_none_of_lt h.head]
      · simp [mget, hx]
    · rename_i h1
      simp only [mget, ih h.tail]
      by_cases hx : x = k'
      · subst hx; simp [Ne.symm h1]
      · simp [hx]

theorem memplace_eq {m : List (K × V)} (h : KSorted m) (k : K) (v : V) :
    memplace k v m = if (mget k m).isSome then m else mput k v m := by
  induction m with
  | nil => simp [memplace, mget, mput]
  | cons a t ih =>
    obtain ⟨k', v'⟩ := a
    simp only [memplace, mput, mget]
    by_cases h1 : k < k'
    · have : mget k t = none := mget_none_of_lt fun b hb => lt_trans h1 (h.head b hb)
      simp [h1, ne_of_lt h1, this]
    · by_cases h2 : k = k'
      · simp [h2]
      · simp only [h1, h2, if_false, ih h.tail]; split <;> rfl

theorem KSorted.memplace {m : List (K × V)} (h : KSorted m) (k : K) (v : V) :
    KSorted (memplace k v m) := by
  rw [memplace_eq h]; split
  · exact h
  · exact h.mput k v

theorem mget_memplace {m : List (K × V)} (h : KSorted m) (k : K) (v : V) (x : K)
    [Decidable (x = k)] :
    mget x (memplace k v m) =
      if x = k then some ((mget k m).getD v) else mget x m := by
  rw [memplace_eq h]; split
  · rename_i hs
    obtain ⟨w, hw⟩ := Option.isSome_iff_exists.1 hs
    by_cases hx : x = k
    · subst hx; simp [hw]
    · simp [hx]
  · rename_i hs
    have : mget k m = none := by simpa using hs
    rw [mget_mput h]; simp [this]

theorem mput_ne_nil (k : K) (v : V) (m : List (K × V)) : mput k v m ≠ [] := by
  cases m with
  | nil => simp [mput]
  | cons a t => obtain ⟨k', v'⟩ := a; simp only [mput]; split <;> (try split) <;> simp

/-- Overwriting a key with the value it already has changes nothing. -/
theorem mput_self {m : List (K × V)} (h : KSorted m) {k : K} {v : V} (e : mget k m = some v) :
    mput k v m = m := by
  refine map_ext (h.mput k v) h fun x => ?_
  rw [mget_mput h]; split
  · subst_vars; exact e.symm
  · rfl

/-- Erasing an absent key changes nothing. -/
theorem mdel_none {m : List (K × V)} (h : KSorted m) {k : K} (e : mget k m = none) :
    mdel k m = m := by
  refine map_ext (h.mdel k) h fun x => ?_
  rw [mget_mdel h]; split
  · subst_vars; exact e.symm
  · rfl

theorem KSorted.nodup_keys {m : List (K × V)} (h : KSorted m) : (m.map (·.1)).Nodup := by
  rw [List.Nodup, List.pairwise_map]
  exact h.imp fun h => ne_of_lt h

theorem KSorted.filter {m : List (K × V)} (h : KSorted m) (p : K × V → Bool) :
    KSorted (m.filter p) := List.Pairwise.filter _ h

end OMap

section OSet
variable {K : Type*} [LinearOrder K]

/-- Invariant of `std::set`: strictly ascending. -/
def SSorted (s : List K) : Prop := s.Pairwise (· < ·)

instance (s : List K) : Decidable (SSorted s) := by unfold SSorted; infer_instance

@[simp] theorem SSorted.nil : SSorted ([] : List K) := List.Pairwise.nil

/-- `set.insert(x)`. -/
def sput (x : K) : List K → List K
  | [] => [x]
  | y :: t => if x < y then x :: y :: t else if x = y then y :: t else y :: sput x t

/-- `set.erase(x)`. -/
def sdel (x : K) : List K → List K
  | [] => []
  | y :: t => if x = y then t else y :: sdel x t

@[simp] theorem mem_sput {s : List K} {x y : K} : y ∈ sput x s ↔ y = x ∨ y ∈ s := by
  induction s with
  | nil => simp [sput]
  | cons a t ih =>
    simp only [sput]
    split
    · simp
    · split
      · subst_vars; simp
      · simp [ih]; tauto

theorem SSorted.sput {s : List K} (h : SSorted s) (x : K) : SSorted (sput x s) := by
  induction s with
  | nil => simp [Verif.sput, SSorted]
  | cons a t ih =>
    have hh := List.pairwise_cons.1 h
    simp only [Verif.sput]
    split
    · rename_i hlt
      refine List.pairwise_cons.2 ⟨?_, h⟩
      intro b hb
      rcases List.mem_cons.1 hb with rfl | hb
      · exact hlt
      · exact lt_trans hlt (hh.1 _ hb)
    · split
      · exact h
      · rename_i h1 h2
        refine List.pairwise_cons.2 ⟨?_, ih hh.2⟩
        intro b hb
        rcases mem_sput.1 hb with rfl | hb
        · exact lt_of_le_of_ne (not_lt.1 h1) (Ne.symm h2)
        · exact hh.1 _ hb

theorem mem_sdel {s : List K} (h : SSorted s) {x y : K} : y ∈ sdel x s ↔ y ≠ x ∧ y ∈ s := by
  induction s with
  | nil => simp [sdel]
  | cons a t ih =>
    have hh := List.pairwise_cons.1 h
    simp only [sdel]
    split
    · subst_vars
      constructor
      · intro hy; exact ⟨ne_of_gt (hh.1 _ hy), List.mem_cons_of_mem _ hy⟩
      · rintro ⟨h1, h2⟩
        rcases List.mem_cons.1 h2 with rfl | h2
        · exact absurd rfl h1
        · exact h2
    · rename_i hne
      simp only [List.mem_cons, ih hh.2]
      constructor
      · rintro (rfl | ⟨h1, h2⟩)
        · exact ⟨Ne.symm hne, .inl rfl⟩
        · exact ⟨h1, .inr h2⟩
      · rintro ⟨h1, rfl | h2⟩
        · exact .inl rfl
        · exact .inr ⟨h1, h2⟩

theorem sdel_sublist (x : K) (s : List K) : List.Sublist (sdel x s) s := by
  induction s with
  | nil => simp [sdel]
  | cons a t ih =>
    simp only [sdel]; split
    · exact List.sublist_cons_self _ _
    · exact ih.cons_cons _

theorem SSorted.sdel {s : List K} (h : SSorted s) (x : K) : SSorted (sdel x s) :=
  List.Pairwise.sublist (sdel_sublist x s) h

/-- Two sorted sets with the same members are equal. -/
theorem set_ext {s s' : List K} (h : SSorted s) (h' : SSorted s') (e : ∀ x, x ∈ s ↔ x ∈ s') :
    s = s' := by
  induction s generalizing s' with
  | nil =>
    cases s' with
    | nil => rfl
    | cons a t => have := (e a).2 List.mem_cons_self; simp at this
  | cons a t ih =>
    cases s' with
    | nil => have := (e a).1 List.mem_cons_self; simp at this
    | cons b t' =>
      have h1 := List.pairwise_cons.1 h
      have h2 := List.pairwise_cons.1 h'
      have hab : a = b := by
        rcases List.mem_cons.1 ((e a).1 List.mem_cons_self) with rfl | ha
        · rfl
        · rcases List.mem_cons.1 ((e b).2 List.mem_cons_self) with rfl | hb
          · rfl
          · exact absurd (lt_trans (h1.1 _ hb) (h2.1 _ ha)) (lt_irrefl _)
      subst hab
      congr 1
      apply ih h1.2 h2.2
      intro x
      constructor
      · intro hx
        rcases List.mem_cons.1 ((e x).1 (List.mem_cons_of_mem _ hx)) with rfl | h
        · exact absurd (h1.1 _ hx) (lt_irrefl _)
        · exact h
      · intro hx
        rcases List.mem_cons.1 ((e x).2 (List.mem_cons_of_mem _ hx)) with rfl | h
        · exact absurd (h2.1 _ hx) (lt_irrefl _)
        · exact h

end OSet

end Verif
