import Verif.BtMerge

/-!
# Merging bencoded values: what the result contains
-/

namespace Verif

theorem btMerge_nil_right (a : BtDict) : btMerge a [] = a := by cases a <;> rw [btMerge]; simp

theorem btMerge_head {k : Bytes} : ∀ (a b : BtDict), (∀ x ∈ a, k < x.1) → (∀ x ∈ b, k < x.1) → ∀ x ∈ btMerge a b, k < x.1
  | [], b, _, hb => by rw [btMerge]; exact hb
  | x :: a, [], ha, _ => by rw [btMerge_nil_right]; exact ha
  | (ka, va) :: ta, (kb, vb) :: tb, ha, hb => by
    rw [btMerge]
    split
    · intro x hx
      rcases List.mem_cons.1 hx with rfl | hx
      · exact ha _ (by simp)
      · exact btMerge_head ta _ (fun x hx => ha x (by simp [hx])) hb x hx
    split
    · intro x hx
      rcases List.mem_cons.1 hx with rfl | hx
      · exact ha _ (by simp)
      · exact btMerge_head ta tb (fun x hx => ha x (by simp [hx])) (fun x hx => hb x (by simp [hx])) x hx
    · intro x hx
      rcases List.mem_cons.1 hx with rfl | hx
      · exact hb _ (by simp)
      · exact btMerge_head _ tb ha (fun x hx => hb x (by simp [hx])) x hx
termination_by a b => a.length + b.length

theorem mget_cons {k : Bytes} {v : Bt} {m : BtDict} (x : Bytes) (h : KSorted ((k, v) :: m)) :
    mget x ((k, v) :: m) = if x = k then some v else mget x m := by
  by_cases hx : x = k
  · subst hx
    rw [if_pos rfl, mget_iff_mem h]
    simp
  · rw [if_neg hx]
    cases hm : mget x m with
    | none =>
      rw [mget_eq_none_iff] at hm ⊢
      intro b hb
      rcases List.mem_cons.1 hb with rfl | hb
      · exact fun e => hx e.symm
      · exact hm b hb
    | some w =>
      rw [mget_iff_mem h.tail] at hm
      rw [mget_iff_mem h]
      simp [hm]

/-- **C105, dicts.** The merged dict has the keys of both, in order; where both have a value it is the
first one's. -/
theorem btMerge_spec : ∀ (a b : BtDict), KSorted a → KSorted b → KSorted (btMerge a b) ∧
    ∀ k, mget k (btMerge a b) = (mget k a).or (mget k b)
  | [], b, _, hb => by rw [btMerge]; exact ⟨hb, fun k => by simp [mget]⟩
  | x :: a, [], ha, _ => by rw [btMerge_nil_right]; exact ⟨ha, fun k => by simp [mget]⟩
  | (ka, va) :: ta, (kb, vb) :: tb, ha, hb => by
    rw [btMerge]
    split
    · rename_i hlt
      obtain ⟨h1, h2⟩ := btMerge_spec ta ((kb, vb) :: tb) ha.tail hb
      have hs : KSorted ((ka, va) :: btMerge ta ((kb, vb) :: tb)) := by
        rw [kSorted_cons]
        refine ⟨btMerge_head ta _ ha.head fun x hx => ?_, h1⟩
        rcases List.mem_cons.1 hx with rfl | hx
        · exact hlt
        · exact lt_trans hlt (hb.head x hx)
      refine ⟨hs, fun k => ?_⟩
      rw [mget_cons k hs, mget_cons k ha, h2]
      split <;> simp
    split
    · rename_i hnl he
      subst he
      obtain ⟨h1, h2⟩ := btMerge_spec ta tb ha.tail hb.tail
      have hs : KSorted ((ka, va) :: btMerge ta tb) := by
        rw [kSorted_cons]
        exact ⟨btMerge_head ta tb ha.head hb.head, h1⟩
      refine ⟨hs, fun k => ?_⟩
      rw [mget_cons k hs, mget_cons k ha, mget_cons k hb, h2]
      split <;> simp
    · rename_i hnl he
      have hlt : kb < ka := lt_of_le_of_ne (not_lt.1 hnl) (fun e => he e.symm)
      obtain ⟨h1, h2⟩ := btMerge_spec ((ka, va) :: ta) tb ha hb.tail
      have hs : KSorted ((kb, vb) :: btMerge ((ka, va) :: ta) tb) := by
        rw [kSorted_cons]
        refine ⟨btMerge_head _ tb (fun x hx => ?_) hb.head, h1⟩
        rcases List.mem_cons.1 hx with rfl | hx
        · exact hlt
        · exact lt_trans hlt (ha.head x hx)
      refine ⟨hs, fun k => ?_⟩
      rw [mget_cons k hs, mget_cons k hb, h2]
      by_cases hk : k = kb
      · subst hk
        have : mget k ((ka, va) :: ta) = none := mget_none_of_lt fun x hx => by
          rcases List.mem_cons.1 hx with rfl | hx
          · exact hlt
          · exact lt_trans hlt (ha.head x hx)
        rw [if_pos rfl, if_pos rfl, this]
        rfl
      · rw [if_neg hk, if_neg hk]
termination_by a b => a.length + b.length

/-! ### Lists -/

/-- What the comparison must be: a strict weak order -/
structure WeakOrder (cmp : Bt → Bt → Bool) : Prop where
  irrefl : ∀ x, cmp x x = false
  trans : ∀ x y z, cmp x y = true → cmp y z = true → cmp x z = true
  /-- being incomparable is transitive (in the form: what is not less goes through) -/
  negTrans : ∀ x y z, cmp x y = false → cmp y z = false → cmp x z = false

/-- Sorted: no element is less than an earlier one -/
def SortedBy (cmp : Bt → Bt → Bool) (l : List Bt) : Prop := l.Pairwise fun x y => cmp y x = false

/-- Equal as far as the comparison can tell -/
def cmpEq (cmp : Bt → Bt → Bool) (x y : Bt) : Bool := !cmp x y && !cmp y x

variable {cmp : Bt → Bt → Bool}

theorem WeakOrder.asymm (h : WeakOrder cmp) {x y : Bt} (hxy : cmp x y = true) : cmp y x = false := by
  cases hc : cmp y x with
  | false => rfl
  | true => exact absurd (h.trans _ _ _ hxy hc) (by simp [h.irrefl])

theorem mergeDup_nil_right (a : List Bt) : mergeDup cmp a [] = a := by cases a <;> rw [mergeDup]; simp

theorem mergeUniq_nil_right (a : List Bt) : mergeUniq cmp a [] = a := by cases a <;> rw [mergeUniq]; simp

/-- With duplicates, the result has exactly the elements of both lists. -/
theorem mergeDup_perm : ∀ (a b : List Bt), (mergeDup cmp a b).Perm (a ++ b)
  | [], b => by rw [mergeDup]; exact .refl _
  | x :: a, [] => by rw [mergeDup_nil_right, List.append_nil]
  | x :: a, y :: b => by
    rw [mergeDup]
    split
    · exact ((mergeDup_perm (x :: a) b).cons y).trans (List.perm_middle.symm)
    · exact (mergeDup_perm a (y :: b)).cons x
termination_by a b => a.length + b.length

theorem mergeUniq_mem : ∀ (a b : List Bt), ∀ z ∈ mergeUniq cmp a b, z ∈ a ∨ z ∈ b
  | [], b => by rw [mergeUniq]; exact fun z hz => .inr hz
  | x :: a, [] => by rw [mergeUniq_nil_right]; exact fun z hz => .inl hz
  | x :: a, y :: b => by
    rw [mergeUniq]
    split
    · intro z hz
      rcases List.mem_cons.1 hz with rfl | hz
      · simp
      · rcases mergeUniq_mem (x :: a) b z hz with h | h <;> simp_all
    split
    · intro z hz
      rcases List.mem_cons.1 hz with rfl | hz
      · simp
      · rcases mergeUniq_mem a (y :: b) z hz with h | h <;> simp_all
    · intro z hz
      rcases mergeUniq_mem (x :: a) b z hz with h | h <;> simp_all
termination_by a b => a.length + b.length

theorem mergeDup_sorted (h : WeakOrder cmp) : ∀ (a b : List Bt), SortedBy cmp a → SortedBy cmp b → SortedBy cmp (mergeDup cmp a b)
  | [], b, _, hb => by rw [mergeDup]; exact hb
  | x :: a, [], ha, _ => by rw [mergeDup_nil_right]; exact ha
  | x :: a, y :: b, ha, hb => by
    have ha' := List.pairwise_cons.1 ha
    have hb' := List.pairwise_cons.1 hb
    rw [mergeDup]
    split
    · rename_i hc
      refine List.pairwise_cons.2 ⟨fun z hz => ?_, mergeDup_sorted h _ b ha hb'.2⟩
      rcases List.mem_append.1 ((mergeDup_perm (x :: a) b).subset hz) with hz | hz
      · rcases List.mem_cons.1 hz with rfl | hz
        · exact hc
        · exact h.negTrans _ _ _ (ha'.1 z hz) hc
      · exact hb'.1 z hz
    · rename_i hc
      have hc : cmp x y = true := by simpa using hc
      refine List.pairwise_cons.2 ⟨fun z hz => ?_, mergeDup_sorted h a _ ha'.2 hb⟩
      rcases List.mem_append.1 ((mergeDup_perm a (y :: b)).subset hz) with hz | hz
      · exact ha'.1 z hz
      · rcases List.mem_cons.1 hz with rfl | hz
        · exact h.asymm hc
        · exact h.negTrans _ _ _ (hb'.1 z hz) (h.asymm hc)
termination_by a b => a.length + b.length

theorem mergeUniq_sorted (h : WeakOrder cmp) : ∀ (a b : List Bt), SortedBy cmp a → SortedBy cmp b → SortedBy cmp (mergeUniq cmp a b)
  | [], b, _, hb => by rw [mergeUniq]; exact hb
  | x :: a, [], ha, _ => by rw [mergeUniq_nil_right]; exact ha
  | x :: a, y :: b, ha, hb => by
    have ha' := List.pairwise_cons.1 ha
    have hb' := List.pairwise_cons.1 hb
    rw [mergeUniq]
    split
    · rename_i hc
      refine List.pairwise_cons.2 ⟨fun z hz => ?_, mergeUniq_sorted h _ b ha hb'.2⟩
      rcases mergeUniq_mem (x :: a) b z hz with hz | hz
      · rcases List.mem_cons.1 hz with rfl | hz
        · exact h.asymm hc
        · exact h.negTrans _ _ _ (ha'.1 z hz) (h.asymm hc)
      · exact hb'.1 z hz
    split
    · rename_i _ hc
      refine List.pairwise_cons.2 ⟨fun z hz => ?_, mergeUniq_sorted h a _ ha'.2 hb⟩
      rcases mergeUniq_mem a (y :: b) z hz with hz | hz
      · exact ha'.1 z hz
      · rcases List.mem_cons.1 hz with rfl | hz
        · exact h.asymm hc
        · exact h.negTrans _ _ _ (hb'.1 z hz) (h.asymm hc)
    · exact mergeUniq_sorted h _ b ha hb'.2
termination_by a b => a.length + b.length

/-- Without duplicates, the result has all elements of the first list and those elements of the second
that equal none of the first. -/
theorem mergeUniq_perm (h : WeakOrder cmp) : ∀ (a b : List Bt), SortedBy cmp a → SortedBy cmp b →
    (mergeUniq cmp a b).Perm (a ++ b.filter fun y => !a.any fun x => cmpEq cmp x y)
  | [], b, _, hb => by
    rw [mergeUniq]
    simp
  | x :: a, [], ha, _ => by rw [mergeUniq_nil_right]; simp
  | x :: a, y :: b, ha, hb => by
    have ha' := List.pairwise_cons.1 ha
    have hb' := List.pairwise_cons.1 hb
    rw [mergeUniq]
    split
    · rename_i hc
      -- `y` is below `x`, hence below everything in the first list
      have hy : (!(x :: a).any fun x => cmpEq cmp x y) = true := by
        simp only [Bool.not_eq_true', List.any_eq_false]
        intro z hz
        have : cmp y z = true := by
          rcases List.mem_cons.1 hz with rfl | hz
          · exact hc
          · cases hyz : cmp y z with
            | true => rfl
            | false => exact absurd (h.negTrans _ _ _ hyz (ha'.1 z hz)) (by simp [hc])
        simp [cmpEq, this]
      rw [List.filter_cons, if_pos hy]
      exact ((mergeUniq_perm h (x :: a) b ha hb'.2).cons y).trans (List.perm_middle.symm)
    split
    · rename_i _ hc
      -- `x` is below `y`, hence equals nothing in the second list
      have hxb : ∀ z ∈ y :: b, cmpEq cmp x z = false := by
        intro z hz
        have : cmp x z = true := by
          rcases List.mem_cons.1 hz with rfl | hz
          · exact hc
          · cases hxz : cmp x z with
            | true => rfl
            | false => exact absurd (h.negTrans _ _ _ hxz (hb'.1 z hz)) (by simp [hc])
        simp [cmpEq, this]
      have hf : (y :: b).filter (fun y => !(x :: a).any fun x => cmpEq cmp x y) =
          (y :: b).filter (fun y => !a.any fun x => cmpEq cmp x y) :=
        List.filter_congr fun z hz => by rw [List.any_cons, hxb z hz, Bool.false_or]
      rw [hf]
      exact (mergeUniq_perm h a (y :: b) ha'.2 hb).cons x
    · rename_i h1 h2
      have hy : (!(x :: a).any fun x => cmpEq cmp x y) = false := by
        simp only [Bool.not_eq_true] at h1 h2
        simp [cmpEq, h1, h2]
      rw [List.filter_cons, hy]
      exact mergeUniq_perm h (x :: a) b ha hb'.2
termination_by a b => a.length + b.length

/-- **C105, lists.** Merging two sorted lists gives a sorted list; with duplicates it has the elements of
both, without it has those of the first and those of the second that equal none of the first. -/
theorem mergeSorted_spec (h : WeakOrder cmp) {a b : List Bt} (ha : SortedBy cmp a) (hb : SortedBy cmp b) :
    SortedBy cmp (mergeSorted a b cmp true) ∧ (mergeSorted a b cmp true).Perm (a ++ b) ∧
    SortedBy cmp (mergeSorted a b cmp) ∧
    (mergeSorted a b cmp).Perm (a ++ b.filter fun y => !a.any fun x => cmpEq cmp x y) :=
  ⟨mergeDup_sorted h a b ha hb, mergeDup_perm a b, mergeUniq_sorted h a b ha hb, mergeUniq_perm h a b ha hb⟩

/-! ### Instances -/

/-- Comparing integers by their tens -/
def exCmp : Bt → Bt → Bool
  | .int a, .int b => decide (a / 10 < b / 10)
  | .int _, _ => true
  | _, _ => false

theorem exCmp_weak : WeakOrder exCmp where
  irrefl := fun x => by cases x <;> simp [exCmp]
  trans := fun x y z h1 h2 => by
    cases x <;> cases y <;> cases z <;> simp [exCmp] at h1 h2 ⊢
    omega
  negTrans := fun x y z h1 h2 => by
    cases x <;> cases y <;> cases z <;> simp [exCmp] at h1 h2 ⊢
    omega

example : SortedBy exCmp [.int 3, .int 15, .int 12] ∧ SortedBy exCmp [.int 1, .int 2, .int 17, .int 20] :=
  ⟨by simp [SortedBy, exCmp], by simp [SortedBy, exCmp]⟩

example : mergeSorted [.int 3, .int 15, .int 12] [.int 1, .int 2, .int 17, .int 20] exCmp = [.int 3, .int 15, .int 12, .int 20] ∧
    mergeSorted [.int 3, .int 15, .int 12] [.int 1, .int 2, .int 17, .int 20] exCmp true =
      [.int 1, .int 2, .int 3, .int 17, .int 15, .int 12, .int 20] :=
  ⟨by simp [mergeSorted, mergeUniq, exCmp], by simp [mergeSorted, mergeDup, exCmp]⟩

example : KSorted ([([1], .int 1), ([3], .int 2)] : BtDict) ∧
    btMerge [([1], .int 1), ([3], .int 2)] [([2], .int 5), ([3], .int 6)] = [([1], .int 1), ([2], .int 5), ([3], .int 2)] :=
  ⟨by simp [KSorted]; decide, by
    have h1 : ([1] : Bytes) < [2] := by decide
    have h2 : ¬ ([3] : Bytes) < [2] := by decide
    have h3 : ¬ ([3] : Bytes) = [2] := by decide
    have h4 : ¬ ([3] : Bytes) < [3] := by decide
    simp [btMerge, h1, h2, h3, h4]⟩

end Verif
