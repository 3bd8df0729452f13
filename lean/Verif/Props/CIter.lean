import Verif.CIter

/-!
# The iteration visits each member once
-/

namespace Verif

/-- The documented loop (include/session/config/user_groups.h:543-549): `remove i` is the caller's decision about the `i`-th
member it is shown.  The result is what was shown, and the members left.  `fuel` bounds the number of rounds; running out
counts as not terminating. -/
def memberLoop (remove : Nat → Bool) : Nat → Nat → MemIter → Out (List (Bytes × Bool) × Members)
  | 0, _, _ => .hang
  | fuel + 1, i, it => it.next.bind fun r => match r with
    | (it, none) => .ok ([], it.members)
    | (it, some x) =>
      if remove i then it.erase.bind fun it => (memberLoop remove fuel (i + 1) it).bind fun t => .ok (x :: t.1, t.2)
      else (memberLoop remove fuel (i + 1) it).bind fun t => .ok (x :: t.1, t.2)

/-- The members not removed -/
def keptFrom (remove : Nat → Bool) : Nat → Members → Members
  | _, [] => []
  | i, x :: t => if remove i then keptFrom remove (i + 1) t else x :: keptFrom remove (i + 1) t

theorem nextKey_eq {l r : Members} {x : Bytes × Bool} (h : KSorted (l ++ x :: r)) :
    nextKey (l ++ x :: r) x.1 = r.head?.map (·.1) := by
  unfold nextKey
  have hl : ∀ y ∈ l, ¬ x.1 < y.1 := fun y hy => not_lt.2 (le_of_lt ((List.pairwise_append.1 h).2.2 y hy x (by simp)))
  have hx := (List.pairwise_append.1 h).2.1
  rw [List.find?_append, List.find?_eq_none.2 (by intro y hy; simpa using hl y hy)]
  simp only [Option.none_or]
  rw [List.find?_cons_of_neg (by simp)]
  cases r with
  | nil => rfl
  | cons y t =>
    rw [List.find?_cons_of_pos (by simpa using (List.pairwise_cons.1 hx).1 y (by simp))]
    rfl

theorem mget_mid {l r : Members} {x : Bytes × Bool} (h : KSorted (l ++ x :: r)) : mget x.1 (l ++ x :: r) = some x.2 :=
  (mget_iff_mem h).2 (by simp)

theorem mdel_mid : ∀ {l r : Members} {x : Bytes × Bool}, KSorted (l ++ x :: r) → mdel x.1 (l ++ x :: r) = l ++ r
  | [], r, x, _ => by obtain ⟨k, v⟩ := x; simp [mdel]
  | (k, v) :: l, r, x, h => by
    have hne : x.1 ≠ k := fun e => by
      have := (List.pairwise_cons.1 h).1 x (by simp)
      rw [e] at this
      exact lt_irrefl _ this
    show mdel x.1 ((k, v) :: (l ++ x :: r)) = _
    rw [mdel, if_neg hne, mdel_mid (List.pairwise_cons.1 h).2]
    rfl

theorem read_at {l r : Members} {a : Bool} (h : KSorted (l ++ r)) : (MemIter.mk (l ++ r) (r.head?.map (·.1)) a).read =
    .ok (⟨l ++ r, r.head?.map (·.1), a⟩, r.head?) := by
  cases r with
  | nil => rfl
  | cons x t =>
    show (match mget x.1 (l ++ x :: t) with | some a' => _ | none => _) = _
    rw [mget_mid h]; rfl

theorem memberLoop_spec (remove : Nat → Bool) : ∀ (r l : Members) (fuel i : Nat), r.length < fuel → KSorted (l ++ r) →
    memberLoop remove fuel i ⟨l ++ r, r.head?.map (·.1), false⟩ = .ok (r, l ++ keptFrom remove i r) ∧
    ∀ y l', l = l' ++ [y] → memberLoop remove fuel i ⟨l ++ r, some y.1, true⟩ = .ok (r, l ++ keptFrom remove i r) := by
  intro r
  induction r with
  | nil =>
    intro l fuel i hf hs
    obtain ⟨f, rfl⟩ : ∃ f, fuel = f + 1 := ⟨fuel - 1, by simp at hf; omega⟩
    refine ⟨rfl, fun y l' e => ?_⟩
    subst e
    have hs' : KSorted (l' ++ y :: []) := by simpa using hs
    unfold memberLoop MemIter.next
    simp only [List.append_nil, if_true]
    simp only [mget_mid hs', Option.isSome_some, if_true, nextKey_eq hs']
    show Out.ok _ = _
    simp [keptFrom]
  | cons x t ih =>
    intro l fuel i hf hs
    obtain ⟨f, rfl⟩ : ∃ f, fuel = f + 1 := ⟨fuel - 1, by simp at hf; omega⟩
    simp only [List.length_cons] at hf
    -- both ways of getting at the next member
    have key : ∀ it : MemIter, it.next = .ok (⟨l ++ x :: t, some x.1, true⟩, some x) →
        memberLoop remove (f + 1) i it = .ok (x :: t, l ++ keptFrom remove i (x :: t)) := by
      intro it hn
      unfold memberLoop
      rw [hn]
      show (if remove i then _ else _) = _
      cases hr : remove i with
      | true =>
        rw [if_pos rfl]
        have he : (MemIter.mk (l ++ x :: t) (some x.1) true).erase = .ok ⟨l ++ t, t.head?.map (·.1), false⟩ := by
          unfold MemIter.erase
          simp only [mget_mid hs, Option.isSome_some, if_true, nextKey_eq hs, mdel_mid hs]
        rw [he]
        have hs2 : KSorted (l ++ t) := List.Pairwise.sublist (List.Sublist.append (.refl _) (List.sublist_cons_self _ _)) hs
        have := (ih l f (i + 1) (by omega) hs2).1
        show (memberLoop remove f (i + 1) _).bind _ = _
        rw [this]
        show Out.ok _ = _
        simp [keptFrom, hr]
      | false =>
        rw [if_neg (by simp)]
        have hs2 : KSorted ((l ++ [x]) ++ t) := by simpa using hs
        have := (ih (l ++ [x]) f (i + 1) (by omega) hs2).2 x l rfl
        have e : l ++ [x] ++ t = l ++ x :: t := by simp
        rw [e] at this
        rw [this]
        show Out.ok _ = _
        simp [keptFrom, hr]
    refine ⟨key _ ?_, fun y l' e => key _ ?_⟩
    · unfold MemIter.next
      rw [if_neg (by simp)]
      exact read_at hs
    · unfold MemIter.next
      rw [if_pos rfl]
      have hs' : KSorted (l' ++ y :: (x :: t)) := by rw [e] at hs; simpa using hs
      have e' : l ++ x :: t = l' ++ y :: (x :: t) := by rw [e]; simp
      have hm : mget y.1 (l ++ x :: t) = some y.2 := by rw [e']; exact mget_mid hs'
      have hk : nextKey (l ++ x :: t) y.1 = some x.1 := by rw [e', nextKey_eq hs']; rfl
      simp only [hm, Option.isSome_some, if_true, hk]
      exact read_at (r := x :: t) hs

/-- **C110.** Whatever the caller decides about each member it is shown, the documented loop terminates without undefined
behaviour, shows every member of the group exactly once, in order, and leaves exactly the members not erased. -/
theorem member_iteration {m : Members} (hm : KSorted m) (remove : Nat → Bool) {fuel : Nat} (hf : m.length < fuel) :
    memberLoop remove fuel 0 (membersBegin m) = .ok (m, keptFrom remove 0 m) :=
  (memberLoop_spec remove m [] fuel 0 hf hm).1

/-- What is left: the members whose index was not chosen. -/
theorem keptFrom_eq (remove : Nat → Bool) : ∀ (m : Members) (i : Nat) (x : Bytes × Bool),
    x ∈ keptFrom remove i m ↔ ∃ j, m[j]? = some x ∧ remove (i + j) = false
  | [], i, x => by simp [keptFrom]
  | y :: t, i, x => by
    rw [keptFrom]
    have ih := keptFrom_eq remove t (i + 1) x
    have hs : (∃ j, (y :: t)[j]? = some x ∧ remove (i + j) = false) ↔
        (y = x ∧ remove i = false) ∨ ∃ j, t[j]? = some x ∧ remove (i + 1 + j) = false := by
      constructor
      · rintro ⟨j, h1, h2⟩
        cases j with
        | zero => exact .inl ⟨by simpa using h1, h2⟩
        | succ j => exact .inr ⟨j, by simpa using h1, by rw [show i + 1 + j = i + (j + 1) by omega]; exact h2⟩
      · rintro (⟨h1, h2⟩ | ⟨j, h1, h2⟩)
        · exact ⟨0, by simp [h1], h2⟩
        · exact ⟨j + 1, by simpa using h1, by rw [show i + (j + 1) = i + 1 + j by omega]; exact h2⟩
    rw [hs]
    cases hr : remove i with
    | true => rw [if_pos rfl, ih]; simp
    | false => rw [if_neg (by simp), List.mem_cons, ih, and_iff_left rfl, eq_comm (a := x)]

/-! ### Instances -/

example : memberLoop (fun i => i != 1) 4 0 (membersBegin [([1], true), ([2], false), ([3], true)]) =
    .ok ([([1], true), ([2], false), ([3], true)], [([2], false)]) := by decide +kernel

example : KSorted ([([1], true), ([2], false), ([3], true)] : Members) := by decide

/-- Erasing twice without `next`: after the last member this is undefined behaviour. -/
example : ((membersBegin [([1], true)]).next.bind fun r => r.1.erase.bind fun it => it.erase) = .ub := by decide +kernel

end Verif
