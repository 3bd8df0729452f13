import Verif.Community
import Mathlib.Data.List.Infix

/-!
# Community URLs: C51, C52, C53
-/

namespace Verif

/-! ### Searching -/

theorem isPrefixOf_true {p u : Bytes} : p.isPrefixOf u = true ↔ ∃ r, u = p ++ r := by
  rw [List.isPrefixOf_iff_prefix]
  constructor
  · rintro ⟨r, h⟩; exact ⟨r, h.symm⟩
  · rintro ⟨r, h⟩; exact ⟨r, h.symm⟩

theorem findSub_ok {p : Bytes} : ∀ {u a b : Bytes}, findSub p u = some (a, b) → u = a ++ p ++ b
  | [], a, b, h => by cases h
  | c :: t, a, b, h => by
    rw [findSub] at h
    split at h
    · rename_i hp
      obtain ⟨r, hr⟩ := isPrefixOf_true.1 hp
      simp only [Option.some.injEq, Prod.mk.injEq] at h
      obtain ⟨rfl, rfl⟩ := h
      rw [hr]; simp
    · cases hf : findSub p t with
      | none => rw [hf] at h; cases h
      | some x =>
        obtain ⟨x, y⟩ := x
        rw [hf] at h
        simp only [Option.map_some, Option.some.injEq, Prod.mk.injEq] at h
        obtain ⟨rfl, rfl⟩ := h
        rw [findSub_ok hf]; simp

theorem rfindSub_ok {p : Bytes} : ∀ {u a b : Bytes}, rfindSub p u = some (a, b) → u = a ++ p ++ b
  | [], a, b, h => by cases h
  | c :: t, a, b, h => by
    rw [rfindSub] at h
    cases hf : rfindSub p t with
    | some x =>
      obtain ⟨x, y⟩ := x
      rw [hf] at h
      simp only [Option.some.injEq, Prod.mk.injEq] at h
      obtain ⟨rfl, rfl⟩ := h
      rw [rfindSub_ok hf]; simp
    | none =>
      rw [hf] at h
      simp only at h
      split at h
      · rename_i hp
        obtain ⟨r, hr⟩ := isPrefixOf_true.1 hp
        simp only [Option.some.injEq, Prod.mk.injEq] at h
        obtain ⟨rfl, rfl⟩ := h
        rw [hr]; simp
      · cases h

/-- The first occurrence, when the first character of the pattern does not occur before. -/
theorem findSub_first {x : UInt8} {q : Bytes} : ∀ {a : Bytes} (b : Bytes), x ∉ a →
    findSub (x :: q) (a ++ x :: q ++ b) = some (a, b)
  | [], b, _ => by
    have : List.isPrefixOf (x :: q) (x :: (q ++ b)) = true := isPrefixOf_true.2 ⟨b, by simp⟩
    simp only [List.nil_append, List.cons_append, findSub, this, if_true]
    simp
  | c :: a, b, h => by
    have hc : ¬ List.isPrefixOf (x :: q) (c :: (a ++ x :: q ++ b)) = true := by
      rw [isPrefixOf_true]; rintro ⟨r, hr⟩
      simp only [List.cons_append, List.cons.injEq] at hr
      exact h (by simp [hr.1])
    have ih := findSub_first (x := x) (q := q) (a := a) b (fun hx => h (by simp [hx]))
    show findSub (x :: q) (c :: (a ++ x :: q ++ b)) = _
    rw [findSub, if_neg hc, ih]; rfl

theorem rfindSub_none {x : UInt8} {q : Bytes} : ∀ {b : Bytes}, x ∉ b → rfindSub (x :: q) b = none
  | [], _ => rfl
  | c :: b, h => by
    have hc : ¬ List.isPrefixOf (x :: q) (c :: b) = true := by
      rw [isPrefixOf_true]; rintro ⟨r, hr⟩
      simp only [List.cons_append, List.cons.injEq] at hr
      exact h (by simp [hr.1])
    rw [rfindSub, rfindSub_none (fun hx => h (by simp [hx]))]
    show (if _ then _ else _) = _
    rw [if_neg hc]

theorem rfindSub_append {p a v x y : Bytes} (h : rfindSub p v = some (x, y)) :
    rfindSub p (a ++ v) = some (a ++ x, y) := by
  induction a with
  | nil => exact h
  | cons c a ih => rw [List.cons_append, rfindSub, ih]; rfl

/-- The last occurrence, when the first character of the pattern does not occur after. -/
theorem rfindSub_last {x : UInt8} {q : Bytes} (a : Bytes) {b : Bytes} (hq : x ∉ q) (h : x ∉ b) :
    rfindSub (x :: q) (a ++ x :: q ++ b) = some (a, b) := by
  have hp : List.isPrefixOf (x :: q) (x :: (q ++ b)) = true := isPrefixOf_true.2 ⟨b, by simp⟩
  have := rfindSub_append (a := a) (p := x :: q) (v := x :: (q ++ b)) (x := []) (y := b) (by
    rw [rfindSub, rfindSub_none (by simp [hq, h])]
    simp only [hp, if_true]
    simp)
  simpa using this

/-! ### Characters -/

theorem lowerC_of_host (c : UInt8) : isHostC c = true → lowerC c = c := by
  revert c; apply forall_uint8; decide +kernel
theorem host_cases (c : UInt8) : isHostC (lowerC c) = (isHostC c || (65 ≤ c && c ≤ 90)) := by
  revert c; apply forall_uint8; decide +kernel
theorem lowerC_upper (c : UInt8) : (65 ≤ c ∧ c ≤ 90) → lowerC c = c + 32 ∧ isHostC c = false := by
  revert c; apply forall_uint8; decide +kernel
theorem lowerC_dot (c : UInt8) : lowerC c = 46 ↔ c = 46 := by
  revert c; apply forall_uint8; decide +kernel
theorem lowerC_of_room (c : UInt8) : isRoomC c = true → lowerC c = c := by
  revert c; apply forall_uint8; decide +kernel
theorem digit_not_upper (c : UInt8) : isDigit c = true → lowerC c = c := by
  revert c; apply forall_uint8; decide +kernel

/-! ### Host names -/

/-- Shape of the (lower-case) host as the loop accepts it. -/
def hostForm : Bool → Bytes → Bool
  | _, [] => true
  | dot, c :: t => (isHostC c && hostForm true t) || (dot && c == 46 && hostForm false t)

/-- The loop stops here. -/
def hostStop : Bytes → Prop
  | [] => True
  | c :: _ => isHostC (lowerC c) = false ∧ c ≠ 46

theorem scanHost_complete : ∀ {h : Bytes} {dot : Bool} {r : Bytes}, hostForm dot (lower h) = true →
    hostStop r → scanHost dot (h ++ r) = (lower h, r)
  | [], dot, r, _, hr => by
    cases r with
    | nil => rfl
    | cons c t =>
      obtain ⟨h1, h2⟩ := hr
      rw [host_cases, Bool.or_eq_false_iff] at h1
      have h3 : ¬ (65 ≤ c ∧ c ≤ 90) := by
        intro hh; have := h1.2; simp [hh] at this
      show scanHost dot (c :: t) = ([], c :: t)
      rw [scanHost, if_neg (by simp [h1.1]), if_neg h3, if_neg (by simp [h2])]
  | c :: h, dot, r, hf, hr => by
    have hf' : ((isHostC (lowerC c) && hostForm true (lower h)) ||
      (dot && lowerC c == 46 && hostForm false (lower h))) = true := hf
    rw [Bool.or_eq_true] at hf'
    show scanHost dot (c :: (h ++ r)) = (lowerC c :: lower h, r)
    rw [scanHost]
    rcases hf' with hf' | hf'
    · rw [Bool.and_eq_true] at hf'
      obtain ⟨h1, h2⟩ := hf'
      have ih := scanHost_complete (dot := true) h2 hr
      rw [ih]
      by_cases hc : isHostC c = true
      · rw [if_pos hc, lowerC_of_host c hc]
      · rw [host_cases, Bool.or_eq_true] at h1
        have hu : 65 ≤ c ∧ c ≤ 90 := by
          rcases h1 with h1 | h1
          · exact absurd h1 hc
          · simpa using h1
        rw [if_neg hc, if_pos hu, (lowerC_upper c hu).1]
    · rw [Bool.and_eq_true, Bool.and_eq_true, beq_iff_eq] at hf'
      obtain ⟨⟨h1, h2⟩, h3⟩ := hf'
      have h2' : c = 46 := (lowerC_dot c).1 h2
      subst h2'
      have ih := scanHost_complete (dot := false) h3 hr
      rw [ih, if_neg (by decide), if_neg (by decide), if_pos ⟨h1, rfl⟩]
      rfl

theorem scanHost_sound : ∀ {u : Bytes} {dot : Bool} {x r : Bytes}, scanHost dot u = (x, r) →
    ∃ h, u = h ++ r ∧ x = lower h ∧ hostForm dot x = true
  | [], dot, x, r, e => by
    simp only [scanHost, Prod.mk.injEq] at e
    obtain ⟨rfl, rfl⟩ := e
    exact ⟨[], rfl, rfl, rfl⟩
  | c :: t, dot, x, r, e => by
    rw [scanHost] at e
    by_cases hc : isHostC c = true
    · rw [if_pos hc] at e
      obtain ⟨rfl, rfl⟩ := Prod.mk.inj e
      obtain ⟨h, h1, h2, h3⟩ := scanHost_sound (u := t) (dot := true) rfl
      refine ⟨c :: h, by rw [List.cons_append, ← h1], ?_, ?_⟩
      · rw [h2]; simp [lower, lowerC_of_host c hc]
      · simp [hostForm, hc, h3]
    · rw [if_neg hc] at e
      by_cases hu : 65 ≤ c ∧ c ≤ 90
      · rw [if_pos hu] at e
        obtain ⟨rfl, rfl⟩ := Prod.mk.inj e
        obtain ⟨h, h1, h2, h3⟩ := scanHost_sound (u := t) (dot := true) rfl
        have hl := (lowerC_upper c hu).1
        refine ⟨c :: h, by rw [List.cons_append, ← h1], ?_, ?_⟩
        · rw [h2]; simp [lower, hl]
        · have : isHostC (c + 32) = true := by rw [← hl, host_cases]; simp [hu]
          simp [hostForm, this, h3]
      · rw [if_neg hu] at e
        by_cases hd : dot = true ∧ c = 46
        · rw [if_pos hd] at e
          obtain ⟨rfl, rfl⟩ := Prod.mk.inj e
          obtain ⟨hd, rfl⟩ := hd
          obtain ⟨h, h1, h2, h3⟩ := scanHost_sound (u := t) (dot := false) rfl
          refine ⟨46 :: h, by rw [List.cons_append, ← h1], ?_, ?_⟩
          · rw [h2]; rfl
          · simp [hostForm, hd, h3]
        · rw [if_neg hd] at e
          obtain ⟨rfl, rfl⟩ := Prod.mk.inj e
          exact ⟨[], rfl, rfl, rfl⟩

/-- A label of a host name: letters (lower case), digits and dashes, at least one -/
def IsLabel (l : Bytes) : Prop := l ≠ [] ∧ ∀ c ∈ l, isHostC c = true

/-- A host name: at least two labels separated by dots, at least 4 characters -/
def IsHostName (h : Bytes) : Prop :=
  4 ≤ h.length ∧ ∃ ls : List Bytes, 2 ≤ ls.length ∧ (∀ l ∈ ls, IsLabel l) ∧ h = List.intercalate [46] ls

theorem intercalate_one (s x : Bytes) : List.intercalate s [x] = x := by simp [List.intercalate]
theorem intercalate_more (s x y : Bytes) (l : List Bytes) :
    List.intercalate s (x :: y :: l) = x ++ s ++ List.intercalate s (y :: l) := by
  simp [List.intercalate]

theorem hostForm_labels : ∀ {h : Bytes} {dot : Bool}, hostForm dot h = true →
    h.getLast? ≠ some 46 → (dot = false → h ≠ []) →
    ∃ pre ls, h = List.intercalate [46] (pre :: ls) ∧ (∀ c ∈ pre, isHostC c = true) ∧
      (dot = false → pre ≠ []) ∧ ∀ l ∈ ls, IsLabel l
  | [], dot, _, _, h3 => by
    refine ⟨[], [], rfl, by simp, fun hd => absurd rfl (h3 hd), by simp⟩
  | c :: t, dot, h1, h2, h3 => by
    rw [hostForm, Bool.or_eq_true] at h1
    rcases h1 with h1 | h1
    · rw [Bool.and_eq_true] at h1
      obtain ⟨pre, ls, e, hp, _, hl⟩ := hostForm_labels h1.2 (by
        intro he; apply h2
        cases t with
        | nil => cases he
        | cons d t => rw [List.getLast?_cons_cons]; exact he) (by simp)
      refine ⟨c :: pre, ls, ?_, ?_, by simp, hl⟩
      · rw [e]
        cases ls with
        | nil => rw [intercalate_one, intercalate_one]
        | cons y ls => rw [intercalate_more, intercalate_more]; rfl
      · intro d hd
        rcases List.mem_cons.1 hd with rfl | hd
        · exact h1.1
        · exact hp d hd
    · rw [Bool.and_eq_true, Bool.and_eq_true, beq_iff_eq] at h1
      obtain ⟨⟨hd, rfl⟩, h1⟩ := h1
      have ht : t ≠ [] := by rintro rfl; exact h2 rfl
      obtain ⟨pre, ls, e, hp, hn, hl⟩ := hostForm_labels h1 (by
        intro he; apply h2
        cases t with
        | nil => cases he
        | cons d t => rw [List.getLast?_cons_cons]; exact he) (fun _ => ht)
      refine ⟨[], pre :: ls, ?_, by simp, by simp [hd], ?_⟩
      · rw [e, intercalate_more]; rfl
      · intro l hm
        rcases List.mem_cons.1 hm with rfl | hm
        · exact ⟨hn rfl, hp⟩
        · exact hl l hm

theorem hostForm_pre : ∀ {pre : Bytes} {dot : Bool} {t : Bytes}, (∀ c ∈ pre, isHostC c = true) →
    hostForm (dot || !pre.isEmpty) t = true → hostForm dot (pre ++ t) = true
  | [], dot, t, _, h => by simpa using h
  | c :: pre, dot, t, hp, h => by
    have hc := hp c (by simp)
    have := hostForm_pre (pre := pre) (dot := true) (t := t) (fun d hd => hp d (by simp [hd]))
      (by simpa using h)
    simp [hostForm, hc, this]

theorem labels_hostForm : ∀ {ls : List Bytes}, ls ≠ [] → (∀ l ∈ ls, IsLabel l) →
    hostForm false (List.intercalate [46] ls) = true ∧
      (List.intercalate [46] ls).getLast? ≠ some 46 ∧ List.intercalate [46] ls ≠ []
  | [], h, _ => absurd rfl h
  | [x], _, hl => by
    obtain ⟨h1, h2⟩ := hl x (by simp)
    rw [intercalate_one]
    refine ⟨?_, ?_, h1⟩
    · have := hostForm_pre (pre := x) (dot := false) (t := []) h2 rfl
      simpa using this
    · intro he
      have := h2 46 (List.mem_of_getLast? he)
      exact absurd this (by decide)
  | x :: y :: ls, _, hl => by
    obtain ⟨h1, h2⟩ := hl x (by simp)
    obtain ⟨i1, i2, i3⟩ := labels_hostForm (ls := y :: ls) (by simp) (fun l h => hl l (by simp [h]))
    rw [intercalate_more, List.append_assoc]
    refine ⟨?_, ?_, by simp [h1]⟩
    · apply hostForm_pre h2
      have : (!x.isEmpty) = true := by cases x with
        | nil => exact absurd rfl h1
        | cons => rfl
      simp [this, hostForm, i1]
    · rw [List.getLast?_append, List.singleton_append]
      cases hi : List.intercalate [46] (y :: ls) with
      | nil => exact absurd hi i3
      | cons d t =>
        rw [hi] at i2
        rw [List.getLast?_cons_cons]
        cases hg : (d :: t).getLast? with
        | none => simp at hg
        | some z =>
          rw [hg] at i2
          simpa using i2

/-- What the loop and the checks after it accept are the host names. -/
theorem hostName_iff {h : Bytes} : IsHostName h ↔
    hostForm false h = true ∧ ¬ (h.length < 4 ∨ ¬ (46 ∈ h) ∨ h.getLast? = some 46) := by
  constructor
  · rintro ⟨h4, ls, h2, hl, rfl⟩
    obtain ⟨a, b, c⟩ := labels_hostForm (ls := ls) (by rintro rfl; simp at h2) hl
    refine ⟨a, ?_⟩
    rintro (hh | hh | hh)
    · omega
    · match ls, h2 with
      | x :: y :: ls, _ => rw [intercalate_more] at hh; simp at hh
    · exact b hh
  · rintro ⟨h1, h2⟩
    have h3 : ¬ h.length < 4 := fun hh => h2 (.inl hh)
    have h4 : 46 ∈ h := by by_contra hh; exact h2 (.inr (.inl hh))
    obtain ⟨pre, ls, e, hp, hn, hl⟩ := hostForm_labels h1 (fun hh => h2 (.inr (.inr hh)))
      (fun _ => by rintro rfl; simp at h4)
    refine ⟨by omega, pre :: ls, ?_, ?_, e⟩
    · cases ls with
      | nil =>
        rw [intercalate_one] at e
        rw [e] at h4
        exact absurd (hp 46 h4) (by decide)
      | cons y l => simp
    · intro l hm
      rcases List.mem_cons.1 hm with rfl | hm
      · exact ⟨hn rfl, hp⟩
      · exact hl l hm

/-! ### Ports -/

/-- The value of a string of decimal digits -/
def decVal (ds : Bytes) : Nat := ds.foldl (fun a c => a * 10 + (c.toNat - 48)) 0

theorem scanNat_digits : ∀ {ds : Bytes} {r : Bytes} (a : Nat), (∀ c ∈ ds, isDigit c = true) →
    (∀ c, r.head? = some c → isDigit c = false) →
    scanNat a (ds ++ r) = (ds.foldl (fun a c => a * 10 + (c.toNat - 48)) a, r)
  | [], [], a, _, _ => rfl
  | [], c :: r, a, _, h => by
    have := h c rfl
    show scanNat a (c :: r) = _
    rw [scanNat, if_neg (by simp [this])]; rfl
  | c :: ds, r, a, hd, h => by
    show scanNat a (c :: (ds ++ r)) = _
    rw [scanNat, if_pos (hd c (by simp)), scanNat_digits _ (fun d hd' => hd d (by simp [hd'])) h]
    rfl

theorem scanNat_sound : ∀ {u : Bytes} (a : Nat), ∃ ds, u = ds ++ (scanNat a u).2 ∧
    (∀ c ∈ ds, isDigit c = true) ∧
    (scanNat a u).1 = ds.foldl (fun a c => a * 10 + (c.toNat - 48)) a ∧
    ∀ c, (scanNat a u).2.head? = some c → isDigit c = false
  | [], a => ⟨[], rfl, by simp, rfl, by simp [scanNat]⟩
  | c :: u, a => by
    by_cases hc : isDigit c = true
    · rw [scanNat, if_pos hc]
      obtain ⟨ds, h1, h2, h3, h4⟩ := scanNat_sound (u := u) (a * 10 + (c.toNat - 48))
      refine ⟨c :: ds, by rw [List.cons_append, ← h1], ?_, h3, h4⟩
      intro d hd
      rcases List.mem_cons.1 hd with rfl | hd
      · exact hc
      · exact h2 d hd
    · rw [scanNat, if_neg hc]
      refine ⟨[], rfl, by simp, rfl, ?_⟩
      intro d hd
      simp only [List.head?_cons, Option.some.injEq] at hd
      subst hd; simpa using hc

theorem decCore_digits (f n : Nat) (acc : Bytes) (ha : ∀ c ∈ acc, isDigit c = true) :
    ∀ c ∈ decCore f n acc, isDigit c = true := by
  induction f generalizing n acc with
  | zero => exact ha
  | succ f ih =>
    have : ∀ c ∈ digit (n % 10) :: acc, isDigit c = true := by
      intro c hc
      rcases List.mem_cons.1 hc with rfl | hc
      · exact isDigit_digit (Nat.mod_lt _ (by decide))
      · exact ha c hc
    rw [decCore]; split
    · exact this
    · exact ih _ _ this

theorem natDigits_digits (n : Nat) : ∀ c ∈ natDigits n, isDigit c = true :=
  decCore_digits _ _ _ (by simp)

theorem natDigits_ne (n : Nat) : natDigits n ≠ [] := by
  obtain ⟨d, t, _, h⟩ := natDigits_head n; rw [h]; simp

theorem decVal_natDigits (n : Nat) : decVal (natDigits n) = n := by
  have h1 := scanNat_natDigits n 58 (by decide) []
  have h2 := scanNat_digits (ds := natDigits n) (r := [58]) 0 (natDigits_digits n)
    (by intro c hc; simp only [List.head?_cons, Option.some.injEq] at hc; subst hc; decide)
  rw [h1] at h2
  exact (Prod.mk.inj h2).1.symm

/-- How the port can be written: not at all, or a colon and at least one digit, below 65536
(leading zeros are possible) -/
def PortSpelling (s : Bytes) (n : Nat) : Prop :=
  (s = [] ∧ n = 0) ∨
  ∃ ds, s = 58 :: ds ∧ ds ≠ [] ∧ (∀ c ∈ ds, isDigit c = true) ∧ n = decVal ds ∧ n ≤ 65535

theorem scanPort_complete {s : Bytes} {n : Nat} {sl : Bytes} (h : PortSpelling s n)
    (hs : sl = [] ∨ sl = [47]) : scanPort (s ++ sl) = .ok (n, sl) := by
  rcases h with ⟨rfl, rfl⟩ | ⟨ds, rfl, hne, hd, rfl, hn⟩
  · rcases hs with rfl | rfl <;> rfl
  · have := scanNat_digits (ds := ds) (r := sl) 0 hd (by
      rcases hs with rfl | rfl
      · simp
      · intro c hc; simp only [List.head?_cons, Option.some.injEq] at hc; subst hc; decide)
    cases ds with
    | nil => exact absurd rfl hne
    | cons d ds =>
      show scanPort (58 :: d :: (ds ++ sl)) = _
      rw [scanPort, if_pos (hd d (by simp))]
      rw [List.cons_append] at this
      rw [this]
      have hn' : List.foldl (fun a c => a * 10 + (c.toNat - 48)) 0 (d :: ds) ≤ 65535 := hn
      show (if List.foldl (fun a c => a * 10 + (c.toNat - 48)) 0 (d :: ds) ≤ 65535 then _ else _) = _
      rw [if_pos hn']; rfl

theorem scanPort_sound {u : Bytes} {n : Nat} {r : Bytes} (h : scanPort u = .ok (n, r)) :
    ∃ s, u = s ++ r ∧ PortSpelling s n := by
  unfold scanPort at h
  split at h
  · rename_i d t
    split at h
    · rename_i hd
      split at h
      · rename_i hn
        obtain ⟨ds, h1, h2, h3, h4⟩ := scanNat_sound (u := d :: t) 0
        have e := Out.ok.inj h
        rw [e] at h1 h3 hn
        refine ⟨58 :: ds, by rw [h1]; rfl, .inr ⟨ds, rfl, ?_, h2, h3, hn⟩⟩
        rintro rfl
        have e2 : (scanNat 0 (d :: t)).2 = d :: t := by rw [e]; simpa using h1.symm
        have := h4 d (by rw [e2]; rfl)
        rw [hd] at this; cases this
      · cases h
    · cases h
  · cases h
  · obtain ⟨rfl, rfl⟩ := Prod.mk.inj (Out.ok.inj h)
    exact ⟨[], rfl, .inl ⟨rfl, rfl⟩⟩

/-! ### C51: the normal form of a server URL -/

/-- The port is not written: it is 0 or the default of the protocol -/
def noPort (proto : Bytes) (n : Nat) : Prop :=
  n = 0 ∨ (n = 80 ∧ proto = sHttp) ∨ (n = 443 ∧ proto = sHttps)

instance (p : Bytes) (n : Nat) : Decidable (noPort p n) := by unfold noPort; infer_instance

/-- `u` is a spelling of the server URL `v`: protocol `http` or `https` in any case, a host name in
any case, optionally a port, optionally a slash; `v` has protocol and host in lower case, the port
only if it matters, and at most 267 characters. -/
def Spells (u v : Bytes) : Prop :=
  ∃ p h s n sl, u = p ++ sSep ++ h ++ s ++ sl ∧ (lower p = sHttp ∨ lower p = sHttps) ∧
    IsHostName (lower h) ∧ PortSpelling s n ∧ (sl = [] ∨ sl = [47]) ∧
    v = lower p ++ sSep ++ lower h ++ (if noPort (lower p) n then [] else 58 :: natDigits n) ∧
    v.length ≤ 267

theorem colon_not_in {p : Bytes} (h : lower p = sHttp ∨ lower p = sHttps) : (58 : UInt8) ∉ p := by
  intro hm
  have : lowerC 58 ∈ lower p := List.mem_map.2 ⟨58, hm, rfl⟩
  rcases h with h | h <;> rw [h] at this <;> exact absurd this (by decide)

theorem stop_port {s : Bytes} {n : Nat} {sl : Bytes} (h : PortSpelling s n)
    (hs : sl = [] ∨ sl = [47]) : hostStop (s ++ sl) := by
  rcases h with ⟨rfl, _⟩ | ⟨ds, rfl, _⟩
  · rcases hs with rfl | rfl
    · trivial
    · exact ⟨by decide, by decide⟩
  · exact ⟨by decide, by decide⟩

theorem canon_port (p : Bytes) (n : Nat) :
    (if (if defaultPort p n then 0 else n) = 0 then ([] : Bytes)
      else 58 :: natDigits (if defaultPort p n then 0 else n)) =
    if noPort p n then [] else 58 :: natDigits n := by
  by_cases hd : defaultPort p n = true
  · have : noPort p n := by
      simp only [defaultPort, Bool.or_eq_true, Bool.and_eq_true, beq_iff_eq] at hd
      exact .inr hd
    simp [hd, this]
  · by_cases hn : n = 0
    · have : noPort p n := .inl hn
      subst hn; simp [this]
    · have : ¬ noPort p n := by
        rintro (h | h)
        · exact hn h
        · apply hd; simp only [defaultPort, Bool.or_eq_true, Bool.and_eq_true, beq_iff_eq]; exact h
      simp only [hd, Bool.false_eq_true, if_false, hn, this]

theorem canonUrl_complete {u v : Bytes} (h : Spells u v) : canonUrl u = .ok v := by
  obtain ⟨p, h, s, n, sl, rfl, hp, hh, hs, hsl, rfl, hlen⟩ := h
  have h1 : scanProto (p ++ sSep ++ h ++ s ++ sl) = .ok (lower p, h ++ (s ++ sl)) := by
    unfold scanProto
    have := findSub_first (x := 58) (q := [47, 47]) (a := p) (h ++ (s ++ sl)) (colon_not_in hp)
    have e : p ++ sSep ++ h ++ s ++ sl = p ++ 58 :: [47, 47] ++ (h ++ (s ++ sl)) := by
      simp [sSep]
    rw [e, show sSep = 58 :: [47, 47] from rfl, this]
    rcases hp with hp | hp
    · simp only [hp, if_true]
    · have : ¬ lower p = sHttp := by rw [hp]; decide
      simp only [hp, show ¬ sHttps = sHttp by decide, if_true, if_false]
  obtain ⟨hf, hc⟩ := hostName_iff.1 hh
  have h2 := scanHost_complete (h := h) (dot := false) hf (stop_port hs hsl)
  have h3 := scanPort_complete hs hsl
  have h4 : dropSlash sl = [] := by rcases hsl with rfl | rfl <;> rfl
  unfold canonUrl parseUrl
  simp only [h1, Out.bind_ok, h2, if_neg hc, h3, h4, ne_eq, not_true_eq_false, if_false]
  rw [canon_port, if_neg (by simpa [baseUrlMax] using hlen)]

theorem canonUrl_sound {u v : Bytes} (h : canonUrl u = .ok v) : Spells u v := by
  unfold canonUrl parseUrl at h
  cases hp : scanProto u with
  | err e => rw [hp] at h; cases h
  | hang => rw [hp] at h; cases h
  | ub => rw [hp] at h; cases h
  | ok pr =>
    obtain ⟨proto, r⟩ := pr
    rw [hp] at h
    simp only [Out.bind_ok] at h
    obtain ⟨p, rfl, hl, hlp⟩ : ∃ p, u = p ++ sSep ++ r ∧ (lower p = sHttp ∨ lower p = sHttps) ∧
        lower p = proto := by
      unfold scanProto at hp
      split at hp
      · rename_i p r' hf
        have := findSub_ok hf
        split at hp
        · rename_i hlp
          obtain ⟨rfl, rfl⟩ := Prod.mk.inj (Out.ok.inj hp)
          exact ⟨p, this, .inl hlp, hlp⟩
        · split at hp
          · rename_i hlp
            obtain ⟨rfl, rfl⟩ := Prod.mk.inj (Out.ok.inj hp)
            exact ⟨p, this, .inr hlp, hlp⟩
          · cases hp
      · cases hp
    subst hlp
    cases hs : scanHost false r with
    | mk x r2 =>
      rw [hs] at h
      simp only at h
      obtain ⟨hh, rfl, rfl, hform⟩ := scanHost_sound hs
      split at h
      · cases h
      · rename_i hc
        cases hq : scanPort r2 with
        | err e => rw [hq] at h; cases h
        | hang => rw [hq] at h; cases h
        | ub => rw [hq] at h; cases h
        | ok nr =>
          obtain ⟨n, r3⟩ := nr
          rw [hq] at h
          simp only [Out.bind_ok] at h
          obtain ⟨s, rfl, hps⟩ := scanPort_sound hq
          split at h
          · cases h
          · rename_i hds
            simp only [ne_eq, not_not] at hds
            simp only [Out.bind_ok] at h
            rw [canon_port] at h
            by_cases hlen : (lower p ++ sSep ++ lower hh ++
              if noPort (lower p) n then [] else 58 :: natDigits n).length > baseUrlMax
            · rw [if_pos hlen] at h; cases h
            · rw [if_neg hlen] at h
              have e := Out.ok.inj h
              refine ⟨p, hh, s, n, r3, by simp, hl, hostName_iff.2 ⟨hform, hc⟩, hps, ?_, e.symm, ?_⟩
              · cases r3 with
                | nil => exact .inl rfl
                | cons c t =>
                  right
                  unfold dropSlash at hds
                  split at hds
                  · rename_i heq
                    simp only [List.cons.injEq] at heq
                    rw [heq.1, heq.2, hds]
                  · cases hds
              · rw [← e]; simpa [baseUrlMax] using hlen

/-- C51.  `canonical_url` accepts exactly the spellings of server URLs and returns the URL they
spell.  In particular the result is the only one. -/
theorem canonical_url_iff (u v : Bytes) : canonUrl u = .ok v ↔ Spells u v :=
  ⟨canonUrl_sound, canonUrl_complete⟩

theorem lower_append (a b : Bytes) : lower (a ++ b) = lower a ++ lower b := by simp [lower]

theorem PortSpelling.lower_eq {s : Bytes} {n : Nat} (h : PortSpelling s n) : lower s = s := by
  rcases h with ⟨rfl, _⟩ | ⟨ds, rfl, _, hd, _⟩
  · rfl
  · show lowerC 58 :: lower ds = _
    have : lower ds = ds := by
      unfold lower
      conv_rhs => rw [← List.map_id ds]
      exact List.map_congr_left fun c hc => digit_not_upper c (hd c hc)
    rw [this]; rfl

/-- C51.  The case of the letters does not matter. -/
theorem canonical_url_case (u v : Bytes) (h : canonUrl u = .ok v) : canonUrl (lower u) = .ok v := by
  rw [canonical_url_iff] at *
  obtain ⟨p, h, s, n, sl, rfl, hp, hh, hs, hsl, hv, hlen⟩ := h
  refine ⟨lower p, lower h, s, n, sl, ?_, by rwa [lower_idem], by rwa [lower_idem], hs, hsl, ?_, hlen⟩
  · have : lower sl = sl := by rcases hsl with rfl | rfl <;> rfl
    simp only [lower_append, hs.lower_eq, this]; rfl
  · rw [lower_idem, lower_idem]; exact hv

/-- C51.  The normal form is stable. -/
theorem canonical_url_idem (u v : Bytes) (h : canonUrl u = .ok v) : canonUrl v = .ok v := by
  rw [canonical_url_iff] at *
  obtain ⟨p, h, s, n, sl, rfl, hp, hh, hs, hsl, hv, hlen⟩ := h
  refine ⟨lower p, lower h, if noPort (lower p) n then [] else 58 :: natDigits n,
    if noPort (lower p) n then 0 else n, [], by rw [hv]; simp, by rwa [lower_idem],
    by rwa [lower_idem], ?_, .inl rfl, ?_, hlen⟩
  · by_cases hn : noPort (lower p) n
    · simp only [if_pos hn]; exact .inl ⟨rfl, rfl⟩
    · simp only [if_neg hn]
      right
      refine ⟨_, rfl, natDigits_ne n, natDigits_digits n, (decVal_natDigits n).symm, ?_⟩
      rcases hs with ⟨_, rfl⟩ | ⟨_, _, _, _, _, h⟩
      · exact absurd (.inl rfl) hn
      · exact h
  · rw [lower_idem, lower_idem, hv]
    by_cases hn : noPort (lower p) n
    · simp [hn, show noPort (lower p) 0 from .inl rfl]
    · simp [hn]

/-- C51.  `canonical_room`: 1 to 64 letters, digits, dashes and underscores, in lower case. -/
theorem canonical_room_iff (r v : Bytes) : canonRoom r = .ok v ↔
    v = lower r ∧ r ≠ [] ∧ r.length ≤ 64 ∧ ∀ c ∈ lower r, isRoomC c = true := by
  have hl : (lower r).length = r.length := by simp [lower]
  have he : lower r = [] ↔ r = [] := by simp [lower]
  unfold canonRoom roomMax
  rw [hl]
  by_cases h1 : r.length > 64
  · rw [if_pos h1]; constructor
    · intro h; cases h
    · intro h; omega
  · by_cases h2 : lower r = []
    · rw [if_neg h1, if_pos h2]; constructor
      · intro h; cases h
      · intro h; exact absurd (he.1 h2) h.2.1
    · rw [if_neg h1, if_neg h2]
      by_cases h3 : (lower r).all isRoomC = true
      · rw [if_pos h3]
        constructor
        · intro h
          exact ⟨(Out.ok.inj h).symm, fun e => h2 (he.2 e), by omega, List.all_eq_true.1 h3⟩
        · intro h; rw [h.1]
      · rw [if_neg h3]; constructor
        · intro h; cases h
        · intro h; exact absurd (List.all_eq_true.2 h.2.2.2) h3

/-- C51.  Rooms: the case does not matter and the normal form is stable. -/
theorem canonical_room_case (r v : Bytes) (h : canonRoom r = .ok v) :
    canonRoom (lower r) = .ok v ∧ canonRoom v = .ok v := by
  rw [canonical_room_iff] at h
  obtain ⟨rfl, h1, h2, h3⟩ := h
  have : canonRoom (lower r) = .ok (lower r) := by
    rw [canonical_room_iff, lower_idem]
    exact ⟨rfl, by simpa [lower] using h1, by simpa [lower] using h2, h3⟩
  exact ⟨this, this⟩

/-! ### C52: full URLs -/

theorem host_chars {h : Bytes} (hh : IsHostName h) : ∀ c ∈ h, isHostC c = true ∨ c = 46 := by
  obtain ⟨_, ls, _, hl, rfl⟩ := hh
  have : ∀ {ls : List Bytes}, (∀ l ∈ ls, IsLabel l) →
      ∀ c ∈ List.intercalate [46] ls, isHostC c = true ∨ c = 46 := by
    intro ls
    induction ls with
    | nil => intro _ c hc; simp [List.intercalate] at hc
    | cons x ls ih =>
      intro hl c hc
      cases ls with
      | nil =>
        rw [intercalate_one] at hc
        exact .inl ((hl x (by simp)).2 c hc)
      | cons y ls =>
        rw [intercalate_more, List.append_assoc, List.mem_append, List.mem_append] at hc
        rcases hc with hc | hc | hc
        · exact .inl ((hl x (by simp)).2 c hc)
        · right; simpa using hc
        · exact ih (fun l h => hl l (by simp [h])) c hc
  exact this hl

/-- After the protocol a canonical URL contains no slash, and starts with four host characters. -/
theorem canonical_shape {b : Bytes} (h : canonUrl b = .ok b) :
    ∃ pre c1 c2 t, b = pre ++ [58, 47, 47] ++ c1 :: c2 :: t ∧ (47 : UInt8) ∉ pre ∧
      (47 : UInt8) ∉ c1 :: c2 :: t ∧ (63 : UInt8) ∉ b := by
  rw [canonical_url_iff] at h
  obtain ⟨p, h, s, n, sl, _, hp, hh, hs, _, hv, _⟩ := h
  have hc := host_chars hh
  have h4 := hh.1
  have hport : ∀ c ∈ (if noPort (lower p) n then [] else 58 :: natDigits n), c ≠ 47 ∧ c ≠ 63 := by
    intro c hc
    split at hc
    · simp at hc
    · rcases List.mem_cons.1 hc with rfl | hc
      · decide
      · have := natDigits_digits n c hc
        have hall : ∀ c : UInt8, isDigit c = true → c ≠ 47 ∧ c ≠ 63 := by
          apply forall_uint8; decide +kernel
        exact hall c this
  have hhost : ∀ c ∈ lower h, c ≠ 47 ∧ c ≠ 63 := by
    have : ∀ c : UInt8, isHostC c = true ∨ c = 46 → c ≠ 47 ∧ c ≠ 63 := by
      apply forall_uint8; decide +kernel
    intro c hm; exact this c (hc c hm)
  have hpre : ∀ c ∈ lower p, c ≠ 47 ∧ c ≠ 63 := by
    rcases hp with hp | hp <;> rw [hp] <;> decide
  match hq : lower h, h4 with
  | c1 :: c2 :: t, _ =>
    refine ⟨lower p, c1, c2, t ++ (if noPort (lower p) n then [] else 58 :: natDigits n),
      by rw [hv, hq]; simp [sSep], ?_, ?_, ?_⟩
    · intro hm; exact (hpre _ hm).1 rfl
    · rw [← List.cons_append, ← List.cons_append, ← hq]
      intro hm
      rcases List.mem_append.1 hm with hm | hm
      · exact (hhost _ hm).1 rfl
      · exact (hport _ hm).1 rfl
    · rw [hv]
      intro hm
      rcases List.mem_append.1 hm with hm | hm
      · rcases List.mem_append.1 hm with hm | hm
        · rcases List.mem_append.1 hm with hm | hm
          · exact (hpre _ hm).2 rfl
          · revert hm; decide
        · exact (hhost _ hm).2 rfl
      · exact (hport _ hm).2 rfl

theorem room_chars {r v : Bytes} (h : canonRoom r = .ok v) : ∀ c ∈ r, isRoomC (lowerC c) = true := by
  rw [canonical_room_iff] at h
  exact fun c hc => h.2.2.2 _ (List.mem_map_of_mem hc)

theorem not_room_char {r v : Bytes} (h : canonRoom r = .ok v) {c : UInt8} (hc : isRoomC (lowerC c) = false) :
    c ∉ r := fun hm => by rw [room_chars h c hm] at hc; cases hc

theorem rfindSub_skip {p : Bytes} {c : UInt8} {t : Bytes} (h : rfindSub p t = none)
    (hp : ∀ r, c :: t ≠ p ++ r) : rfindSub p (c :: t) = none := by
  have : ¬ p.isPrefixOf (c :: t) = true := by
    rw [isPrefixOf_true]; rintro ⟨r, hr⟩; exact hp r hr
  rw [rfindSub, h]; simp only [this, Bool.false_eq_true, if_false]

theorem rfindSub_skips {x : UInt8} {q : Bytes} : ∀ {a b : Bytes}, x ∉ a →
    rfindSub (x :: q) b = none → rfindSub (x :: q) (a ++ b) = none
  | [], b, _, hb => hb
  | c :: a, b, ha, hb => by
    refine rfindSub_skip (rfindSub_skips (fun h => ha (by simp [h])) hb) ?_
    intro r hr
    simp only [List.cons_append, List.cons.injEq] at hr
    exact ha (by simp [hr.1])

theorem rfindSub_r_none {pre c : Bytes} {c1 c2 : UInt8} (hpre : (47 : UInt8) ∉ pre)
    (ht : (47 : UInt8) ∉ c1 :: c2 :: c) {room : Bytes} (hr : (47 : UInt8) ∉ room) :
    rfindSub sR (pre ++ [58, 47, 47] ++ c1 :: c2 :: c ++ 47 :: room) = none := by
  have h0 : rfindSub sR (47 :: room) = none := by
    refine rfindSub_skip (rfindSub_none hr) ?_
    intro r e
    simp only [sR, List.cons_append, List.cons.injEq] at e
    exact hr (by rw [e.2]; simp)
  have h1 : rfindSub sR (c1 :: c2 :: c ++ 47 :: room) = none := rfindSub_skips ht h0
  have h2 : rfindSub sR (47 :: (c1 :: c2 :: c ++ 47 :: room)) = none := by
    refine rfindSub_skip h1 ?_
    intro r e
    simp only [sR, List.cons_append, List.cons.injEq] at e
    exact ht (by simp [e.2.2.1])
  have h3 : rfindSub sR (47 :: 47 :: (c1 :: c2 :: c ++ 47 :: room)) = none := by
    refine rfindSub_skip h2 ?_
    intro r e
    simp only [sR, List.cons_append, List.cons.injEq] at e
    exact absurd e.2.1 (by decide)
  have h4 := rfindSub_skips (a := pre ++ [58]) (by simp [hpre]) h3
  have e : pre ++ [58, 47, 47] ++ c1 :: c2 :: c ++ 47 :: room =
      pre ++ [58] ++ 47 :: 47 :: (c1 :: c2 :: c ++ 47 :: room) := by simp
  rw [e]; exact h4

theorem splitRoom_full {b r v : Bytes} (hb : canonUrl b = .ok b) (hr : canonRoom r = .ok v) :
    splitRoom (b ++ 47 :: r) = (b, r) := by
  obtain ⟨pre, c1, c2, t, e, h1, h2, _⟩ := canonical_shape hb
  have hr' := not_room_char hr (c := 47) (by decide)
  unfold splitRoom
  have hn := rfindSub_r_none h1 h2 hr'
  rw [← e] at hn
  have hl := rfindSub_last (x := 47) (q := []) b (b := r) (by simp) hr'
  have e2 : b ++ [47] ++ r = b ++ 47 :: r := by simp
  rw [e2] at hl
  simp only [hn, hl]

theorem splitRoom_r {b r v : Bytes} (hr : canonRoom r = .ok v) :
    splitRoom (b ++ sR ++ r) = (b, r) := by
  have hr' := not_room_char hr (c := 47) (by decide)
  have : rfindSub sR (b ++ sR ++ r) = some (b, r) := by
    have hp : List.isPrefixOf sR (47 :: ([114, 47] ++ r)) = true := isPrefixOf_true.2 ⟨r, rfl⟩
    have := rfindSub_append (a := b) (p := sR) (v := sR ++ r) (x := []) (y := r) (by
      show rfindSub sR (47 :: 114 :: 47 :: r) = _
      have h1 : rfindSub sR (47 :: r) = none := by
        refine rfindSub_skip (rfindSub_none hr') ?_
        intro q e
        simp only [sR, List.cons_append, List.cons.injEq] at e
        exact hr' (by rw [e.2]; simp)
      have h2 : rfindSub sR (114 :: 47 :: r) = none := by
        refine rfindSub_skip h1 ?_
        intro q e
        simp only [sR, List.cons_append, List.cons.injEq] at e
        exact absurd e.1 (by decide)
      have hp' : sR.isPrefixOf (47 :: 114 :: 47 :: r) = true := hp
      rw [rfindSub, h2]
      simp only [hp', if_true]; rfl)
    simpa using this
  unfold splitRoom; simp only [this]

theorem question_not_in_hex (pk : Bytes) : (63 : UInt8) ∉ toHex pk := by
  intro h
  have h1 := toHex_isHex pk
  simp only [isHex, Bool.and_eq_true, List.all_eq_true] at h1
  exact absurd (h1.2 _ h) (by decide)

theorem splitPubkey_full (K : Codecs) (a pk : Bytes) (hpk : pk.length = 32) :
    K.splitPubkey (a ++ sQuery ++ toHex pk) = .ok (a, some pk) := by
  have h1 : rfindSub sQuery (a ++ sQuery ++ toHex pk) = some (a, toHex pk) :=
    rfindSub_last (x := 63) (q := [112, 117, 98, 108, 105, 99, 95, 107, 101, 121, 61]) a (by decide)
      (question_not_in_hex pk)
  have h2 : K.decodePubkey (toHex pk) = .ok pk := by
    unfold Codecs.decodePubkey
    rw [if_pos ⟨by rw [toHex_length, hpk], toHex_isHex pk⟩, fromHex_toHex]
  unfold Codecs.splitPubkey
  simp only [h1, h2, Out.bind_ok]

theorem splitPubkey_none (K : Codecs) {a : Bytes} (h : (63 : UInt8) ∉ a) :
    K.splitPubkey a = .ok (a, none) := by
  unfold Codecs.splitPubkey
  have : rfindSub sQuery a = none := rfindSub_none h
  simp only [this]

/-- C52.  Parsing the full URL made from a server URL in normal form, any valid room (as spelled) and a
32-byte key gives them back; so does parsing the `/r/` variant; and the buffer of the C interface
is large enough to write it. -/
theorem full_url_roundtrip (K : Codecs) {b r v pk : Bytes} (hb : canonUrl b = .ok b)
    (hr : canonRoom r = .ok v) (hpk : pk.length = 32) :
    K.parseFull (fullUrl b r pk) = .ok (b, r, pk) ∧
    K.parseFull (b ++ sR ++ r ++ sQuery ++ toHex pk) = .ok (b, r, pk) ∧
    K.parsePartial (b ++ 47 :: r) = .ok (b, r, none) ∧
    K.parsePartial (b ++ sR ++ r) = .ok (b, r, none) ∧
    cFullUrl b r pk = .ok (fullUrl b r pk) := by
  obtain ⟨_, _, _, _, _, _, _, hq⟩ := canonical_shape hb
  have hrq := not_room_char hr (c := 63) (by decide)
  have e : fullUrl b r pk = (b ++ 47 :: r) ++ sQuery ++ toHex pk := rfl
  refine ⟨?_, ?_, ?_, ?_, ?_⟩
  · rw [e]
    unfold Codecs.parseFull Codecs.parsePartial
    rw [splitPubkey_full K _ pk hpk]
    simp only [Out.bind_ok, splitRoom_full hb hr, hb]
  · unfold Codecs.parseFull Codecs.parsePartial
    rw [splitPubkey_full K _ pk hpk]
    simp only [Out.bind_ok, splitRoom_r hr, hb]
  · unfold Codecs.parsePartial
    rw [splitPubkey_none K (by simp [hq, hrq])]
    simp only [Out.bind_ok, splitRoom_full hb hr, hb]
  · unfold Codecs.parsePartial
    rw [splitPubkey_none K (by simp [hq, hrq, sR])]
    simp only [Out.bind_ok, splitRoom_r hr, hb]
  · have h1 : b.length ≤ 267 := by
      obtain ⟨_, _, _, _, _, _, _, _, _, _, _, h⟩ := (canonical_url_iff _ _).1 hb; exact h
    have h2 := ((canonical_room_iff _ _).1 hr).2.2.1
    unfold cFullUrl
    rw [if_pos]
    simp only [fullUrl, List.length_append, List.length_cons, toHex_length, hpk, sQuery,
      List.length_nil, baseUrlMax, roomMax]
    omega

/-- "https://Ab.c:08/" → "https://ab.c:8" -/
def exUrl : Bytes := sHttps ++ sSep ++ [65, 98, 46, 99, 58, 48, 56, 47]

example : canonUrl exUrl = .ok (sHttps ++ sSep ++ [97, 98, 46, 99, 58, 56]) ∧
    canonUrl (sHttp ++ sSep ++ [97, 98, 46, 99, 58, 56, 48]) = .ok (sHttp ++ sSep ++ [97, 98, 46, 99]) ∧
    canonRoom [65, 95] = .ok [97, 95] ∧ (List.replicate 32 (7 : UInt8)).length = 32 ∧
    canonRoom [97, 95] = .ok [97, 95] ∧
    canonUrl (sHttps ++ sSep ++ [97, 98, 46, 99, 58, 56]) = .ok (sHttps ++ sSep ++ [97, 98, 46, 99, 58, 56]) := by
  decide +kernel

example : canonUrl (sHttps ++ sSep ++ [97, 46, 46, 99]) = .err .foreign ∧
    canonUrl (sHttps ++ sSep ++ [97, 98, 46, 99, 58, 54, 53, 53, 51, 54]) = .err .foreign ∧
    canonUrl (sHttps ++ sSep ++ [97, 98, 46, 99, 47, 47]) = .err .foreign := by decide +kernel

/-! ### C53: the C interface stays inside its buffers -/

/-- C53.  The part that holds: the server URL always fits, the key fits if the decoders give at most 32 bytes for
texts of the accepted lengths (`oxenc_fits` in Props/Encodings: they do), and nothing but a room that is too long can
overflow a buffer. -/
theorem c_parse_in_bounds_partial (K : Codecs)
    (h64 : ∀ s b, (s.length = 43 ∨ (s.length = 44 ∧ s.getLast? = some 61)) → K.b64 s = some b → b.length ≤ 32)
    (h32 : ∀ s b, s.length = 52 → K.b32z s = some b → b.length ≤ 32) (u : Bytes) :
    (∀ b r pk, K.parseFull u = .ok (b, r, pk) → b.length ≤ 267 ∧ pk.length ≤ 32 ∧
      canonUrl b = .ok b) ∧
    (K.cParseFull u = .ub ↔ ∃ b r pk, K.parseFull u = .ok (b, r, pk) ∧ 64 < r.length) := by
  have hdec : ∀ s k, K.decodePubkey s = .ok k → k.length ≤ 32 := by
    intro s k h
    unfold Codecs.decodePubkey at h
    split at h
    · rename_i hh
      rw [← Out.ok.inj h, fromHex_length, hh.1]
    · split at h
      · rename_i hh
        rw [← Out.ok.inj h]
        obtain ⟨b, hb⟩ := Option.isSome_iff_exists.1 hh.2
        rw [hb]
        exact h64 s b hh.1 hb
      · split at h
        · rename_i hh
          rw [← Out.ok.inj h]
          obtain ⟨b, hb⟩ := Option.isSome_iff_exists.1 hh.2
          rw [hb]
          exact h32 s b hh.1 hb
        · cases h
  have hmain : ∀ b r pk, K.parseFull u = .ok (b, r, pk) → b.length ≤ 267 ∧ pk.length ≤ 32 ∧
      canonUrl b = .ok b := by
    intro b r pk h
    unfold Codecs.parseFull Codecs.parsePartial at h
    cases hx : K.splitPubkey u with
    | err e => rw [hx] at h; cases h
    | hang => rw [hx] at h; cases h
    | ub => rw [hx] at h; cases h
    | ok x =>
      rw [hx] at h
      simp only [Out.bind_ok] at h
      cases hc : canonUrl (splitRoom x.1).1 with
      | err e => rw [hc] at h; cases h
      | hang => rw [hc] at h; cases h
      | ub => rw [hc] at h; cases h
      | ok b' =>
        rw [hc] at h
        simp only [Out.bind_ok] at h
        cases ho : x.2 with
        | none => rw [ho] at h; cases h
        | some k =>
          rw [ho] at h
          simp only [Out.ok.injEq, Prod.mk.injEq] at h
          obtain ⟨rfl, _, rfl⟩ := h
          refine ⟨?_, ?_, canonical_url_idem _ _ hc⟩
          · obtain ⟨_, _, _, _, _, _, _, _, _, _, _, h⟩ := (canonical_url_iff _ _).1 hc; exact h
          · unfold Codecs.splitPubkey at hx
            split at hx
            · rename_i a pk hr
              cases hd : K.decodePubkey pk with
              | err e => rw [hd] at hx; cases hx
              | hang => rw [hd] at hx; cases hx
              | ub => rw [hd] at hx; cases hx
              | ok k' =>
                rw [hd] at hx
                simp only [Out.bind_ok, Out.ok.injEq] at hx
                rw [← hx] at ho
                simp only [Option.some.injEq] at ho
                rw [← ho]; exact hdec _ _ hd
            · simp only [Out.ok.injEq] at hx
              rw [← hx] at ho; cases ho
  have hno : K.parseFull u ≠ .ub := by
    have c1 : ∀ s, K.decodePubkey s ≠ .ub := by
      intro s; unfold Codecs.decodePubkey; repeat' split
      all_goals simp
    have c2 : K.splitPubkey u ≠ .ub := by
      unfold Codecs.splitPubkey
      split
      · rename_i a pk hr
        cases hd : K.decodePubkey pk with
        | ub => exact absurd hd (c1 pk)
        | err e => simp
        | hang => simp
        | ok k => simp
      · simp
    have c3 : ∀ v, canonUrl v ≠ .ub := by
      intro v
      unfold canonUrl parseUrl
      cases hp : scanProto v with
      | ub => unfold scanProto at hp; repeat' split at hp
              all_goals cases hp
      | err e => simp
      | hang => simp
      | ok pr =>
        simp only [Out.bind_ok]
        split
        · simp
        · cases hq : scanPort (scanHost false pr.2).2 with
          | ub => unfold scanPort at hq; repeat' split at hq
                  all_goals cases hq
          | err e => simp
          | hang => simp
          | ok nr =>
            simp only [Out.bind_ok]
            split
            · simp
            · simp only [Out.bind_ok]
              intro hh
              repeat' split at hh
              all_goals cases hh
    unfold Codecs.parseFull Codecs.parsePartial
    cases hx : K.splitPubkey u with
    | ub => exact absurd hx c2
    | err e => simp
    | hang => simp
    | ok x =>
      simp only [Out.bind_ok]
      cases hc : canonUrl (splitRoom x.1).1 with
      | ub => exact absurd hc (c3 _)
      | err e => simp
      | hang => simp
      | ok b =>
        simp only [Out.bind_ok]
        cases x.2 <;> simp
  refine ⟨hmain, ?_⟩
  unfold Codecs.cParseFull
  cases hx : K.parseFull u with
  | ub => exact absurd hx hno
  | err e => simp
  | hang => simp
  | ok x =>
    obtain ⟨b, r, pk⟩ := x
    obtain ⟨m1, m2, _⟩ := hmain b r pk hx
    simp only [baseUrlMax, roomMax, m1, m2, true_and, and_true]
    constructor
    · intro h
      refine ⟨b, r, pk, rfl, ?_⟩
      by_contra hh
      rw [if_pos (by omega)] at h; cases h
    · rintro ⟨b', r', pk', h, hl⟩
      simp only [Out.ok.injEq, Prod.mk.injEq] at h
      obtain ⟨rfl, rfl, rfl⟩ := h
      rw [if_neg (by omega)]

/-- C53 is false of the code: the room of a URL is not checked by `parse_partial_url`, so
`community_parse_full_url` writes past the end of the caller's room buffer (`ROOM_MAX_LENGTH + 1`
bytes) for a room of 65 or more characters.  Here "https://ab.c/aaa…a?public_key=00…0". -/
theorem c_parse_overflows (K : Codecs) : ∃ u : Bytes, K.cParseFull u = .ub := by
  let b : Bytes := sHttps ++ sSep ++ [97, 98, 46, 99]
  let r : Bytes := List.replicate 65 97
  let pk : Bytes := List.replicate 32 0
  have h1 : K.splitPubkey ((b ++ 47 :: r) ++ sQuery ++ toHex pk) = .ok (b ++ 47 :: r, some pk) :=
    splitPubkey_full K _ pk rfl
  have h2 : splitRoom (b ++ 47 :: r) = (b, r) := by decide +kernel
  have h3 : canonUrl b = .ok b := by decide +kernel
  refine ⟨(b ++ 47 :: r) ++ sQuery ++ toHex pk, ?_⟩
  unfold Codecs.cParseFull Codecs.parseFull Codecs.parsePartial
  rw [h1]
  simp only [Out.bind_ok, h2, h3]
  rfl

end Verif
