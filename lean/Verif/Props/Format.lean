import Verif.Props.Wire

/-!
# The documented format of a config message (C141)

docs/config-merge-logic.md:36-132 describes the format in words.  The first half of this file is that
description as a small specification on bencoded values; it mentions neither the parser nor its helper
functions.  The theorem `accepted_iff_documented` says that the messages a client accepts are exactly
the ones that follow it, and that they are read as documented.
-/

namespace Verif

/-! ## Specification -/

mutual
/-- A bencoded value that is application data, and the value it stands for
(docs/config-merge-logic.md:36-57): integers are signed 64-bit quantities; sets have at least one
element, ascending, integers before strings; dicts have at least one key.  (The limits of 128 and 4096
bytes for keys and strings are not enforced by the code, and not part of this specification.) -/
inductive StandsFor : Bt → Val → Prop
  | int {i : Int} : -(2 ^ 63) ≤ i → i < 2 ^ 63 → StandsFor (.int i) (.scalar (.int i))
  | str {s : Bytes} : StandsFor (.str s) (.scalar (.str s))
  | set {l : List Bt} {xs : List Scalar} : l ≠ [] → ElementsAre l xs →
      xs.Pairwise (fun a b => a < b) → StandsFor (.list l) (.set xs)
  | dict {d : BtDict} {x : Dict} : d ≠ [] → DataIs d x → StandsFor (.dict d) (.dict x)
/-- The elements of a set, one by one. -/
inductive ElementsAre : List Bt → List Scalar → Prop
  | nil : ElementsAre [] []
  | int {i : Int} {l : List Bt} {xs : List Scalar} : -(2 ^ 63) ≤ i → i < 2 ^ 63 →
      ElementsAre l xs → ElementsAre (.int i :: l) (.int i :: xs)
  | str {s : Bytes} {l : List Bt} {xs : List Scalar} :
      ElementsAre l xs → ElementsAre (.str s :: l) (.str s :: xs)
/-- A dict of data: keys strictly ascending. -/
inductive DataIs : BtDict → Dict → Prop
  | nil : DataIs [] []
  | cons {k : Bytes} {v : Bt} {x : Val} {d : BtDict} {r : Dict} : (∀ p ∈ d, k < p.1) →
      StandsFor v x → DataIs d r → DataIs ((k, v) :: d) ((k, x) :: r)
end

/-- One of the two lists of a set diff.  A list of two or more elements must be an ascending list of
integers and strings.  (The code does not look into a list of one element.) -/
def ChangeList (l : List Bt) : Prop :=
  2 ≤ l.length → ∃ xs, ElementsAre l xs ∧ xs.Pairwise (fun a b => a < b)

/-- A value in a diff (docs/config-merge-logic.md:113-132): `""` for assigned, `"-"` for removed, a pair
of lists for changes of a set, a dict for changes within a dict; keys ascending. -/
inductive ChangeOk : Bt → Prop
  | assigned : ChangeOk (.str [])
  | removed : ChangeOk (.str [45])
  | set {a r : List Bt} : ChangeList a → ChangeList r → ChangeOk (.list [.list a, .list r])
  | dict {d : BtDict} : d.Pairwise (fun a b => a.1 < b.1) → (∀ p ∈ d, ChangeOk p.2) →
      ChangeOk (.dict d)

/-- The list of earlier changes (docs/config-merge-logic.md:86-102) of a message with sequence number
`cur`.  Every row begins with the sequence number of an earlier version; rows which are `lag` or more
versions behind are not looked at any further; the others are `[seqno, 32-byte hash, diff]`, ascending
by sequence number and hash. -/
structure EarlierAre (cur lag : Int) (rows : List Bt) (l : List (SH × BtDict)) : Prop where
  earlier : ∀ r ∈ rows, ∃ s rest, r = .list (.int s :: rest) ∧ -(2 ^ 63) ≤ s ∧ s < cur
  recent : rows.filter (fun r => match r with
      | .list (.int s :: _) => decide (cur - lag < s)
      | _ => true) = l.map (fun p => .list [.int p.1.1, .str p.1.2, .dict p.2])
  hashes : ∀ p ∈ l, p.1.2.length = 32
  diffs : ∀ p ∈ l, ChangeOk (.dict p.2)
  ascending : l.Pairwise (fun a b => a.1 < b.1)

/-- The keys this version of the library knows: `#`, `&`, `<`, `=` and `~`. -/
def knownKeys : List Bytes := [[35], [38], [60], [61], [126]]

/-- The top-level dict `D` is a config message in the documented format, and `m` is what it says.  `f` is
how signatures are verified, if they are required; `lag` is the number of versions a message may be
behind. -/
structure Documented (f : Option (Bytes → Bytes → Bool)) (lag : Int) (D : BtDict) (m : Msg) :
    Prop where
  /-- keys strictly ascending -/
  sorted : D.Pairwise (fun a b => a.1 < b.1)
  /-- no key before `#`: that would be a major version break -/
  noBreak : ∀ p ∈ D, [35] ≤ p.1
  /-- no key after `~` -/
  noTail : ∀ p ∈ D, p.1 ≤ [126]
  seqno : ([35], .int m.seqno) ∈ D ∧ -(2 ^ 63) ≤ m.seqno ∧ m.seqno < 2 ^ 63
  data : ∃ d, ([38], .dict d) ∈ D ∧ DataIs d m.data
  /-- the list of earlier changes, which may be left out -/
  lagged : (∃ rows, ([60], .list rows) ∈ D ∧ EarlierAre m.seqno lag rows m.lagged) ∨
    ((∀ v, ([60], v) ∉ D) ∧ m.lagged = [])
  /-- the diff, which may be left out -/
  diff : (([61], .dict m.diff) ∈ D ∧ ChangeOk (.dict m.diff)) ∨
    ((∀ v, ([61], v) ∉ D) ∧ m.diff = [])
  /-- but `&` must not be the last thing in the message, nor `<` -/
  more : ∃ p ∈ D, [61] ≤ p.1
  /-- everything else is kept (nested dicts with their keys sorted) -/
  unknown : m.unknown = (D.filter (fun p => decide (p.1 ∉ knownKeys))).map (fun p => (p.1, norm p.2))
  /-- a signature is a string of 64 bytes -/
  sig64 : ∀ v, ([126], v) ∈ D → ∃ s, v = .str s ∧ s.length = 64
  /-- if signatures are required there is a valid one, over the bytes before it -/
  signed : ∀ g, f = some g → ∃ body s, D = body ++ [([126], .str s)] ∧ g (100 :: encD body) s = true

/-! ## Proof -/

mutual
theorem standsFor_of : ∀ (b : Bt) (v : Val), parseV b = .ok v → StandsFor b v
  | .int i, v, h => by
    simp only [parseV] at h
    split at h
    · rename_i hi
      cases h
      simp only [int64Ok, Bool.and_eq_true, decide_eq_true_eq] at hi
      exact .int hi.1 hi.2
    · cases h
  | .str s, v, h => by simp only [parseV] at h; cases h; exact .str
  | .list l, v, h => by
    simp only [parseV] at h
    split at h
    · cases h
    · rename_i hne
      obtain ⟨s, hs, h'⟩ := Out.bind_eq_ok.1 h
      cases h'
      obtain ⟨rfl, h1, h2, h4⟩ := parseSet_ok hs
      refine .set (by rintro e; rw [e] at hne; exact hne rfl) ?_ h2
      clear hs h2 hne h h4
      induction s with
      | nil => exact .nil
      | cons a t ih =>
        simp only [List.all_cons, Bool.and_eq_true] at h1
        cases a with
        | int i =>
          have := h1.1
          simp only [Scalar.ok, int64Ok, Bool.and_eq_true, decide_eq_true_eq] at this
          exact .int this.1 this.2 (ih h1.2)
        | str s => exact .str (ih h1.2)
  | .dict d, v, h => by
    simp only [parseV] at h
    split at h
    · cases h
    · rename_i hne
      obtain ⟨s, hs, h⟩ := Out.bind_eq_ok.1 h
      cases h
      exact .dict (by rintro e; rw [e] at hne; exact hne rfl) (dataIs_of d none s hs)
theorem dataIs_of : ∀ (d : BtDict) (last : Option Bytes) (r : Dict), parseD last d = .ok r →
    DataIs d r
  | [], last, r, h => by simp only [parseD, Out.ok.injEq] at h; subst h; exact .nil
  | (k, v) :: t, last, r, h => by
    simp only [parseD] at h
    split at h
    · cases h
    · obtain ⟨x, hx, h⟩ := Out.bind_eq_ok.1 h
      obtain ⟨r', hr, h⟩ := Out.bind_eq_ok.1 h
      cases h
      refine .cons ?_ (standsFor_of v x hx) (dataIs_of t _ _ hr)
      obtain ⟨e, _, h3⟩ := parseD_ok t _ _ hr
      intro p hp
      rw [e, dictBt_eq_map] at hp
      obtain ⟨q, hq, rfl⟩ := List.mem_map.1 hp
      exact h3 k rfl q hq
end

theorem elements_parse {l : List Bt} {xs : List Scalar} (h : ElementsAre l xs) :
    l = xs.map Scalar.bt ∧ xs.all Scalar.ok = true := by
  induction l generalizing xs with
  | nil => cases h; exact ⟨rfl, rfl⟩
  | cons b t ih =>
    cases h with
    | int h1 h2 h3 =>
      obtain ⟨rfl, e⟩ := ih h3
      refine ⟨rfl, ?_⟩
      simp only [List.all_cons, Scalar.ok, int64Ok, Bool.and_eq_true, decide_eq_true_eq]
      exact ⟨⟨h1, h2⟩, e⟩
    | str h3 =>
      obtain ⟨rfl, e⟩ := ih h3
      exact ⟨rfl, by simp only [List.all_cons, Scalar.ok, e, Bool.true_and]⟩

mutual
theorem parse_of_standsFor : ∀ (b : Bt) (v : Val), StandsFor b v → parseV b = .ok v
  | .int i, v, h => by
    cases h with
    | int h1 h2 =>
      have : int64Ok i = true := by
        simp only [int64Ok, Bool.and_eq_true, decide_eq_true_eq]; exact ⟨h1, h2⟩
      simp only [parseV, this, if_true]
  | .str s, v, h => by cases h; rfl
  | .list l, v, h => by
    cases h with
    | set h1 h2 h3 =>
      obtain ⟨rfl, e⟩ := elements_parse h2
      simp only [parseV]
      rw [if_neg (by simpa using h1), parseSet_map e h3 (by simp)]
      rfl
  | .dict d, v, h => by
    cases h with
    | dict h1 h2 =>
      simp only [parseV]
      rw [if_neg (by simpa using h1), parse_of_dataIs d none _ h2 (by simp)]
      rfl
theorem parse_of_dataIs : ∀ (d : BtDict) (last : Option Bytes) (r : Dict), DataIs d r →
    (∀ y, last = some y → ∀ p ∈ d, y < p.1) → parseD last d = .ok r
  | [], last, r, h, _ => by cases h; rfl
  | (k, v) :: t, last, r, h, hl => by
    cases h with
    | cons h1 h2 h3 =>
      simp only [parseD]
      rw [if_neg, parse_of_standsFor v _ h2, Out.bind_ok, parse_of_dataIs t (some k) _ h3]
      · rfl
      · rintro y hy p hp; cases hy; exact h1 p hp
      · cases last with
        | none => simp [outOfOrder]
        | some y => have := hl y rfl (k, v) (by simp); simp [outOfOrder, this]
end

/-- Application data is accepted exactly if it follows the specification. -/
theorem parseD_iff {d : BtDict} {x : Dict} : parseD none d = .ok x ↔ DataIs d x :=
  ⟨dataIs_of d none x, fun h => parse_of_dataIs d none x h (by simp)⟩

/-! ### Diffs -/

theorem checkAdj_iff {l : List Bt} : checkAdj l = .ok () ↔ ChangeList l := by
  match l with
  | [] => exact ⟨fun _ h => absurd h (by simp), fun _ => rfl⟩
  | [b] => exact ⟨fun _ h => absurd h (by simp), fun _ => rfl⟩
  | a :: b :: t =>
    have hs : ∀ b : Bt, ∀ x, btScalar b = .ok (some x) → b = x.bt ∧ x.ok = true := by
      intro b x h
      cases b with
      | int i =>
        simp only [btScalar] at h
        split at h
        · rename_i hi; cases h; exact ⟨rfl, hi⟩
        · cases h
      | str s => simp only [btScalar] at h; cases h; exact ⟨rfl, rfl⟩
      | list l => simp only [btScalar] at h; cases h
      | dict d => simp only [btScalar] at h; cases h
    have hb : ∀ x : Scalar, x.ok = true → btScalar x.bt = .ok (some x) := by
      intro x h
      cases x with
      | int i => simp only [Scalar.ok] at h; simp [Scalar.bt, btScalar, h]
      | str s => rfl
    have ho : ∀ a b : Bt, checkOrder a b = .ok () ↔ ∃ x y, a = Scalar.bt x ∧ b = Scalar.bt y ∧
        x.ok = true ∧ y.ok = true ∧ x < y := by
      intro a b
      constructor
      · intro h
        unfold checkOrder at h
        obtain ⟨x, hx, h⟩ := Out.bind_eq_ok.1 h
        obtain ⟨y, hy, h⟩ := Out.bind_eq_ok.1 h
        cases x with
        | none => cases h
        | some x =>
          cases y with
          | none => cases h
          | some y =>
            dsimp only at h
            split at h
            · rename_i hlt
              obtain ⟨e1, o1⟩ := hs _ _ hx
              obtain ⟨e2, o2⟩ := hs _ _ hy
              exact ⟨x, y, e1, e2, o1, o2, hlt⟩
            · cases h
      · rintro ⟨x, y, rfl, rfl, o1, o2, hlt⟩
        unfold checkOrder
        rw [hb x o1, hb y o2]
        simp only [Out.bind_ok, hlt, if_true]
    have key : ∀ (t : List Bt) (a b : Bt), checkAdj (a :: b :: t) = .ok () ↔
        ∃ xs, ElementsAre (a :: b :: t) xs ∧ xs.Pairwise (fun a b => a < b) := by
      have he1 : ∀ (x : Scalar) (l xs), x.ok = true → ElementsAre l xs →
          ElementsAre (x.bt :: l) (x :: xs) := by
        intro x l xs h h2
        cases x with
        | int i =>
          simp only [Scalar.ok, int64Ok, Bool.and_eq_true, decide_eq_true_eq] at h
          exact .int h.1 h.2 h2
        | str s => exact .str h2
      intro t
      induction t with
      | nil =>
        intro a b
        simp only [checkAdj]
        constructor
        · intro h
          obtain ⟨u, hu, _⟩ := Out.bind_eq_ok.1 h
          obtain ⟨x, y, rfl, rfl, o1, o2, hlt⟩ := (ho a b).1 hu
          exact ⟨[x, y], he1 x _ _ o1 (he1 y _ _ o2 .nil), by simp [hlt]⟩
        · rintro ⟨xs, h1, h2⟩
          obtain ⟨e, o⟩ := elements_parse h1
          match xs with
          | [x, y] =>
            simp only [List.map_cons, List.map_nil, List.cons.injEq, and_true] at e
            simp only [List.all_cons, List.all_nil, Bool.and_eq_true, Bool.and_true] at o
            have : checkOrder a b = .ok () :=
              (ho a b).2 ⟨x, y, e.1, e.2, o.1, o.2, by simpa using h2⟩
            rw [this]; rfl
          | [] => simp at e
          | [x] => simp at e
          | x :: y :: z :: w => simp at e
      | cons c t ih =>
        intro a b
        rw [show checkAdj (a :: b :: c :: t) = (checkOrder a b >>= fun _ => checkAdj (b :: c :: t))
          from rfl]
        constructor
        · intro h
          obtain ⟨u, hu, h'⟩ := Out.bind_eq_ok.1 h
          clear h
          obtain ⟨x, y, rfl, rfl, o1, o2, hlt⟩ := (ho a b).1 hu
          obtain ⟨xs, h1, h2⟩ := (ih _ _).1 h'
          refine ⟨x :: xs, he1 x _ _ o1 h1, List.pairwise_cons.2 ⟨?_, h2⟩⟩
          obtain ⟨e, o⟩ := elements_parse h1
          cases xs with
          | nil => simp at e
          | cons y' r =>
            simp only [List.map_cons, List.cons.injEq] at e
            have hy : y = y' := by
              have := e.1
              cases y <;> cases y' <;> simp [Scalar.bt] at this <;> rw [this]
            subst hy
            intro z hz
            rcases List.mem_cons.1 hz with rfl | hz
            · exact hlt
            · exact lt_trans hlt (List.rel_of_pairwise_cons h2 hz)
        · rintro ⟨xs, h1, h2⟩
          obtain ⟨e, o⟩ := elements_parse h1
          match xs with
          | [] => simp at e
          | [x] => simp at e
          | x :: y :: r =>
            simp only [List.map_cons, List.cons.injEq] at e
            simp only [List.all_cons, Bool.and_eq_true] at o
            have h3 : checkOrder a b = .ok () :=
              (ho a b).2 ⟨x, y, e.1, e.2.1, o.1, o.2.1, List.rel_of_pairwise_cons h2 (by simp)⟩
            rw [h3, Out.bind_ok]
            apply (ih _ _).2
            refine ⟨y :: r, ?_, h2.of_cons⟩
            rw [e.2.1, e.2.2]
            have : ∀ (r : List Scalar), r.all Scalar.ok = true →
                ElementsAre (r.map Scalar.bt) r := by
              intro r
              induction r with
              | nil => intro _; exact .nil
              | cons z r ih =>
                intro h
                simp only [List.all_cons, Bool.and_eq_true] at h
                exact he1 z _ _ h.1 (ih h.2)
            exact he1 y _ _ o.2.1 (this r o.2.2)
    rw [key]
    exact ⟨fun h _ => h, fun h => h (by simp)⟩

mutual
theorem changeOk_iff : ∀ b : Bt, loadV b = .ok b ↔ ChangeOk b
  | .int i => ⟨fun h => by simp [loadV] at h, fun h => by cases h⟩
  | .str s => by
    simp only [loadV]
    constructor
    · intro h
      split at h
      · rename_i hs
        simp only [Bool.or_eq_true, decide_eq_true_eq] at hs
        rcases hs with rfl | rfl
        · exact .assigned
        · exact .removed
      · cases h
    · intro h; cases h <;> rfl
  | .list l => by
    simp only [loadV]
    constructor
    · intro h
      split at h
      · cases h
      · rename_i hl
        obtain ⟨u, hu, _⟩ := Out.bind_eq_ok.1 h
        match l with
        | [a, r] =>
          simp only [checkSubs] at hu
          obtain ⟨_, h1, hu⟩ := Out.bind_eq_ok.1 hu
          obtain ⟨_, h2, hu⟩ := Out.bind_eq_ok.1 hu
          cases a with
          | list a =>
            cases r with
            | list r => exact .set (checkAdj_iff.1 h1) (checkAdj_iff.1 h2)
            | int i => cases h2
            | str s => cases h2
            | dict d => cases h2
          | int i => cases h1
          | str s => cases h1
          | dict d => cases h1
        | [] => simp at hl
        | [x] => simp at hl
        | x :: y :: z :: w => simp at hl
    · intro h
      cases h with
      | set h1 h2 =>
        rw [if_neg (by simp)]
        simp only [checkSubs, checkSub, checkAdj_iff.2 h1, checkAdj_iff.2 h2, Out.bind_ok]
  | .dict d => by
    simp only [loadV]
    constructor
    · intro h
      obtain ⟨r, hr, _⟩ := Out.bind_eq_ok.1 h
      obtain ⟨rfl, h1, _⟩ := loadD_ok d none r hr
      exact .dict h1 (changesOk_of r none hr)
    · intro h
      cases h with
      | dict h1 h2 => rw [loadD_of_changes d none h1 h2 (by simp)]; rfl
theorem changesOk_of : ∀ (d : BtDict) (last : Option Bytes), loadD last d = .ok d →
    ∀ p ∈ d, ChangeOk p.2
  | [], _, _ => by simp
  | (k, v) :: t, last, h => by
    simp only [loadD] at h
    split at h
    · cases h
    · obtain ⟨v', hv, h⟩ := Out.bind_eq_ok.1 h
      obtain ⟨r, hr, h⟩ := Out.bind_eq_ok.1 h
      have := loadV_ok _ _ hv
      subst this
      have := (loadD_ok _ _ _ hr).1
      subst this
      intro p hp
      rcases List.mem_cons.1 hp with rfl | hp
      · exact (changeOk_iff v').1 hv
      · exact changesOk_of r _ hr p hp
theorem loadD_of_changes : ∀ (d : BtDict) (last : Option Bytes),
    d.Pairwise (fun a b => a.1 < b.1) → (∀ p ∈ d, ChangeOk p.2) →
    (∀ y, last = some y → ∀ p ∈ d, y < p.1) → loadD last d = .ok d
  | [], _, _, _, _ => rfl
  | (k, v) :: t, last, h1, h2, h3 => by
    simp only [loadD]
    rw [if_neg, (changeOk_iff v).2 (h2 (k, v) (by simp)), Out.bind_ok,
      loadD_of_changes t (some k) h1.of_cons (fun p hp => h2 p (by simp [hp]))]
    · rfl
    · rintro y hy p hp; cases hy; exact List.rel_of_pairwise_cons h1 hp
    · cases last with
      | none => simp [outOfOrder]
      | some y => have := h3 y rfl (k, v) (by simp); simp [outOfOrder, this]
end

/-- A diff is accepted exactly if it follows the specification, and kept as it is. -/
theorem loadD_iff {d d' : BtDict} : loadD none d = .ok d' ↔ d' = d ∧ ChangeOk (.dict d) := by
  constructor
  · intro h
    obtain ⟨rfl, h1, _⟩ := loadD_ok d none d' h
    exact ⟨rfl, .dict h1 (changesOk_of _ none h)⟩
  · rintro ⟨rfl, h⟩
    cases h with
    | dict h1 h2 => exact loadD_of_changes _ none h1 h2 (by simp)

/-! ### Earlier changes -/

/-- Which rows are looked at. -/
def rowRecent (cur lag : Int) : Bt → Bool
  | .list (.int s :: _) => decide (cur - lag < s)
  | _ => true

theorem earlier_iff {cur lag : Int} {rows : List Bt} {l : List (SH × BtDict)} :
    EarlierAre cur lag rows l ↔
      (∀ r ∈ rows, ∃ s rest, r = .list (.int s :: rest) ∧ -(2 ^ 63) ≤ s ∧ s < cur) ∧
      rows.filter (rowRecent cur lag) = l.map lagRow ∧ (∀ p ∈ l, p.1.2.length = 32) ∧
      (∀ p ∈ l, ChangeOk (.dict p.2)) ∧ l.Pairwise (fun a b => a.1 < b.1) := by
  have e : (fun r : Bt => match r with
      | .list (.int s :: _) => decide (cur - lag < s)
      | _ => true) = rowRecent cur lag := by
    funext r; unfold rowRecent; rfl
  constructor
  · rintro ⟨h1, h2, h3, h4, h5⟩
    rw [e] at h2
    exact ⟨h1, h2, h3, h4, h5⟩
  · rintro ⟨h1, h2, h3, h4, h5⟩
    rw [← e] at h2
    exact ⟨h1, h2, h3, h4, h5⟩

theorem parseLagged_iff {cur lag : Int} (hc : cur < 2 ^ 63) (hub : int64Ok (cur - lag) = true)
    {rows : List Bt} {last : Option SH} {l : List (SH × BtDict)} :
    parseLagged cur lag last rows = .ok l ↔
      EarlierAre cur lag rows l ∧ ∀ y, last = some y → ∀ p ∈ l, y < p.1 := by
  rw [earlier_iff]
  induction rows generalizing last l with
  | nil =>
    simp only [parseLagged, Out.ok.injEq, List.not_mem_nil, false_implies, implies_true, true_and,
      List.filter_nil]
    constructor
    · rintro rfl; simp
    · rintro ⟨⟨h, _⟩, _⟩
      cases l with
      | nil => rfl
      | cons a t => simp at h
  | cons row t ih =>
    by_cases hrow : ∃ s rest, row = .list (.int s :: rest)
    · obtain ⟨s, rest, rfl⟩ := hrow
      simp only [parseLagged]
      by_cases h64 : int64Ok s = true
      swap
      · rw [if_pos (by simpa using h64)]
        constructor
        · intro h; cases h
        · rintro ⟨⟨h1, _⟩, _⟩
          obtain ⟨s', rest', e, h2, h3⟩ := h1 _ (List.mem_cons_self ..)
          simp only [Bt.list.injEq, List.cons.injEq, Bt.int.injEq] at e
          obtain ⟨rfl, rfl⟩ := e
          simp only [int64Ok, Bool.and_eq_true, decide_eq_true_eq] at h64
          exact absurd ⟨h2, by omega⟩ h64
      have h64' := h64
      simp only [int64Ok, Bool.and_eq_true, decide_eq_true_eq] at h64'
      rw [if_neg (by simp [h64])]
      by_cases hlt : s < cur
      swap
      · rw [if_pos (by omega)]
        constructor
        · intro h; cases h
        · rintro ⟨⟨h1, _⟩, _⟩
          obtain ⟨s', rest', e, h2, h3⟩ := h1 _ (List.mem_cons_self ..)
          simp only [Bt.list.injEq, List.cons.injEq, Bt.int.injEq] at e
          obtain ⟨rfl, rfl⟩ := e
          exact absurd h3 hlt
      rw [if_neg (by omega), if_neg (by simp [hub])]
      by_cases hold : s ≤ cur - lag
      · rw [if_pos hold, ih]
        have hf : (Bt.list (.int s :: rest) :: t).filter (rowRecent cur lag) =
            t.filter (rowRecent cur lag) := by
          rw [List.filter_cons_of_neg]
          simp only [rowRecent, decide_eq_true_eq]; omega
        rw [hf]
        have h0 : (∀ r ∈ Bt.list (.int s :: rest) :: t,
            ∃ s rest, r = .list (.int s :: rest) ∧ -(2 ^ 63) ≤ s ∧ s < cur) ↔
            ∀ r ∈ t, ∃ s rest, r = Bt.list (.int s :: rest) ∧ -(2 ^ 63) ≤ s ∧ s < cur := by
          rw [List.forall_mem_cons]
          exact ⟨fun h => h.2, fun h => ⟨⟨s, rest, rfl, h64'.1, hlt⟩, h⟩⟩
        rw [h0]
      · rw [if_neg hold]
        have hf : (Bt.list (.int s :: rest) :: t).filter (rowRecent cur lag) =
            Bt.list (.int s :: rest) :: t.filter (rowRecent cur lag) := by
          rw [List.filter_cons_of_pos]
          simp only [rowRecent, decide_eq_true_eq]; omega
        rw [hf]
        have h0 : (∀ r ∈ Bt.list (.int s :: rest) :: t,
            ∃ s rest, r = .list (.int s :: rest) ∧ -(2 ^ 63) ≤ s ∧ s < cur) ↔
            ∀ r ∈ t, ∃ s rest, r = Bt.list (.int s :: rest) ∧ -(2 ^ 63) ≤ s ∧ s < cur := by
          rw [List.forall_mem_cons]
          exact ⟨fun h => h.2, fun h => ⟨⟨s, rest, rfl, h64'.1, hlt⟩, h⟩⟩
        rw [h0]
        constructor
        · intro h
          match rest, h with
          | .str hh :: rest2, h =>
            dsimp only at h
            by_cases hlen : hh.length = 32
            swap
            · rw [if_pos hlen] at h; cases h
            rw [if_neg (by simpa using hlen)] at h
            by_cases hord : outOfOrder last (toLex (s, hh) : SH) = true
            · rw [if_pos hord] at h; cases h
            rw [if_neg hord] at h
            match rest2, h with
            | .dict d :: rest3, h =>
              dsimp only at h
              obtain ⟨d', hd, h'⟩ := Out.bind_eq_ok.1 h
              clear h
              by_cases hr : rest3 = []
              swap
              · rw [if_pos hr] at h'; cases h'
              rw [if_neg (by simpa using hr)] at h'
              obtain ⟨r, hr', h2⟩ := Out.bind_eq_ok.1 h'
              clear h'
              obtain ⟨rfl, hd'⟩ := loadD_iff.1 hd
              obtain ⟨⟨a1, a2, a3, a4, a5⟩, a6⟩ := ih.1 hr'
              have := Out.ok.inj h2
              subst this
              subst hr
              refine ⟨⟨a1, ?_, ?_, ?_, ?_⟩, ?_⟩
              · rw [a2]; rfl
              · intro p hp
                rcases List.mem_cons.1 hp with rfl | hp
                · exact hlen
                · exact a3 p hp
              · intro p hp
                rcases List.mem_cons.1 hp with rfl | hp
                · exact hd'
                · exact a4 p hp
              · exact List.pairwise_cons.2 ⟨fun p hp => a6 _ rfl p hp, a5⟩
              · rintro y rfl p hp
                have hy : y < (toLex (s, hh) : SH) := by simpa [outOfOrder] using hord
                rcases List.mem_cons.1 hp with rfl | hp
                · exact hy
                · exact lt_trans hy (a6 _ rfl p hp)
            | [], h => cases h
            | .int _ :: _, h => cases h
            | .str _ :: _, h => cases h
            | .list _ :: _, h => cases h
          | [], h => cases h
          | .int _ :: _, h => cases h
          | .list _ :: _, h => cases h
          | .dict _ :: _, h => cases h
        · rintro ⟨⟨a1, a2, a3, a4, a5⟩, a6⟩
          cases l with
          | nil => simp at a2
          | cons p l' =>
            obtain ⟨sh, d⟩ := p
            simp only [List.map_cons, List.cons.injEq, lagRow, Bt.list.injEq, Bt.int.injEq] at a2
            obtain ⟨⟨rfl, rfl⟩, a2⟩ := a2
            have hsh : (toLex (sh.1, sh.2) : SH) = sh := rfl
            dsimp only
            rw [if_neg (by simpa using a3 _ (List.mem_cons_self ..)), hsh, if_neg,
              loadD_iff.2 ⟨rfl, a4 _ (List.mem_cons_self ..)⟩, Out.bind_ok, if_neg (by simp),
              ih.2 ⟨⟨a1, a2, fun p hp => a3 p (by simp [hp]), fun p hp => a4 p (by simp [hp]),
                a5.of_cons⟩, ?_⟩]
            · rfl
            · rintro y hy p hp; cases hy; exact List.rel_of_pairwise_cons a5 hp
            · cases last with
              | none => simp [outOfOrder]
              | some y =>
                have := a6 y rfl _ (List.mem_cons_self ..)
                simp [outOfOrder, this]
    · have h1 : parseLagged cur lag last (row :: t) = .err .parse := by
        cases row with
        | list l0 =>
          cases l0 with
          | nil => rfl
          | cons a b =>
            cases a with
            | int s => exact absurd ⟨s, b, rfl⟩ hrow
            | str s => rfl
            | list s => rfl
            | dict s => rfl
        | int i => rfl
        | str i => rfl
        | dict i => rfl
      rw [h1]
      constructor
      · intro h; cases h
      · rintro ⟨⟨h, _⟩, _⟩
        obtain ⟨s, rest, e, _⟩ := h _ (List.mem_cons_self ..)
        exact absurd ⟨s, rest, e⟩ hrow

/-! ### The top-level dict -/

/-- Key and value of an entry. -/
def TopEntry.kv (e : TopEntry) : Bytes × Bt := (e.key, e.val)

theorem topEntries_kv (off : Nat) (D : BtDict) : (topEntries off D).map TopEntry.kv = D := by
  induction D generalizing off with
  | nil => rfl
  | cons p t ih => obtain ⟨k, v⟩ := p; simp only [topEntries, List.map_cons, ih]; rfl

/-- What is kept of an unknown entry. -/
def keepUnk (p : Bytes × Bt) : Bytes × Bt := (p.1, norm p.2)

theorem loadUnknowns_of {prev til : Bytes} (u U : BtDict) (off : Nat) (R : List TopEntry)
    (hs : KSorted (u ++ U.map keepUnk)) (hp : ∀ p ∈ U, prev < p.1) (ht : ∀ p ∈ U, p.1 < til)
    (hR : ∀ e r, R = e :: r → ¬ e.key < til) :
    loadUnknowns prev til u (topEntries off U ++ R) = .ok (u ++ U.map keepUnk, R) := by
  induction U generalizing u off with
  | nil =>
    simp only [topEntries, List.nil_append, List.map_nil, List.append_nil]
    cases R with
    | nil => rfl
    | cons e r => simp only [loadUnknowns]; rw [if_neg (hR e r rfl)]
  | cons p t ih =>
    obtain ⟨k, v⟩ := p
    have hk1 := hp _ List.mem_cons_self
    have hk2 := ht _ List.mem_cons_self
    simp only [topEntries, List.cons_append, loadUnknowns]
    have hord : outOfOrder (u.getLast?.map (·.1)) k = false := by
      cases hu : u.getLast? with
      | none => rfl
      | some x =>
        have hx : x ∈ u := List.mem_of_getLast? hu
        have : x.1 < k := (List.pairwise_append.1 hs).2.2 x hx (keepUnk (k, v)) (by simp)
        simpa [outOfOrder] using this
    have hle : ¬ (k ≤ prev) := not_le.2 hk1
    simp only [hk2, if_true, hle, decide_false, Bool.false_or, hord, Bool.false_eq_true, if_false]
    have e : u ++ ((k, v) :: t).map keepUnk = (u ++ [(k, norm v)]) ++ t.map keepUnk := by
      simp [keepUnk]
    rw [ih (u ++ [(k, norm v)]) _ (e ▸ hs) (fun p hp' => hp p (List.mem_cons_of_mem _ hp'))
      (fun p hp' => ht p (List.mem_cons_of_mem _ hp')), e]

theorem cut_lt {X : BtDict} (h : KSorted X) (k : Bytes) : ∃ A B, X = A ++ B ∧
    (∀ p ∈ A, p.1 < k) ∧ ∀ p ∈ B, k ≤ p.1 := by
  induction X with
  | nil => exact ⟨[], [], rfl, by simp, by simp⟩
  | cons a t ih =>
    by_cases hk : a.1 < k
    · obtain ⟨A, B, e, h1, h2⟩ := ih h.tail
      exact ⟨a :: A, B, by rw [e]; rfl, by
        intro p hp
        rcases List.mem_cons.1 hp with rfl | hp
        · exact hk
        · exact h1 p hp, h2⟩
    · refine ⟨[], a :: t, rfl, by simp, ?_⟩
      intro p hp
      rcases List.mem_cons.1 hp with rfl | hp
      · exact not_lt.1 hk
      · exact le_of_lt (lt_of_le_of_lt (not_lt.1 hk) (h.head p hp))

theorem cut_eq {X : BtDict} (h : KSorted X) {k : Bytes} (hX : ∀ p ∈ X, k ≤ p.1) : ∃ A B, X = A ++ B ∧
    (A = [] ∨ ∃ v, A = [(k, v)]) ∧ ∀ p ∈ B, k < p.1 := by
  cases X with
  | nil => exact ⟨[], [], rfl, .inl rfl, by simp⟩
  | cons a t =>
    by_cases hk : a.1 = k
    · refine ⟨[a], t, rfl, .inr ⟨a.2, by rw [← hk]⟩, ?_⟩
      intro p hp
      rw [← hk]; exact h.head p hp
    · refine ⟨[], a :: t, rfl, .inl rfl, ?_⟩
      have ha : k < a.1 := lt_of_le_of_ne (hX a (by simp)) (Ne.symm hk)
      intro p hp
      rcases List.mem_cons.1 hp with rfl | hp
      · exact ha
      · exact lt_trans ha (h.head p hp)

/-- At most one entry, with key `k`. -/
def OnlyKey (k : Bytes) (A : BtDict) : Prop := A = [] ∨ ∃ v, A = [(k, v)]

/-- The nine parts of a top-level dict. -/
structure Parts (D S P1 T P2 L P3 F P4 G : BtDict) : Prop where
  eq : D = S ++ (P1 ++ (T ++ (P2 ++ (L ++ (P3 ++ (F ++ (P4 ++ G)))))))
  s : OnlyKey kSeq S
  p1 : ∀ p ∈ P1, kSeq < p.1 ∧ p.1 < kData
  t : OnlyKey kData T
  p2 : ∀ p ∈ P2, kData < p.1 ∧ p.1 < kLag
  l : OnlyKey kLag L
  p3 : ∀ p ∈ P3, kLag < p.1 ∧ p.1 < kDiff
  f : OnlyKey kDiff F
  p4 : ∀ p ∈ P4, kDiff < p.1 ∧ p.1 < kSig
  g : OnlyKey kSig G

theorem exists_parts {D : BtDict} (h : KSorted D) (h1 : ∀ p ∈ D, kSeq ≤ p.1)
    (h2 : ∀ p ∈ D, p.1 ≤ kSig) : ∃ S P1 T P2 L P3 F P4 G, Parts D S P1 T P2 L P3 F P4 G := by
  obtain ⟨S, X1, rfl, hS, b1⟩ := cut_eq h h1
  have s1 := (List.pairwise_append.1 h).2.1
  obtain ⟨P1, X2, rfl, c2, b2⟩ := cut_lt s1 kData
  have s2 := (List.pairwise_append.1 s1).2.1
  obtain ⟨T, X3, rfl, hT, b3⟩ := cut_eq s2 b2
  have s3 := (List.pairwise_append.1 s2).2.1
  obtain ⟨P2, X4, rfl, c4, b4⟩ := cut_lt s3 kLag
  have s4 := (List.pairwise_append.1 s3).2.1
  obtain ⟨L, X5, rfl, hL, b5⟩ := cut_eq s4 b4
  have s5 := (List.pairwise_append.1 s4).2.1
  obtain ⟨P3, X6, rfl, c6, b6⟩ := cut_lt s5 kDiff
  have s6 := (List.pairwise_append.1 s5).2.1
  obtain ⟨F, X7, rfl, hF, b7⟩ := cut_eq s6 b6
  have s7 := (List.pairwise_append.1 s6).2.1
  obtain ⟨P4, X8, rfl, c8, b8⟩ := cut_lt s7 kSig
  have s8 := (List.pairwise_append.1 s7).2.1
  obtain ⟨G, X9, rfl, hG, b9⟩ := cut_eq s8 b8
  have : X9 = [] := by
    cases X9 with
    | nil => rfl
    | cons a t =>
      exact absurd (h2 a (by simp)) (not_le.2 (b9 a (by simp)))
  subst this
  exact ⟨S, P1, T, P2, L, P3, F, P4, G, by simp, hS,
    fun p hp => ⟨b1 p (by simp [hp]), c2 p hp⟩, hT,
    fun p hp => ⟨b3 p (by simp [hp]), c4 p hp⟩, hL,
    fun p hp => ⟨b5 p (by simp [hp]), c6 p hp⟩, hF,
    fun p hp => ⟨b7 p (by simp [hp]), c8 p hp⟩, hG⟩

set_option linter.unusedSimpArgs false in
theorem Parts.lookup {D S P1 T P2 L P3 F P4 G : BtDict} (h : Parts D S P1 T P2 L P3 F P4 G) :
    (∀ v, (kSeq, v) ∈ D ↔ (kSeq, v) ∈ S) ∧ (∀ v, (kData, v) ∈ D ↔ (kData, v) ∈ T) ∧
    (∀ v, (kLag, v) ∈ D ↔ (kLag, v) ∈ L) ∧ (∀ v, (kDiff, v) ∈ D ↔ (kDiff, v) ∈ F) ∧
    (∀ v, (kSig, v) ∈ D ↔ (kSig, v) ∈ G) ∧
    ((∃ p ∈ D, kDiff ≤ p.1) ↔ F ++ (P4 ++ G) ≠ []) ∧
    D.filter (fun p => decide (p.1 ∉ knownKeys)) = P1 ++ (P2 ++ (P3 ++ P4)) := by
  have c1 : kSeq < kData := by decide
  have c2 : kData < kLag := by decide
  have c3 : kLag < kDiff := by decide
  have c4 : kDiff < kSig := by decide
  have hkey : ∀ {k : Bytes} {A : BtDict}, OnlyKey k A → ∀ p ∈ A, p.1 = k := by
    rintro k A (rfl | ⟨v, rfl⟩) p hp
    · cases hp
    · rw [List.mem_singleton.1 hp]
  have kS := hkey h.s
  have kT := hkey h.t
  have kL := hkey h.l
  have kF := hkey h.f
  have kG := hkey h.g
  have mem : ∀ p, p ∈ D ↔ p ∈ S ∨ p ∈ P1 ∨ p ∈ T ∨ p ∈ P2 ∨ p ∈ L ∨ p ∈ P3 ∨ p ∈ F ∨ p ∈ P4 ∨
      p ∈ G := by
    intro p; rw [h.eq]; simp only [List.mem_append]
  have d12 : kSeq < kLag := by decide
  have d13 : kSeq < kDiff := by decide
  have d14 : kSeq < kSig := by decide
  have d23 : kData < kDiff := by decide
  have d24 : kData < kSig := by decide
  have d34 : kLag < kSig := by decide
  refine ⟨fun v => ?_, fun v => ?_, fun v => ?_, fun v => ?_, fun v => ?_, ?_, ?_⟩
  · rw [mem]
    constructor
    · rintro (hp | hp | hp | hp | hp | hp | hp | hp | hp)
      · exact hp
      · exact absurd (h.p1 _ hp).1 (lt_irrefl _)
      · exact absurd (kT _ hp) (by simp [kSeq, kData, kLag, kDiff, kSig])
      · exact absurd (lt_trans c1 (h.p2 _ hp).1) (lt_irrefl _)
      · exact absurd (kL _ hp) (by simp [kSeq, kData, kLag, kDiff, kSig])
      · exact absurd (lt_trans d12 (h.p3 _ hp).1) (lt_irrefl _)
      · exact absurd (kF _ hp) (by simp [kSeq, kData, kLag, kDiff, kSig])
      · exact absurd (lt_trans d13 (h.p4 _ hp).1) (lt_irrefl _)
      · exact absurd (kG _ hp) (by simp [kSeq, kData, kLag, kDiff, kSig])
    · exact fun hp => .inl hp
  · rw [mem]
    constructor
    · rintro (hp | hp | hp | hp | hp | hp | hp | hp | hp)
      · exact absurd (kS _ hp) (by simp [kSeq, kData, kLag, kDiff, kSig])
      · exact absurd (h.p1 _ hp).2 (lt_irrefl _)
      · exact hp
      · exact absurd (h.p2 _ hp).1 (lt_irrefl _)
      · exact absurd (kL _ hp) (by simp [kSeq, kData, kLag, kDiff, kSig])
      · exact absurd (lt_trans c2 (h.p3 _ hp).1) (lt_irrefl _)
      · exact absurd (kF _ hp) (by simp [kSeq, kData, kLag, kDiff, kSig])
      · exact absurd (lt_trans d23 (h.p4 _ hp).1) (lt_irrefl _)
      · exact absurd (kG _ hp) (by simp [kSeq, kData, kLag, kDiff, kSig])
    · exact fun hp => .inr (.inr (.inl hp))
  · rw [mem]
    constructor
    · rintro (hp | hp | hp | hp | hp | hp | hp | hp | hp)
      · exact absurd (kS _ hp) (by simp [kSeq, kData, kLag, kDiff, kSig])
      · exact absurd (lt_trans (h.p1 _ hp).2 c2) (lt_irrefl _)
      · exact absurd (kT _ hp) (by simp [kSeq, kData, kLag, kDiff, kSig])
      · exact absurd (h.p2 _ hp).2 (lt_irrefl _)
      · exact hp
      · exact absurd (h.p3 _ hp).1 (lt_irrefl _)
      · exact absurd (kF _ hp) (by simp [kSeq, kData, kLag, kDiff, kSig])
      · exact absurd (lt_trans c3 (h.p4 _ hp).1) (lt_irrefl _)
      · exact absurd (kG _ hp) (by simp [kSeq, kData, kLag, kDiff, kSig])
    · exact fun hp => .inr (.inr (.inr (.inr (.inl hp))))
  · rw [mem]
    constructor
    · rintro (hp | hp | hp | hp | hp | hp | hp | hp | hp)
      · exact absurd (kS _ hp) (by simp [kSeq, kData, kLag, kDiff, kSig])
      · exact absurd (lt_trans (h.p1 _ hp).2 d23) (lt_irrefl _)
      · exact absurd (kT _ hp) (by simp [kSeq, kData, kLag, kDiff, kSig])
      · exact absurd (lt_trans (h.p2 _ hp).2 c3) (lt_irrefl _)
      · exact absurd (kL _ hp) (by simp [kSeq, kData, kLag, kDiff, kSig])
      · exact absurd (h.p3 _ hp).2 (lt_irrefl _)
      · exact hp
      · exact absurd (h.p4 _ hp).1 (lt_irrefl _)
      · exact absurd (kG _ hp) (by simp [kSeq, kData, kLag, kDiff, kSig])
    · exact fun hp => .inr (.inr (.inr (.inr (.inr (.inr (.inl hp))))))
  · rw [mem]
    constructor
    · rintro (hp | hp | hp | hp | hp | hp | hp | hp | hp)
      · exact absurd (kS _ hp) (by simp [kSeq, kData, kLag, kDiff, kSig])
      · exact absurd (lt_trans (h.p1 _ hp).2 d24) (lt_irrefl _)
      · exact absurd (kT _ hp) (by simp [kSeq, kData, kLag, kDiff, kSig])
      · exact absurd (lt_trans (h.p2 _ hp).2 d34) (lt_irrefl _)
      · exact absurd (kL _ hp) (by simp [kSeq, kData, kLag, kDiff, kSig])
      · exact absurd (lt_trans (h.p3 _ hp).2 c4) (lt_irrefl _)
      · exact absurd (kF _ hp) (by simp [kSeq, kData, kLag, kDiff, kSig])
      · exact absurd (h.p4 _ hp).2 (lt_irrefl _)
      · exact hp
    · exact fun hp => .inr (.inr (.inr (.inr (.inr (.inr (.inr (.inr hp)))))))
  · constructor
    · rintro ⟨p, hp, hk⟩ e
      simp only [List.append_eq_nil_iff] at e
      obtain ⟨rfl, rfl, rfl⟩ := e
      rcases (mem p).1 hp with hp | hp | hp | hp | hp | hp | hp | hp | hp
      · rw [kS _ hp] at hk; exact absurd hk (by decide)
      · exact absurd (lt_of_le_of_lt hk (lt_trans (h.p1 _ hp).2 d23)) (lt_irrefl _)
      · rw [kT _ hp] at hk; exact absurd hk (by decide)
      · exact absurd (lt_of_le_of_lt hk (lt_trans (h.p2 _ hp).2 c3)) (lt_irrefl _)
      · rw [kL _ hp] at hk; exact absurd hk (by decide)
      · exact absurd (lt_of_le_of_lt hk (h.p3 _ hp).2) (lt_irrefl _)
      · cases hp
      · cases hp
      · cases hp
    · intro hne
      obtain ⟨p, hp⟩ := List.exists_mem_of_ne_nil _ hne
      simp only [List.mem_append] at hp
      refine ⟨p, (mem p).2 (by tauto), ?_⟩
      rcases hp with hp | hp | hp
      · exact le_of_eq (kF _ hp).symm
      · exact le_of_lt (h.p4 _ hp).1
      · rw [kG _ hp]; decide
  · have f1 : ∀ {A : BtDict} {k : Bytes}, k ∈ knownKeys → (∀ p ∈ A, p.1 = k) →
        A.filter (fun p => decide (p.1 ∉ knownKeys)) = [] := by
      intro A k hk hA
      rw [List.filter_eq_nil_iff]
      intro p hp
      rw [hA p hp]; simp [hk]
    have f2 : ∀ {A : BtDict} {i j : Bytes}, (∀ p ∈ A, i < p.1 ∧ p.1 < j) →
        (∀ k ∈ knownKeys, k ≤ i ∨ j ≤ k) → A.filter (fun p => decide (p.1 ∉ knownKeys)) = A := by
      intro A i j hA hk
      rw [List.filter_eq_self]
      intro p hp
      simp only [decide_eq_true_eq]
      intro hc
      rcases hk _ hc with h1 | h1
      · exact absurd (lt_of_le_of_lt h1 (hA p hp).1) (lt_irrefl _)
      · exact absurd (lt_of_le_of_lt h1 (hA p hp).2) (lt_irrefl _)
    rw [h.eq]
    simp only [List.filter_append]
    rw [f1 (k := kSeq) (by decide) kS, f1 (k := kData) (by decide) kT, f1 (k := kLag) (by decide) kL,
      f1 (k := kDiff) (by decide) kF, f1 (k := kSig) (by decide) kG, f2 h.p1 (by decide),
      f2 h.p2 (by decide), f2 h.p3 (by decide), f2 h.p4 (by decide)]
    simp

theorem mem_topEntries {off : Nat} {D : BtDict} {e : TopEntry} (h : e ∈ topEntries off D) :
    e.kv ∈ D := by
  have := List.mem_map_of_mem (f := TopEntry.kv) h
  rwa [topEntries_kv] at this

theorem takeSeq_only {o : Nat} {S : BtDict} {R es : List TopEntry} {s : Int} (hS : OnlyKey kSeq S)
    (hR : ∀ e ∈ R, e.key ≠ kSeq) :
    takeSeq (topEntries o S ++ R) = .ok (s, es) ↔
      es = R ∧ S = [(kSeq, .int s)] ∧ int64Ok s = true := by
  rcases hS with rfl | ⟨v, rfl⟩
  · constructor
    · intro h
      obtain ⟨_, off, e⟩ := takeSeq_ok h
      have e' : R = ⟨off, kSeq, .int s⟩ :: es := e
      exact absurd rfl (hR _ (e' ▸ List.mem_cons_self ..))
    · rintro ⟨_, e, _⟩; cases e
  · constructor
    · intro h
      obtain ⟨h1, off, e⟩ := takeSeq_ok h
      simp only [topEntries, List.cons_append, List.nil_append, List.cons.injEq,
        TopEntry.mk.injEq] at e
      exact ⟨e.2.symm, by rw [e.1.2.2], h1⟩
    · rintro ⟨rfl, e, h1⟩
      simp only [List.cons.injEq, Prod.mk.injEq, and_true, true_and] at e
      subst e
      simp [topEntries, takeSeq, h1]

theorem takeData_only {o : Nat} {T : BtDict} {R es : List TopEntry} {x : Dict}
    (hT : OnlyKey kData T) (hR : ∀ e ∈ R, e.key ≠ kData) :
    takeData (topEntries o T ++ R) = .ok (x, es) ↔
      es = R ∧ ∃ d, T = [(kData, .dict d)] ∧ DataIs d x := by
  rcases hT with rfl | ⟨v, rfl⟩
  · constructor
    · intro h
      obtain ⟨_, off, e⟩ := takeData_ok h
      have e' : R = ⟨off, kData, .dict (dictBt x)⟩ :: es := e
      exact absurd rfl (hR _ (e' ▸ List.mem_cons_self ..))
    · rintro ⟨_, d, e, _⟩; cases e
  · constructor
    · intro h
      obtain ⟨h1, off, e⟩ := takeData_ok h
      simp only [topEntries, List.cons_append, List.nil_append, List.cons.injEq,
        TopEntry.mk.injEq] at e
      exact ⟨e.2.symm, dictBt x, by rw [e.1.2.2], parseD_iff.1 (parseD_bt x none h1 (by simp))⟩
    · rintro ⟨rfl, d, e, h1⟩
      simp only [List.cons.injEq, Prod.mk.injEq, and_true, true_and] at e
      subst e
      simp only [topEntries, List.cons_append, List.nil_append, takeData, if_true]
      rw [parseD_iff.2 h1]; rfl

theorem takeLag_only {cur lag : Int} {o : Nat} {L : BtDict} {R es : List TopEntry}
    {l : List (SH × BtDict)} (hL : OnlyKey kLag L) (hR : ∀ e ∈ R, e.key ≠ kLag) :
    takeLag cur lag (topEntries o L ++ R) = .ok (l, es) ↔
      es = R ∧ ((∃ rows, L = [(kLag, .list rows)] ∧ parseLagged cur lag none rows = .ok l) ∨
        (L = [] ∧ R ≠ [] ∧ l = [])) := by
  rcases hL with rfl | ⟨v, rfl⟩
  · simp only [topEntries, List.nil_append]
    cases R with
    | nil =>
      constructor
      · intro h; cases h
      · rintro ⟨_, ⟨_, h, _⟩ | ⟨_, h, _⟩⟩
        · cases h
        · exact absurd rfl h
    | cons e r =>
      simp only [takeLag]
      rw [if_neg (hR e (by simp))]
      constructor
      · intro h; cases h; exact ⟨rfl, .inr ⟨trivial, by simp, rfl⟩⟩
      · rintro ⟨rfl, ⟨_, h, _⟩ | ⟨_, _, rfl⟩⟩
        · cases h
        · rfl
  · simp only [topEntries, List.cons_append, List.nil_append, takeLag, if_true]
    constructor
    · intro h
      cases v with
      | list rows =>
        obtain ⟨x, hx, h2⟩ := Out.bind_eq_ok.1 h
        cases h2
        exact ⟨rfl, .inl ⟨rows, rfl, hx⟩⟩
      | int i => cases h
      | str i => cases h
      | dict i => cases h
    · rintro ⟨rfl, ⟨rows, h, h2⟩ | ⟨h, _⟩⟩
      · simp only [List.cons.injEq, Prod.mk.injEq, and_true, true_and] at h
        subst h
        dsimp only
        rw [h2]; rfl
      · cases h

theorem takeDiff_only {o : Nat} {F : BtDict} {R es : List TopEntry} {d : BtDict}
    (hF : OnlyKey kDiff F) (hR : ∀ e ∈ R, e.key ≠ kDiff) :
    takeDiff (topEntries o F ++ R) = .ok (d, es) ↔
      es = R ∧ ((F = [(kDiff, .dict d)] ∧ ChangeOk (.dict d)) ∨ (F = [] ∧ R ≠ [] ∧ d = [])) := by
  rcases hF with rfl | ⟨v, rfl⟩
  · simp only [topEntries, List.nil_append]
    cases R with
    | nil =>
      constructor
      · intro h; cases h
      · rintro ⟨_, ⟨h, _⟩ | ⟨_, h, _⟩⟩
        · cases h
        · exact absurd rfl h
    | cons e r =>
      simp only [takeDiff]
      rw [if_neg (hR e (by simp))]
      constructor
      · intro h; cases h; exact ⟨rfl, .inr ⟨trivial, by simp, rfl⟩⟩
      · rintro ⟨rfl, ⟨h, _⟩ | ⟨_, _, rfl⟩⟩
        · cases h
        · rfl
  · simp only [topEntries, List.cons_append, List.nil_append, takeDiff, if_true]
    constructor
    · intro h
      cases v with
      | dict rows =>
        obtain ⟨x, hx, h2⟩ := Out.bind_eq_ok.1 h
        cases h2
        obtain ⟨rfl, hc⟩ := loadD_iff.1 hx
        exact ⟨rfl, .inl ⟨rfl, hc⟩⟩
      | int i => cases h
      | str i => cases h
      | list i => cases h
    · rintro ⟨rfl, ⟨h, h2⟩ | ⟨h, _⟩⟩
      · simp only [List.cons.injEq, Prod.mk.injEq, and_true, true_and] at h
        subst h
        dsimp only
        rw [loadD_iff.2 ⟨rfl, h2⟩]; rfl
      · cases h

theorem verifySig_only {env : Env} {trust : Bool} {bs : Bytes} {o : Nat} {G : BtDict}
    {vs : Option Bytes} (hG : OnlyKey kSig G) :
    verifySig env trust bs (topEntries o G) = .ok vs ↔
      (∀ v, (kSig, v) ∈ G → ∃ s, v = .str s ∧ s.length = 64) ∧
      (∀ g, env.verifier = some g → ∃ s, G = [(kSig, .str s)] ∧ g (bs.take o) s = true) ∧
      (∀ s, vs = some s ↔ (env.verifier.isSome = true ∨ trust = true) ∧ (kSig, .str s) ∈ G) := by
  rcases hG with rfl | ⟨v, rfl⟩
  · simp only [topEntries, verifySig]
    cases hv : env.verifier with
    | none =>
      simp only [Option.isSome_none, Bool.false_eq_true, if_false, List.not_mem_nil]
      constructor
      · intro h; cases h; simp
      · rintro ⟨_, _, h⟩
        cases vs with
        | none => rfl
        | some s => simp at h
    | some g =>
      simp only [Option.isSome_some, if_true]
      constructor
      · intro h; cases h
      · rintro ⟨_, h, _⟩
        obtain ⟨s, e, _⟩ := h g rfl
        cases e
  · simp only [topEntries, verifySig, if_true]
    have hmem : ∀ w, (kSig, w) ∈ [(kSig, v)] ↔ w = v := by intro w; simp
    simp only [hmem]
    cases v with
    | int i => 
      constructor
      · intro h; cases h
      · rintro ⟨h, _⟩; obtain ⟨s, e, _⟩ := h _ rfl; cases e
    | list i => 
      constructor
      · intro h; cases h
      · rintro ⟨h, _⟩; obtain ⟨s, e, _⟩ := h _ rfl; cases e
    | dict i => 
      constructor
      · intro h; cases h
      · rintro ⟨h, _⟩; obtain ⟨s, e, _⟩ := h _ rfl; cases e
    | str sig =>
      dsimp only
      by_cases hl : sig.length = 64
      swap
      · rw [if_pos hl]
        constructor
        · intro h; cases h
        · rintro ⟨h, _⟩
          obtain ⟨s, e, h⟩ := h _ rfl
          cases e
          exact absurd h hl
      rw [if_neg (by simpa using hl)]
      have hsome : ∀ x : Option Bytes, ∀ b : Prop, (∀ s, x = some s ↔ b ∧ Bt.str s = Bt.str sig) ↔
          ((b → x = some sig) ∧ (¬ b → x = none)) := by
        intro x b
        constructor
        · intro h
          refine ⟨fun hb => (h sig).2 ⟨hb, rfl⟩, fun hb => ?_⟩
          cases x with
          | none => rfl
          | some s => exact absurd ((h s).1 rfl).1 hb
        · rintro ⟨h1, h2⟩ s
          constructor
          · intro e
            by_cases hb : b
            · rw [h1 hb] at e; cases e; exact ⟨hb, rfl⟩
            · rw [h2 hb] at e; cases e
          · rintro ⟨hb, e⟩
            cases e; exact h1 hb
      rw [hsome]
      cases hv : env.verifier with
      | none =>
        simp only [Option.isSome_none, Bool.false_eq_true, false_or]
        constructor
        · intro h
          have := Out.ok.inj h
          subst this
          refine ⟨fun w hw => ⟨sig, hw, hl⟩, by simp, ?_, ?_⟩
          · intro h; rw [if_pos h]
          · intro h; rw [if_neg h]
        · rintro ⟨_, _, h1, h2⟩
          by_cases ht : trust = true
          · rw [h1 ht, if_pos ht]
          · rw [h2 ht, if_neg ht]
      | some g =>
        simp only [Option.isSome_some, true_or, not_true, false_implies, and_true,
          true_implies]
        constructor
        · intro h
          split at h
          · rename_i hg
            have := Out.ok.inj h
            subst this
            refine ⟨fun w hw => ⟨sig, hw, hl⟩, ?_, rfl⟩
            intro g' hg'
            cases hg'
            exact ⟨sig, rfl, hg⟩
          · cases h
        · rintro ⟨_, h2, rfl⟩
          obtain ⟨s, e, h3⟩ := h2 g rfl
          simp only [List.cons.injEq, Prod.mk.injEq, Bt.str.injEq, and_true, true_and] at e
          subst e
          rw [if_pos h3]

/-- Parsing a dict whose parts are in order, in terms of the parts. -/
theorem parse_parts {env : Env} {trust : Bool} {bs : Bytes} {m : Msg}
    {D S P1 T P2 L P3 F P4 G : BtDict} (hs : KSorted D) (h : Parts D S P1 T P2 L P3 F P4 G)
    (hbs : bs = 100 :: (encD D ++ [101])) :
    parseEntries env trust bs (topEntries 1 D) = .ok m ↔
      (S = [(kSeq, .int m.seqno)] ∧ int64Ok m.seqno = true) ∧
      (∃ d, T = [(kData, .dict d)] ∧ DataIs d m.data) ∧
      ((∃ rows, L = [(kLag, .list rows)] ∧ parseLagged m.seqno env.lag none rows = .ok m.lagged) ∨
        (L = [] ∧ m.lagged = [])) ∧
      ((F = [(kDiff, .dict m.diff)] ∧ ChangeOk (.dict m.diff)) ∨ (F = [] ∧ m.diff = [])) ∧
      F ++ (P4 ++ G) ≠ [] ∧
      m.unknown = (P1 ++ (P2 ++ (P3 ++ P4))).map keepUnk ∧
      (∀ v, (kSig, v) ∈ G → ∃ s, v = .str s ∧ s.length = 64) ∧
      (∀ g, env.verifier = some g → ∃ body s, G = [(kSig, .str s)] ∧ D = body ++ G ∧
        g (100 :: encD body) s = true) ∧
      (∀ s, m.vsig = some s ↔ (env.verifier.isSome = true ∨ trust = true) ∧ (kSig, .str s) ∈ G) ∧
      m.hash = env.H bs ∧ m.unmerged = -1 := by
  have c1 : kSeq < kData := by decide
  have c2 : kData < kLag := by decide
  have c3 : kLag < kDiff := by decide
  have c4 : kDiff < kSig := by decide
  have hkey : ∀ {k : Bytes} {A : BtDict}, OnlyKey k A → ∀ p ∈ A, p.1 = k := by
    rintro k A (rfl | ⟨v, rfl⟩) p hp
    · cases hp
    · rw [List.mem_singleton.1 hp]
  -- offsets
  obtain ⟨o1, o2, o3, o4, o5, o6, o7, hes⟩ : ∃ o1 o2 o3 o4 o5 o6 o7, topEntries 1 D =
      topEntries 1 S ++ (topEntries o1 P1 ++ (topEntries o2 T ++ (topEntries o3 P2 ++
        (topEntries o4 L ++ (topEntries o5 P3 ++ (topEntries o6 F ++ (topEntries o7 P4 ++
          topEntries (1 + (encD (S ++ (P1 ++ (T ++ (P2 ++ (L ++ (P3 ++ (F ++ P4)))))))).length)
            G))))))) := by
    refine ⟨1 + (encD S).length,
      1 + (encD S).length + (encD P1).length,
      1 + (encD S).length + (encD P1).length + (encD T).length,
      1 + (encD S).length + (encD P1).length + (encD T).length + (encD P2).length,
      1 + (encD S).length + (encD P1).length + (encD T).length + (encD P2).length + (encD L).length,
      1 + (encD S).length + (encD P1).length + (encD T).length + (encD P2).length + (encD L).length + (encD P3).length,
      1 + (encD S).length + (encD P1).length + (encD T).length + (encD P2).length + (encD L).length + (encD P3).length + (encD F).length, ?_⟩
    conv_lhs => rw [h.eq]
    simp only [topEntries_append, encD_append, List.length_append, Nat.add_assoc]
  have hbody : D = (S ++ (P1 ++ (T ++ (P2 ++ (L ++ (P3 ++ (F ++ P4))))))) ++ G := by
    rw [h.eq]; simp
  generalize hB : S ++ (P1 ++ (T ++ (P2 ++ (L ++ (P3 ++ (F ++ P4)))))) = B at hes hbody
  have hoff : bs.take (1 + (encD B).length) = 100 :: encD B := by
    rw [hbs, hbody, encD_append, Nat.add_comm, List.take_succ_cons]
    simp
  -- keys of the rests
  generalize hR8 : topEntries (1 + (encD B).length) G = R8 at hes
  have k8 : ∀ e ∈ R8, e.key = kSig := fun e he => hkey h.g _ (mem_topEntries (hR8 ▸ he))
  generalize hR7 : topEntries o7 P4 ++ R8 = R7 at hes
  have k7 : ∀ e ∈ R7, kDiff < e.key := by
    intro e he
    rw [← hR7] at he
    rcases List.mem_append.1 he with he | he
    · exact (h.p4 _ (mem_topEntries he)).1
    · rw [k8 e he]; exact c4
  generalize hR6 : topEntries o6 F ++ R7 = R6 at hes
  have k6 : ∀ e ∈ R6, kDiff ≤ e.key := by
    intro e he
    rw [← hR6] at he
    rcases List.mem_append.1 he with he | he
    · exact le_of_eq (hkey h.f _ (mem_topEntries he)).symm
    · exact le_of_lt (k7 e he)
  generalize hR5 : topEntries o5 P3 ++ R6 = R5 at hes
  have k5 : ∀ e ∈ R5, kLag < e.key := by
    intro e he
    rw [← hR5] at he
    rcases List.mem_append.1 he with he | he
    · exact (h.p3 _ (mem_topEntries he)).1
    · exact lt_of_lt_of_le c3 (k6 e he)
  generalize hR4 : topEntries o4 L ++ R5 = R4 at hes
  have k4 : ∀ e ∈ R4, kLag ≤ e.key := by
    intro e he
    rw [← hR4] at he
    rcases List.mem_append.1 he with he | he
    · exact le_of_eq (hkey h.l _ (mem_topEntries he)).symm
    · exact le_of_lt (k5 e he)
  generalize hR3 : topEntries o3 P2 ++ R4 = R3 at hes
  have k3 : ∀ e ∈ R3, kData < e.key := by
    intro e he
    rw [← hR3] at he
    rcases List.mem_append.1 he with he | he
    · exact (h.p2 _ (mem_topEntries he)).1
    · exact lt_of_lt_of_le c2 (k4 e he)
  generalize hR2 : topEntries o2 T ++ R3 = R2 at hes
  have k2 : ∀ e ∈ R2, kData ≤ e.key := by
    intro e he
    rw [← hR2] at he
    rcases List.mem_append.1 he with he | he
    · exact le_of_eq (hkey h.t _ (mem_topEntries he)).symm
    · exact le_of_lt (k3 e he)
  generalize hR1 : topEntries o1 P1 ++ R2 = R1 at hes
  have k1 : ∀ e ∈ R1, kSeq < e.key := by
    intro e he
    rw [← hR1] at he
    rcases List.mem_append.1 he with he | he
    · exact (h.p1 _ (mem_topEntries he)).1
    · exact lt_of_lt_of_le c1 (k2 e he)
  -- sortedness of what is kept
  have hfil := h.lookup.2.2.2.2.2.2
  have hsU : KSorted ((P1 ++ (P2 ++ (P3 ++ P4))).map keepUnk) := by
    rw [← hfil]
    refine List.pairwise_map.2 ?_
    exact (List.Pairwise.filter _ hs)
  simp only [List.map_append] at hsU
  have u1 : loadUnknowns kSeq kData [] R1 = .ok (P1.map keepUnk, R2) := by
    rw [← hR1]
    have := loadUnknowns_of (prev := kSeq) (til := kData) [] P1 o1 R2
      (by rw [List.nil_append]; exact (List.pairwise_append.1 hsU).1)
      (fun p hp => (h.p1 p hp).1) (fun p hp => (h.p1 p hp).2)
      (fun e r he => not_lt.2 (k2 e (he ▸ List.mem_cons_self ..)))
    rwa [List.nil_append] at this
  have u2 : loadUnknowns kData kLag (P1.map keepUnk) R3 =
      .ok (P1.map keepUnk ++ P2.map keepUnk, R4) := by
    rw [← hR3]
    refine loadUnknowns_of _ P2 o3 R4 ?_ (fun p hp => (h.p2 p hp).1) (fun p hp => (h.p2 p hp).2)
      (fun e r he => not_lt.2 (k4 e (he ▸ List.mem_cons_self ..)))
    rw [← List.append_assoc] at hsU
    exact (List.pairwise_append.1 hsU).1
  have u3 : loadUnknowns kLag kDiff (P1.map keepUnk ++ P2.map keepUnk) R5 =
      .ok (P1.map keepUnk ++ P2.map keepUnk ++ P3.map keepUnk, R6) := by
    rw [← hR5]
    refine loadUnknowns_of _ P3 o5 R6 ?_ (fun p hp => (h.p3 p hp).1) (fun p hp => (h.p3 p hp).2)
      (fun e r he => not_lt.2 (k6 e (he ▸ List.mem_cons_self ..)))
    rw [← List.append_assoc, ← List.append_assoc] at hsU
    exact (List.pairwise_append.1 hsU).1
  have u4 : loadUnknowns kDiff kSig (P1.map keepUnk ++ P2.map keepUnk ++ P3.map keepUnk) R7 =
      .ok (P1.map keepUnk ++ P2.map keepUnk ++ P3.map keepUnk ++ P4.map keepUnk, R8) := by
    rw [← hR7]
    refine loadUnknowns_of _ P4 o7 R8 ?_ (fun p hp => (h.p4 p hp).1) (fun p hp => (h.p4 p hp).2)
      (fun e r he => not_lt.2 (le_of_eq (k8 e (he ▸ List.mem_cons_self ..)).symm))
    simpa only [List.append_assoc] using hsU
  have hU : (P1 ++ (P2 ++ (P3 ++ P4))).map keepUnk =
      P1.map keepUnk ++ P2.map keepUnk ++ P3.map keepUnk ++ P4.map keepUnk := by
    simp only [List.map_append, List.append_assoc]
  have t1 {s es} := takeSeq_only (o := 1) (R := R1) (es := es) (s := s) h.s
    (fun e he => ne_of_gt (k1 e he))
  have t2 {x es} := takeData_only (o := o2) (R := R3) (es := es) (x := x) h.t
    (fun e he => ne_of_gt (k3 e he))
  have t3 {cur lag l es} := takeLag_only (cur := cur) (lag := lag) (o := o4) (R := R5) (es := es)
    (l := l) h.l (fun e he => ne_of_gt (k5 e he))
  have t4 {d es} := takeDiff_only (o := o6) (R := R7) (es := es) (d := d) h.f
    (fun e he => ne_of_gt (k7 e he))
  have t5 {vs} := verifySig_only (env := env) (trust := trust) (bs := bs)
    (o := 1 + (encD B).length) (vs := vs) h.g
  rw [hR2] at t2
  rw [hR4] at t3
  rw [hR6] at t4
  rw [hR8, hoff] at t5
  have ne7 : R7 = [] ↔ P4 = [] ∧ G = [] := by
    rw [← hR7, ← hR8, List.append_eq_nil_iff]
    have : ∀ o (A : BtDict), topEntries o A = [] ↔ A = [] := by
      intro o A; cases A with
      | nil => simp [topEntries]
      | cons a t => obtain ⟨k, v⟩ := a; simp [topEntries]
    rw [this, this]
  have ne5 : R7 ≠ [] → R5 ≠ [] := by
    intro hne e
    rw [← hR5, List.append_eq_nil_iff, ← hR6, List.append_eq_nil_iff] at e
    exact hne e.2.2
  have nF : F ≠ [] → R5 ≠ [] := by
    intro hne e
    rw [← hR5, List.append_eq_nil_iff, ← hR6, List.append_eq_nil_iff] at e
    cases F with
    | nil => exact hne rfl
    | cons a t => obtain ⟨k, v⟩ := a; simp [topEntries] at e
  rw [hes]
  constructor
  · intro hp
    unfold parseEntries at hp
    obtain ⟨⟨s, e1⟩, a1, hp⟩ := Out.bind_eq_ok.1 hp
    obtain ⟨⟨w1, e2⟩, a2, hp⟩ := Out.bind_eq_ok.1 hp
    obtain ⟨⟨d, e3⟩, a3, hp⟩ := Out.bind_eq_ok.1 hp
    obtain ⟨⟨w2, e4⟩, a4, hp⟩ := Out.bind_eq_ok.1 hp
    obtain ⟨⟨lg, e5⟩, a5, hp⟩ := Out.bind_eq_ok.1 hp
    obtain ⟨⟨w3, e6⟩, a6, hp⟩ := Out.bind_eq_ok.1 hp
    obtain ⟨⟨df, e7⟩, a7, hp⟩ := Out.bind_eq_ok.1 hp
    obtain ⟨⟨w4, e8⟩, a8, hp⟩ := Out.bind_eq_ok.1 hp
    obtain ⟨vs, a9, hfin⟩ := Out.bind_eq_ok.1 hp
    clear hp
    obtain ⟨rfl, b1, b2⟩ := t1.1 a1
    rw [u1] at a2
    obtain ⟨rfl, rfl⟩ := Prod.mk.inj (Out.ok.inj a2)
    obtain ⟨rfl, b3⟩ := t2.1 a3
    rw [u2] at a4
    obtain ⟨rfl, rfl⟩ := Prod.mk.inj (Out.ok.inj a4)
    obtain ⟨rfl, b5⟩ := t3.1 a5
    rw [u3] at a6
    obtain ⟨rfl, rfl⟩ := Prod.mk.inj (Out.ok.inj a6)
    obtain ⟨rfl, b7⟩ := t4.1 a7
    rw [u4] at a8
    obtain ⟨rfl, rfl⟩ := Prod.mk.inj (Out.ok.inj a8)
    obtain ⟨v1, v2, v3⟩ := t5.1 a9
    have := Out.ok.inj hfin
    subst this
    refine ⟨⟨b1, b2⟩, b3, ?_, ?_, ?_, hU.symm, v1, ?_, v3, rfl, rfl⟩
    · rcases b5 with h5 | ⟨h5, _, h6⟩
      · exact .inl h5
      · exact .inr ⟨h5, h6⟩
    · rcases b7 with h5 | ⟨h5, _, h6⟩
      · exact .inl h5
      · exact .inr ⟨h5, h6⟩
    · rcases b7 with ⟨h5, _⟩ | ⟨h5, h6, _⟩
      · rw [h5]; simp
      · intro e
        simp only [List.append_eq_nil_iff] at e
        exact h6 (ne7.2 e.2)
    · intro g hg
      obtain ⟨s, e, hv⟩ := v2 g hg
      exact ⟨B, s, e, hbody, hv⟩
  · rintro ⟨⟨b1, b2⟩, b3, b5, b7, hne, hunk, v1, v2, v3, hh, hun⟩
    have hR5ne : R5 ≠ [] := by
      by_cases hF : F = []
      · apply ne5
        intro e
        obtain ⟨e1, e2⟩ := ne7.1 e
        exact hne (by rw [hF, e1, e2]; rfl)
      · exact nF hF
    have a1 := t1.2 ⟨rfl, b1, b2⟩
    have a3 := t2.2 ⟨rfl, b3⟩
    have a5 : takeLag m.seqno env.lag R4 = .ok (m.lagged, R5) := t3.2 ⟨rfl, by
      rcases b5 with h5 | ⟨h5, h6⟩
      · exact .inl h5
      · exact .inr ⟨h5, hR5ne, h6⟩⟩
    have a7 : takeDiff R6 = .ok (m.diff, R7) := t4.2 ⟨rfl, by
      rcases b7 with h5 | ⟨h5, h6⟩
      · exact .inl h5
      · refine .inr ⟨h5, fun e => hne ?_, h6⟩
        obtain ⟨e1, e2⟩ := ne7.1 e
        rw [h5, e1, e2]; rfl⟩
    have a9 : verifySig env trust bs R8 = .ok m.vsig := t5.2 ⟨v1, fun g hg => by
      obtain ⟨body, s, e, hD, hv⟩ := v2 g hg
      refine ⟨s, e, ?_⟩
      have : B = body := by
        rw [hbody] at hD
        exact List.append_cancel_right hD
      rw [this]; exact hv, v3⟩
    unfold parseEntries
    rw [a1, Out.bind_ok]
    dsimp only
    rw [u1, Out.bind_ok]
    dsimp only
    rw [a3, Out.bind_ok]
    dsimp only
    rw [u2, Out.bind_ok]
    dsimp only
    rw [a5, Out.bind_ok]
    dsimp only
    rw [u3, Out.bind_ok]
    dsimp only
    rw [a7, Out.bind_ok]
    dsimp only
    rw [u4, Out.bind_ok]
    dsimp only
    rw [a9, Out.bind_ok, ← hU, ← hunk, ← hh, ← hun]

/-- Whatever is accepted has its keys in order, none before `#` and none after `~`. -/
theorem parse_ordered {env : Env} {trust : Bool} {bs : Bytes} {es : List TopEntry} {m : Msg}
    (h : parseEntries env trust bs es = .ok m) :
    es.Pairwise (fun a b => a.key < b.key) ∧ (∀ e ∈ es, kSeq ≤ e.key) ∧ ∀ e ∈ es, e.key ≤ kSig := by
  unfold parseEntries at h
  obtain ⟨⟨s, e1⟩, h1, h⟩ := Out.bind_eq_ok.1 h
  obtain ⟨⟨u1, e2⟩, h2, h⟩ := Out.bind_eq_ok.1 h
  obtain ⟨⟨d, e3⟩, h3, h⟩ := Out.bind_eq_ok.1 h
  obtain ⟨⟨u2, e4⟩, h4, h⟩ := Out.bind_eq_ok.1 h
  obtain ⟨⟨lg, e5⟩, h5, h⟩ := Out.bind_eq_ok.1 h
  obtain ⟨⟨u3, e6⟩, h6, h⟩ := Out.bind_eq_ok.1 h
  obtain ⟨⟨df, e7⟩, h7, h⟩ := Out.bind_eq_ok.1 h
  obtain ⟨⟨u4, e8⟩, h8, h⟩ := Out.bind_eq_ok.1 h
  obtain ⟨vs, h9, h⟩ := Out.bind_eq_ok.1 h
  have c1 : kSeq < kData := by decide
  have c2 : kData < kLag := by decide
  have c3 : kLag < kDiff := by decide
  have c4 : kDiff < kSig := by decide
  -- the last part is at most the signature
  have g8 : e8.Pairwise (fun a b => a.key < b.key) ∧ ∀ e ∈ e8, e.key = kSig := by
    unfold verifySig at h9
    split at h9
    · rename_i e r
      split at h9
      · rename_i hk
        split at h9
        · split at h9
          · cases h9
          · split at h9
            · split at h9
              · split at h9
                · rename_i hr; subst hr; simpa using hk
                · cases h9
              · cases h9
            · split at h9
              · rename_i hr; subst hr; simpa using hk
              · cases h9
        · cases h9
      · split at h9 <;> cases h9
    · simp
  have chain : ∀ {A B : List TopEntry}, A.Pairwise (fun a b => a.key < b.key) →
      B.Pairwise (fun a b => a.key < b.key) → (∀ a ∈ A, ∀ b ∈ B, a.key < b.key) →
      (A ++ B).Pairwise (fun a b => a.key < b.key) :=
    fun ha hb hab => List.pairwise_append.2 ⟨ha, hb, hab⟩
  obtain ⟨p1, rfl, rfl, s1, k1, n1⟩ := loadUnknowns_ok h2
  obtain ⟨p2, rfl, rfl, s2, k2, n2⟩ := loadUnknowns_ok h4
  obtain ⟨p3, rfl, rfl, s3, k3, n3⟩ := loadUnknowns_ok h6
  obtain ⟨p4, rfl, rfl, s4, k4, n4⟩ := loadUnknowns_ok h8
  have hsU := s4 (s3 (s2 (s1 (by simp))))
  have pw : ∀ {p : List TopEntry}, KSorted (p.map fun e => (e.key, norm e.val)) →
      p.Pairwise (fun a b => a.key < b.key) :=
    fun hp => (List.pairwise_map (R := fun a b : Bytes × Bt => a.1 < b.1)).1 hp
  have w4 := pw (List.pairwise_append.1 hsU).2.1
  have w3 := pw (List.pairwise_append.1 (List.pairwise_append.1 hsU).1).2.1
  have w2 := pw (List.pairwise_append.1 (List.pairwise_append.1
    (List.pairwise_append.1 hsU).1).1).2.1
  have w1 := pw (List.pairwise_append.1 (List.pairwise_append.1 (List.pairwise_append.1
    (List.pairwise_append.1 hsU).1).1).1).2.1
  -- from the end
  have q7 : (p4 ++ e8).Pairwise (fun a b => a.key < b.key) ∧
      ∀ e ∈ p4 ++ e8, kDiff < e.key ∧ e.key ≤ kSig := by
    refine ⟨chain w4 g8.1 fun a ha b hb => ?_, fun e he => ?_⟩
    · rw [g8.2 b hb]; exact (k4 a ha).2
    · rcases List.mem_append.1 he with he | he
      · exact ⟨(k4 e he).1, le_of_lt (k4 e he).2⟩
      · rw [g8.2 e he]; exact ⟨c4, le_refl _⟩
  have one : ∀ {e : TopEntry} {B : List TopEntry} {k : Bytes}, e.key = k →
      B.Pairwise (fun a b => a.key < b.key) → (∀ b ∈ B, k < b.key ∧ b.key ≤ kSig) → k ≤ kSig →
      (e :: B).Pairwise (fun a b => a.key < b.key) ∧ ∀ b ∈ e :: B, k ≤ b.key ∧ b.key ≤ kSig := by
    intro e B k he hB hk hks
    refine ⟨List.pairwise_cons.2 ⟨fun b hb => he ▸ (hk b hb).1, hB⟩, fun b hb => ?_⟩
    rcases List.mem_cons.1 hb with rfl | hb
    · rw [he]; exact ⟨le_refl _, hks⟩
    · exact ⟨le_of_lt (hk b hb).1, (hk b hb).2⟩
  have app : ∀ {P B : List TopEntry} {i j : Bytes}, P.Pairwise (fun a b => a.key < b.key) →
      (∀ e ∈ P, i < e.key ∧ e.key < j) → B.Pairwise (fun a b => a.key < b.key) →
      (∀ b ∈ B, j ≤ b.key ∧ b.key ≤ kSig) → i < j → j ≤ kSig →
      (P ++ B).Pairwise (fun a b => a.key < b.key) ∧
        ∀ b ∈ P ++ B, i < b.key ∧ b.key ≤ kSig := by
    intro P B i j hP hPk hB hBk hij hjs
    refine ⟨chain hP hB fun a ha b hb => lt_of_lt_of_le (hPk a ha).2 (hBk b hb).1, fun e he => ?_⟩
    rcases List.mem_append.1 he with he | he
    · exact ⟨(hPk e he).1, le_of_lt (lt_of_lt_of_le (hPk e he).2 hjs)⟩
    · exact ⟨lt_of_lt_of_le hij (hBk e he).1, (hBk e he).2⟩
  have q6 : e6.Pairwise (fun a b => a.key < b.key) ∧ ∀ e ∈ e6, kDiff ≤ e.key ∧ e.key ≤ kSig := by
    cases e6 with
    | nil => simp [takeDiff] at h7
    | cons e r =>
      simp only [takeDiff] at h7
      split at h7
      · rename_i hk
        split at h7
        · obtain ⟨x, _, h7'⟩ := Out.bind_eq_ok.1 h7
          have := (Prod.mk.inj (Out.ok.inj h7')).2
          subst this
          exact one hk q7.1 q7.2 (by decide)
        · cases h7
      · have := (Prod.mk.inj (Out.ok.inj h7)).2
        rw [this]
        exact ⟨q7.1, fun e he => ⟨le_of_lt (q7.2 e he).1, (q7.2 e he).2⟩⟩
  have q5 := app w3 k3 q6.1 q6.2 c3 (by decide)
  have q4 : e4.Pairwise (fun a b => a.key < b.key) ∧ ∀ e ∈ e4, kLag ≤ e.key ∧ e.key ≤ kSig := by
    cases e4 with
    | nil => simp [takeLag] at h5
    | cons e r =>
      simp only [takeLag] at h5
      split at h5
      · rename_i hk
        split at h5
        · obtain ⟨x, _, h5'⟩ := Out.bind_eq_ok.1 h5
          have := (Prod.mk.inj (Out.ok.inj h5')).2
          subst this
          exact one hk q5.1 q5.2 (by decide)
        · cases h5
      · have := (Prod.mk.inj (Out.ok.inj h5)).2
        rw [this]
        exact ⟨q5.1, fun e he => ⟨le_of_lt (q5.2 e he).1, (q5.2 e he).2⟩⟩
  have q3 := app w2 k2 q4.1 q4.2 c2 (by decide)
  obtain ⟨_, o3, rfl⟩ := takeData_ok h3
  have q2 := one (e := ⟨o3, kData, .dict (dictBt d)⟩) (k := kData) rfl q3.1 q3.2 (by decide)
  have q1 := app w1 k1 q2.1 q2.2 c1 (by decide)
  obtain ⟨_, o1, rfl⟩ := takeSeq_ok h1
  have q0 := one (e := ⟨o1, kSeq, .int s⟩) (k := kSeq) rfl q1.1 q1.2 (by decide)
  exact ⟨q0.1, fun e he => (q0.2 e he).1, fun e he => (q0.2 e he).2⟩

theorem parse_encoded {env : Env} {trust : Bool} {D : BtDict} (hD : Bt.okD D = true) :
    parseMsg env trust (100 :: (encD D ++ [101])) =
      parseEntries env trust (100 :: (encD D ++ [101])) (topEntries 1 D) := by
  have htop := decTop_encD D ((encD D ++ [101]).length) 1 [] hD (by simp)
  have hne : ∃ b t, encD D ++ [101] = b :: t := by
    cases hh : encD D with
    | nil => exact ⟨101, [], rfl⟩
    | cons b t => exact ⟨b, t ++ [101], rfl⟩
  obtain ⟨b, t, hbt⟩ := hne
  rw [hbt] at htop ⊢
  simp only [parseMsg, htop]

/-! ## The property -/

/-- C141.  `D` is any bencoded dict.  It is accepted as a config message if and only if it follows the
documented format; what is read is what it says, the hash is the hash of its bytes, and the signature is
remembered if it was verified (or trusted).  `hub`: no overflow in `seqno - lag`. -/
theorem accepted_iff_documented {env : Env} {trust : Bool} {D : BtDict} (hD : Bt.okD D = true)
    {m : Msg} (hub : int64Ok (m.seqno - env.lag) = true) :
    parseMsg env trust (100 :: (encD D ++ [101])) = .ok m ↔
      Documented env.verifier env.lag D m ∧
      (∀ s, m.vsig = some s ↔ (env.verifier.isSome = true ∨ trust = true) ∧ ([126], .str s) ∈ D) ∧
      m.hash = env.H (100 :: (encD D ++ [101])) ∧ m.unmerged = -1 := by
  rw [parse_encoded hD]
  have hi64 : int64Ok m.seqno = true ↔ -(2 ^ 63) ≤ m.seqno ∧ m.seqno < 2 ^ 63 := by
    simp only [int64Ok, Bool.and_eq_true, decide_eq_true_eq]
  have one : ∀ {k : Bytes} {A : BtDict} {v : Bt}, OnlyKey k A → ((k, v) ∈ A ↔ A = [(k, v)]) := by
    rintro k A v (rfl | ⟨w, rfl⟩)
    · simp
    · simp [eq_comm]
  have none' : ∀ {k : Bytes} {A : BtDict}, OnlyKey k A → ((∀ v, (k, v) ∉ A) ↔ A = []) := by
    rintro k A (rfl | ⟨w, rfl⟩)
    · simp
    · simp
  have core : ∀ {S P1 T P2 L P3 F P4 G : BtDict}, KSorted D → Parts D S P1 T P2 L P3 F P4 G →
      (∀ p ∈ D, [35] ≤ p.1) → (∀ p ∈ D, p.1 ≤ [126]) →
      (parseEntries env trust (100 :: (encD D ++ [101])) (topEntries 1 D) = .ok m ↔
      Documented env.verifier env.lag D m ∧
      (∀ s, m.vsig = some s ↔ (env.verifier.isSome = true ∨ trust = true) ∧ ([126], .str s) ∈ D) ∧
      m.hash = env.H (100 :: (encD D ++ [101])) ∧ m.unmerged = -1) := by
    intro S P1 T P2 L P3 F P4 G hs hp hb1 hb2
    obtain ⟨l1, l2, l3, l4, l5, l6, l7⟩ := hp.lookup
    rw [parse_parts hs hp rfl]
    constructor
    · rintro ⟨⟨b1, b2⟩, ⟨d, b3, b4⟩, b5, b7, hne, hunk, v1, v2, v3, hh, hun⟩
      refine ⟨⟨hs, hb1, hb2, ⟨(l1 _).2 (by rw [b1]; simp), hi64.1 b2⟩,
        ⟨d, (l2 _).2 (by rw [b3]; simp), b4⟩, ?_, ?_, l6.2 hne, ?_, ?_, ?_⟩, ?_, hh, hun⟩
      · rcases b5 with ⟨rows, e, h5⟩ | ⟨e, h5⟩
        · exact .inl ⟨rows, (l3 _).2 (by rw [e]; simp), ((parseLagged_iff (hi64.1 b2).2 hub).1 h5).1⟩
        · exact .inr ⟨fun v hv => by
            have := (l3 v).1 hv; rw [e] at this; exact List.not_mem_nil this, h5⟩
      · rcases b7 with ⟨e, h5⟩ | ⟨e, h5⟩
        · exact .inl ⟨(l4 _).2 (by rw [e]; simp), h5⟩
        · exact .inr ⟨fun v hv => by
            have := (l4 v).1 hv; rw [e] at this; exact List.not_mem_nil this, h5⟩
      · rw [hunk, l7]; rfl
      · exact fun v hv => v1 v ((l5 v).1 hv)
      · intro g hg
        obtain ⟨body, s, e, hD', hv⟩ := v2 g hg
        exact ⟨body, s, by rw [hD', e]; rfl, hv⟩
      · intro s
        rw [v3 s]
        exact and_congr_right fun _ => (l5 _).symm
    · rintro ⟨⟨_, _, _, ⟨b1, b2⟩, ⟨d, b3, b4⟩, b5, b7, hmore, hunk, v1, v2⟩, v3, hh, hun⟩
      refine ⟨⟨(one hp.s).1 ((l1 _).1 b1), hi64.2 b2⟩, ⟨d, (one hp.t).1 ((l2 _).1 b3), b4⟩, ?_, ?_,
        l6.1 hmore, ?_, ?_, ?_, ?_, hh, hun⟩
      · rcases b5 with ⟨rows, e, h5⟩ | ⟨e, h5⟩
        · exact .inl ⟨rows, (one hp.l).1 ((l3 _).1 e),
            (parseLagged_iff b2.2 hub).2 ⟨h5, by simp⟩⟩
        · exact .inr ⟨(none' hp.l).1 fun v hv => e v ((l3 v).2 hv), h5⟩
      · rcases b7 with ⟨e, h5⟩ | ⟨e, h5⟩
        · exact .inl ⟨(one hp.f).1 ((l4 _).1 e), h5⟩
        · exact .inr ⟨(none' hp.f).1 fun v hv => e v ((l4 v).2 hv), h5⟩
      · rw [hunk, l7]; rfl
      · exact fun v hv => v1 v ((l5 v).2 hv)
      · intro g hg
        obtain ⟨body, s, e, hv⟩ := v2 g hg
        have hG : G = [(kSig, .str s)] := (one hp.g).1 ((l5 _).1 (by rw [e]; simp [kSig]))
        exact ⟨body, s, hG, by rw [hG]; exact e, hv⟩
      · intro s
        rw [v3 s]
        exact and_congr_right fun _ => l5 _
  constructor
  · intro h
    obtain ⟨a1, a2, a3⟩ := parse_ordered h
    have hkv := topEntries_kv 1 D
    have hs : KSorted D := by rw [← hkv]; exact List.pairwise_map.2 a1
    have hb1 : ∀ p ∈ D, kSeq ≤ p.1 := by
      intro p hp
      rw [← hkv] at hp
      obtain ⟨e, he, rfl⟩ := List.mem_map.1 hp
      exact a2 e he
    have hb2 : ∀ p ∈ D, p.1 ≤ kSig := by
      intro p hp
      rw [← hkv] at hp
      obtain ⟨e, he, rfl⟩ := List.mem_map.1 hp
      exact a3 e he
    obtain ⟨S, P1, T, P2, L, P3, F, P4, G, hp⟩ := exists_parts hs hb1 hb2
    exact (core hs hp hb1 hb2).1 h
  · intro h
    obtain ⟨S, P1, T, P2, L, P3, F, P4, G, hp⟩ :=
      exists_parts h.1.sorted h.1.noBreak h.1.noTail
    exact (core h.1.sorted hp h.1.noBreak h.1.noTail).2 h

/-- C141.  A message with a key before `#` (a major version break) is ignored, whatever else is in it:
it is refused with a parse error, and the merge goes on with the other messages (`merge_skips_invalid_partial`). -/
theorem version_break_ignored {env : Env} {trust : Bool} {D : BtDict} (hD : Bt.okD D = true)
    (hs : D.Pairwise (fun a b => a.1 < b.1)) {p : Bytes × Bt} (hp : p ∈ D) (hk : p.1 < [35]) :
    parseMsg env trust (100 :: (encD D ++ [101])) = .err .parse := by
  rw [parse_encoded hD]
  have : takeSeq (topEntries 1 D) = .err .parse := by
    cases D with
    | nil => cases hp
    | cons a t =>
      obtain ⟨k, v⟩ := a
      have hlt : k < [35] := by
        rcases List.mem_cons.1 hp with rfl | hp
        · exact hk
        · exact lt_trans (List.rel_of_pairwise_cons hs hp) hk
      have hne : ¬ k = kSeq := fun e => by rw [e] at hlt; exact absurd hlt (by decide)
      simp only [topEntries]
      unfold takeSeq
      split
      · rename_i heq
        simp only [List.cons.injEq, TopEntry.mk.injEq] at heq
        rw [← heq.1.2.1]
        simp [hne]
      · rfl
  unfold parseEntries
  rw [this]; rfl

/-- C141.  Whatever a client publishes follows the documented format, and says what the client holds.
(`hv`: as in C01, a client that requires signatures can sign, or holds a signed message.) -/
theorem published_documented {env : Env} (hs : env.Sane) {c : Conf} (hc : Made env c)
    (hub : int64Ok (c.m.seqno - env.lag) = true)
    (hv : ∀ v, env.verifier = some v →
      ∃ s, c.refresh.m.sig env true = some s ∧ v (c.refresh.m.body env.lag) s = true) :
    ∃ D m, c.ser env true = 100 :: (encD D ++ [101]) ∧
      Documented env.verifier env.lag D m ∧ m.seqno = c.m.seqno ∧ m.data = pruneD c.m.data ∧
      m.unknown = c.m.unknown ∧
      (∀ p, p ∈ m.lagged ↔ p ∈ c.m.lagged ∧ c.m.seqno - env.lag < p.1.1 ∧ p.1.1 < c.m.seqno) := by
  obtain ⟨r, h, h1, h2, h3, h4, h5, _⟩ := config_roundtrip hs hc false hub hv
  have hm := (hc.wf hs).refresh_msg
  have e : c.ser env true =
      100 :: (encD (c.refresh.m.top env.lag ++ sigEntry (c.refresh.m.sig env true)) ++ [101]) :=
    ser_eq env c.refresh.m true
  refine ⟨_, r, e, ?_, h3, h1, h4, h5⟩
  rw [e] at h
  refine ((accepted_iff_documented ?_ (by rw [h3]; exact hub)).1 h).1
  rw [okD_append, top_ok env.lag hm]
  cases c.refresh.m.sig env true <;> simp [sigEntry, Bt.okD, Bt.ok]

example : exEnv.Sane ∧ Made exEnv exConf2 ∧ int64Ok (exConf2.m.seqno - exEnv.lag) = true ∧
    exConf2.m.lagged.length = 1 ∧
    (∀ v, exEnv.verifier = some v → ∃ s, exConf2.refresh.m.sig exEnv true = some s ∧
      v (exConf2.refresh.m.body exEnv.lag) s = true) :=
  ⟨exEnv_sane, exConf2_made, by decide, rfl, by intro v hv; cases hv; exact ⟨_, rfl, rfl⟩⟩

/-! ### A concrete message -/

/-- `{#: 9, %: "new", &: {a: 5, s: {1, "x"}}, <: [[3, ...], [8, hash, {a: ""}]], =: {s: [[1], []]},
}: 7, ~: 64 bytes}`: two keys this version does not know, a row that is too old to matter, a signature. -/
def exFormat : BtDict :=
  [([35], .int 9), ([37], .str [110, 101, 119]),
   ([38], .dict [([97], .int 5), ([115], .list [.int 1, .str [120]])]),
   ([60], .list [.list [.int 3], .list [.int 8, .str (List.replicate 32 7), .dict [([97], .str [])]]]),
   ([61], .dict [([115], .list [.list [.int 1], .list []])]),
   ([125], .int 7), ([126], .str (List.replicate 64 9))]

example : Bt.okD exFormat = true ∧ ∃ m, Documented exEnv.verifier exEnv.lag exFormat m ∧
    m.lagged.length = 1 ∧ m.unknown.length = 2 ∧ m.data.length = 2 ∧ m.vsig.isSome = true := by
  refine ⟨by decide, ?_⟩
  have h : ((parseMsg exEnv false (100 :: (encD exFormat ++ [101]))).toOption.map fun m =>
      (m.lagged.length, m.unknown.length, m.data.length, m.vsig.isSome, m.seqno)) =
      some (1, 2, 2, true, 9) := by decide +kernel
  cases hm : parseMsg exEnv false (100 :: (encD exFormat ++ [101])) with
  | ok m =>
    rw [hm] at h
    simp only [Out.toOption, Option.map_some, Option.some.injEq, Prod.mk.injEq] at h
    obtain ⟨h1, h2, h3, h4, h5⟩ := h
    exact ⟨m, ((accepted_iff_documented (by decide) (by rw [h5]; decide)).1 hm).1, h1, h2, h3, h4⟩
  | err e => rw [hm] at h; simp [Out.toOption] at h
  | hang => rw [hm] at h; simp [Out.toOption] at h
  | ub => rw [hm] at h; simp [Out.toOption] at h

/-- The same message with a key before `#`. -/
example : parseMsg exEnv false (100 :: (encD (([34], .int 1) :: exFormat) ++ [101])) = .err .parse :=
  version_break_ignored (p := ([34], .int 1)) (by decide) (by decide) (by simp) (by decide)

end Verif
