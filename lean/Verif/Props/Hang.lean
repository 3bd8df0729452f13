import Verif.Props.Format
import Verif.Props.ClientNet
import Verif.Props.Client
import Verif.ClientMerge

/-!
# When parsing does not end (C07)

`parse_may_hang` (Props/Wire) is one message that makes the parser loop forever.  Here are all of them.  The first
part is a small specification on bencoded values; it does not mention the parser.
-/

namespace Verif

/-! ## Specification -/

/-- A diff that traps the reader (src/config.cpp:206-246): the entries are fine up to one that is an integer, or
a dict that traps it. -/
inductive Traps : BtDict → Prop
  | int {pre post : BtDict} {k : Bytes} {i : Int} : KSorted (pre ++ [(k, .int i)]) → (∀ p ∈ pre, ChangeOk p.2) →
      Traps (pre ++ (k, .int i) :: post)
  | inner {pre post : BtDict} {k : Bytes} {d : BtDict} : KSorted (pre ++ [(k, .dict d)]) → (∀ p ∈ pre, ChangeOk p.2) →
      Traps d → Traps (pre ++ (k, .dict d) :: post)

/-- The bencoded dict `D` traps the reader: what comes before is as documented (C141) up to some point, and then
comes a diff which traps it.  `m` is what the message says up to there; the signature, which comes later, plays no role. -/
inductive TrapMsg (lag : Int) (D : BtDict) : Prop
  /-- in the diff of the message -/
  | diff {A d R : BtDict} {m : Msg} : D = A ++ ([61], .dict d) :: R →
      Documented none lag (A ++ [([61], .dict [])]) m → Traps d → TrapMsg lag D
  /-- in the diff of an earlier change, which is one of the recent ones -/
  | earlier {A R d : BtDict} {before rest post : List Bt} {s : Int} {h : Bytes} {m : Msg} :
      D = A ++ ([60], .list (before ++ .list (.int s :: .str h :: .dict d :: rest) :: post)) :: R →
      Documented none lag (A ++ [([60], .list before), ([61], .dict [])]) m →
      m.seqno - lag < s → s < m.seqno → -(2 ^ 63) ≤ s → h.length = 32 → (∀ p ∈ m.lagged, p.1 < (toLex (s, h) : SH)) →
      Traps d → TrapMsg lag D

/-! ## Proof -/

theorem bind_hang {α β : Type} {x : Out α} {f : α → Out β} :
    (x >>= f) = .hang ↔ x = .hang ∨ ∃ a, x = .ok a ∧ f a = .hang := by
  cases x with
  | ok a => exact ⟨fun h => .inr ⟨a, rfl, h⟩, fun h => by rcases h with h | ⟨_, h, h'⟩ <;> cases h; exact h'⟩
  | err e => exact ⟨fun h => (by cases h), fun h => by rcases h with h | ⟨_, h, _⟩ <;> cases h⟩
  | hang => exact ⟨fun _ => .inl rfl, fun _ => rfl⟩
  | ub => exact ⟨fun h => (by cases h), fun h => by rcases h with h | ⟨_, h, _⟩ <;> cases h⟩

theorem loadV_ok_iff {b b' : Bt} : loadV b = .ok b' ↔ b' = b ∧ ChangeOk b := by
  constructor
  · intro h
    have : b' = b := by
      cases b with
      | int i => simp only [loadV] at h; cases h
      | str s =>
        simp only [loadV] at h
        split at h
        · exact (Out.ok.inj h).symm
        · cases h
      | list l =>
        simp only [loadV] at h
        split at h
        · cases h
        · obtain ⟨_, _, h⟩ := Out.bind_eq_ok.1 h
          exact (Out.ok.inj h).symm
      | dict d =>
        simp only [loadV] at h
        obtain ⟨r, h1, h⟩ := Out.bind_eq_ok.1 h
        rw [(loadD_iff.1 h1).1] at h
        exact (Out.ok.inj h).symm
    exact ⟨this, (changeOk_iff b).1 (this ▸ h)⟩
  · rintro ⟨rfl, h⟩
    exact (changeOk_iff _).2 h

theorem Traps.cons {k : Bytes} {v : Bt} {d : BtDict} (hv : ChangeOk v) (hk : ∀ p ∈ d.head?, k < p.1) (h : Traps d) :
    Traps ((k, v) :: d) := by
  have key : ∀ {pre post : BtDict} {e : Bytes × Bt}, d = pre ++ e :: post → KSorted (pre ++ [e]) →
      KSorted ((k, v) :: (pre ++ [e])) := by
    intro pre post e hd hs
    refine kSorted_cons.2 ⟨?_, hs⟩
    have hh : ∀ p ∈ (pre ++ [e]).head?, k < p.1 := by
      intro p hp
      apply hk
      rw [hd]
      cases pre <;> simpa using hp
    cases hX : pre ++ [e] with
    | nil => simp at hX
    | cons a t =>
      rw [hX] at hh hs
      intro b hb
      have ha := hh a (by simp)
      rcases List.mem_cons.1 hb with rfl | hb
      · exact ha
      · exact lt_trans ha (hs.head b hb)
  cases h with
  | int hs hp =>
    exact Traps.int (pre := (k, v) :: _) (key rfl hs) (by
      intro p hp'
      rcases List.mem_cons.1 hp' with rfl | hp'
      · exact hv
      · exact hp p hp')
  | inner hs hp hd =>
    exact Traps.inner (pre := (k, v) :: _) (key rfl hs) (by
      intro p hp'
      rcases List.mem_cons.1 hp' with rfl | hp'
      · exact hv
      · exact hp p hp') hd

/-- From a key on. -/
def TrapsFrom (last : Option Bytes) (d : BtDict) : Prop := Traps d ∧ ∀ y, last = some y → ∀ p ∈ d.head?, y < p.1

mutual
theorem loadV_hang : ∀ b : Bt, loadV b = .hang ↔ (∃ i, b = .int i) ∨ ∃ d, b = .dict d ∧ Traps d
  | .int i => ⟨fun _ => .inl ⟨i, rfl⟩, fun _ => by simp only [loadV]⟩
  | .str s => by
    constructor
    · intro h
      simp only [loadV] at h
      split at h <;> cases h
    · rintro (⟨_, h⟩ | ⟨_, h, _⟩) <;> cases h
  | .list l => by
    constructor
    · intro h
      simp only [loadV] at h
      split at h
      · cases h
      · rcases bind_hang.1 h with h | ⟨_, _, h⟩
        · exact absurd h (checkSubs_ne_hang l)
        · cases h
    · rintro (⟨_, h⟩ | ⟨_, h, _⟩) <;> cases h
  | .dict d => by
    have ih := loadD_hang none d
    simp only [loadV]
    rw [bind_hang]
    constructor
    · rintro (h | ⟨_, _, h⟩)
      · exact .inr ⟨d, rfl, (ih.1 h).1⟩
      · cases h
    · rintro (⟨_, h⟩ | ⟨d', h, ht⟩)
      · cases h
      · cases h
        exact .inl (ih.2 ⟨ht, by simp⟩)
theorem loadD_hang : ∀ (last : Option Bytes) (d : BtDict), loadD last d = .hang ↔ TrapsFrom last d
  | last, [] => by
    constructor
    · intro h; simp only [loadD] at h; cases h
    · rintro ⟨h, _⟩
      generalize hx : ([] : BtDict) = x at h
      cases h <;> simp at hx
  | last, (k, v) :: t => by
    have ihv := loadV_hang v
    have iht := loadD_hang (some k) t
    simp only [loadD]
    have hord : outOfOrder last k = false ↔ ∀ y, last = some y → y < k := by
      cases last with
      | none => simp [outOfOrder]
      | some y => simp [outOfOrder]
    by_cases ho : outOfOrder last k = true
    · rw [if_pos ho]
      refine ⟨fun h => (by cases h), ?_⟩
      rintro ⟨_, h⟩
      have : outOfOrder last k = false := hord.2 fun y hy => h y hy (k, v) (by simp)
      rw [this] at ho; cases ho
    · rw [if_neg ho, bind_hang]
      have ho' := hord.1 (by simpa using ho)
      constructor
      · rintro (h | ⟨v', h1, h2⟩)
        · refine ⟨?_, fun y hy p hp => by
            simp only [List.head?_cons, Option.mem_def, Option.some.injEq] at hp
            subst hp; exact ho' y hy⟩
          rcases ihv.1 h with ⟨i, rfl⟩ | ⟨d, rfl, hd⟩
          · exact Traps.int (pre := []) (by simp [KSorted]) (by simp)
          · exact Traps.inner (pre := []) (by simp [KSorted]) (by simp) hd
        · obtain ⟨rfl, hv⟩ := loadV_ok_iff.1 h1
          rcases bind_hang.1 h2 with h2 | ⟨_, _, h2⟩
          · obtain ⟨a, b⟩ := iht.1 h2
            refine ⟨a.cons hv (b k rfl), fun y hy p hp => by
              simp only [List.head?_cons, Option.mem_def, Option.some.injEq] at hp
              subst hp; exact ho' y hy⟩
          · cases h2
      · rintro ⟨h, _⟩
        have key : ∀ {pre post : BtDict} {e : Bytes × Bt}, (k, v) :: t = pre ++ e :: post → KSorted (pre ++ [e]) →
            (∀ p ∈ pre, ChangeOk p.2) → (pre = [] ∧ e = (k, v) ∧ post = t) ∨
            ∃ pre', pre = (k, v) :: pre' ∧ t = pre' ++ e :: post ∧ KSorted (pre' ++ [e]) ∧
              (∀ p ∈ pre', ChangeOk p.2) ∧ ChangeOk v ∧ ∀ p ∈ t.head?, k < p.1 := by
          intro pre post e he hs hp
          cases pre with
          | nil =>
            simp only [List.nil_append, List.cons.injEq] at he
            exact .inl ⟨rfl, he.1.symm, he.2.symm⟩
          | cons a pre' =>
            simp only [List.cons_append, List.cons.injEq] at he
            obtain ⟨rfl, rfl⟩ := he
            refine .inr ⟨pre', rfl, rfl, hs.tail, fun p hp' => hp p (List.mem_cons_of_mem _ hp'), hp (k, v) (by simp), ?_⟩
            intro p hp'
            refine hs.head p ?_
            cases pre' with
            | nil =>
              simp only [List.nil_append, List.head?_cons, Option.mem_def, Option.some.injEq] at hp'
              subst hp'; simp
            | cons q w =>
              simp only [List.cons_append, List.head?_cons, Option.mem_def, Option.some.injEq] at hp'
              subst hp'; simp
        generalize hx : (k, v) :: t = x at h
        cases h with
        | int hs hp =>
          rcases key hx hs hp with ⟨rfl, he, rfl⟩ | ⟨pre', rfl, ht, hs', hp', hv, hk⟩
          · cases he
            exact .inl (ihv.2 (.inl ⟨_, rfl⟩))
          · exact .inr ⟨v, loadV_ok_iff.2 ⟨rfl, hv⟩, bind_hang.2 (.inl (iht.2 ⟨by rw [ht]; exact Traps.int hs' hp',
              fun y hy => by cases hy; exact hk⟩))⟩
        | inner hs hp hd =>
          rcases key hx hs hp with ⟨rfl, he, rfl⟩ | ⟨pre', rfl, ht, hs', hp', hv, hk⟩
          · cases he
            exact .inl (ihv.2 (.inr ⟨_, rfl, hd⟩))
          · exact .inr ⟨v, loadV_ok_iff.2 ⟨rfl, hv⟩, bind_hang.2 (.inl (iht.2 ⟨by rw [ht]; exact Traps.inner hs' hp' hd,
              fun y hy => by cases hy; exact hk⟩))⟩
end

theorem loadD_hang_iff {d : BtDict} : loadD none d = .hang ↔ Traps d := by
  rw [loadD_hang]
  exact ⟨fun h => h.1, fun h => ⟨h, by simp⟩⟩


/-! ### The list of earlier changes -/

theorem parseLagged_hang {cur lag : Int} {rows : List Bt} {last : Option SH} :
    parseLagged cur lag last rows = .hang ↔ ∃ pre s h d rest post l,
      rows = pre ++ .list (.int s :: .str h :: .dict d :: rest) :: post ∧ parseLagged cur lag last pre = .ok l ∧
      int64Ok s = true ∧ s < cur ∧ int64Ok (cur - lag) = true ∧ cur - lag < s ∧ h.length = 32 ∧
      (∀ y, last = some y → y < (toLex (s, h) : SH)) ∧ (∀ p ∈ l, p.1 < (toLex (s, h) : SH)) ∧ Traps d := by
  have hord : ∀ {last : Option SH} {k : SH}, outOfOrder last k = false ↔ ∀ y, last = some y → y < k := by
    intro last k
    cases last with
    | none => simp [outOfOrder]
    | some y => simp [outOfOrder]
  induction rows generalizing last with
  | nil =>
    constructor
    · intro h; simp only [parseLagged] at h; cases h
    · rintro ⟨pre, s, h, d, rest, post, l, e, _⟩; simp at e
  | cons row t ih =>
    constructor
    · intro h0
      unfold parseLagged at h0
      split at h0
      swap
      · cases h0
      rename_i s rest
      split at h0
      · cases h0
      rename_i c1
      split at h0
      · cases h0
      rename_i c2
      split at h0
      · cases h0
      rename_i c3
      have c1' : int64Ok s = true := by simpa using c1
      have c3' : int64Ok (cur - lag) = true := by simpa using c3
      split at h0
      · rename_i c4
        obtain ⟨pre, s', h, d, rest', post, l, rfl, a1, a2⟩ := ih.1 h0
        refine ⟨.list (.int s :: rest) :: pre, s', h, d, rest', post, l, rfl, ?_, a2⟩
        simp only [parseLagged]
        rw [if_neg (by simp [c1']), if_neg c2, if_neg (by simp [c3']), if_pos c4]
        exact a1
      rename_i c4
      split at h0
      swap
      · cases h0
      rename_i h rest2
      split at h0
      · cases h0
      rename_i c5
      split at h0
      · cases h0
      rename_i c6
      have c6' : outOfOrder last (toLex (s, h) : SH) = false := by simpa using c6
      split at h0
      swap
      · cases h0
      rename_i d rest3
      rcases bind_hang.1 h0 with h1 | ⟨d', h1, h2⟩
      · exact ⟨[], s, h, d, rest3, t, [], rfl, by simp [parseLagged], c1', by omega, c3', by omega, by omega,
          hord.1 c6', by simp, loadD_hang_iff.1 h1⟩
      · split at h2
        · cases h2
        rename_i c7
        have c7' : rest3 = [] := by simpa using c7
        subst c7'
        rcases bind_hang.1 h2 with h3 | ⟨_, _, h3⟩
        swap
        · cases h3
        obtain ⟨pre, s', h', dd, rest', post, l, rfl, a1, a2, a3, a4, a5, a6, a7, a8, a9⟩ := ih.1 h3
        refine ⟨.list [.int s, .str h, .dict d] :: pre, s', h', dd, rest', post, (toLex (s, h), d') :: l, rfl, ?_,
          a2, a3, a4, a5, a6, fun y hy => lt_trans (hord.1 c6' y hy) (a7 _ rfl), ?_, a9⟩
        · simp only [parseLagged]
          rw [if_neg (by simp [c1']), if_neg c2, if_neg (by simp [c3']), if_neg c4, if_neg c5, if_neg c6, h1]
          simp only [Out.bind_ok, ne_eq, not_true_eq_false, if_false, a1]
        · intro p hp
          rcases List.mem_cons.1 hp with rfl | hp
          · exact a7 _ rfl
          · exact a8 p hp
    · rintro ⟨pre, s, h, d, rest, post, l, e, a1, a2, a3, a4, a5, a6, a7, a8, a9⟩
      cases pre with
      | nil =>
        simp only [List.nil_append, List.cons.injEq] at e
        obtain ⟨rfl, rfl⟩ := e
        simp only [parseLagged]
        rw [if_neg (by simp [a2]), if_neg (by omega), if_neg (by simp [a4]), if_neg (by omega), if_neg (by omega),
          if_neg (by rw [hord.2 a7]; simp), loadD_hang_iff.2 a9]
        rfl
      | cons r0 pre =>
        simp only [List.cons_append, List.cons.injEq] at e
        obtain ⟨rfl, rfl⟩ := e
        unfold parseLagged at a1 ⊢
        split at a1
        swap
        · cases a1
        rename_i s0 rest0
        split at a1
        · cases a1
        rename_i c1
        split at a1
        · cases a1
        rename_i c2
        split at a1
        · cases a1
        rename_i c3
        rw [if_neg c1, if_neg c2, if_neg c3]
        split at a1
        · rename_i c4
          rw [if_pos c4]
          exact ih.2 ⟨pre, s, h, d, rest, post, l, rfl, a1, a2, a3, a4, a5, a6, a7, a8, a9⟩
        rename_i c4
        rw [if_neg c4]
        split at a1
        swap
        · cases a1
        rename_i h0 rest2
        split at a1
        · cases a1
        rename_i c5
        split at a1
        · cases a1
        rename_i c6
        rw [if_neg c5, if_neg c6]
        split at a1
        swap
        · cases a1
        rename_i d0 rest3
        obtain ⟨d', h1, a1⟩ := Out.bind_eq_ok.1 a1
        rw [h1]
        simp only [Out.bind_ok]
        split at a1
        · cases a1
        rename_i c7
        rw [if_neg c7]
        obtain ⟨l', h2, a1⟩ := Out.bind_eq_ok.1 a1
        cases a1
        exact bind_hang.2 (.inl (ih.2 ⟨pre, s, h, d, rest, post, l', rfl, h2, a2, a3, a4, a5, a6,
          fun y hy => by cases hy; exact a8 _ (List.mem_cons_self ..), fun p hp => a8 p (List.mem_cons_of_mem _ hp), a9⟩))

/-! ### The stages -/

theorem loadUnknowns_local {prev til : Bytes} {pre X r : List TopEntry} {u u' : BtDict}
    (h : loadUnknowns prev til u (pre ++ r) = .ok (u', r)) (hp : ∀ e ∈ pre, e.key < til)
    (hX : ∀ e ∈ X.head?, ¬e.key < til) : loadUnknowns prev til u (pre ++ X) = .ok (u', X) := by
  induction pre generalizing u with
  | nil =>
    have hu : u' = u := by
      obtain ⟨p, h1, h2, _⟩ := loadUnknowns_ok h
      have : p = [] := by simpa using h1
      simpa [this] using h2
    cases X with
    | nil => simp [loadUnknowns, hu]
    | cons e t =>
      simp only [List.nil_append, loadUnknowns]
      rw [if_neg (hX e (by simp)), hu]
  | cons a t ih =>
    simp only [List.cons_append, loadUnknowns] at h ⊢
    rw [if_pos (hp a (by simp))] at h ⊢
    split at h
    · cases h
    · rename_i hc
      rw [if_neg hc]
      exact ih h fun e he => hp e (List.mem_cons_of_mem _ he)

/-- What has been read before `<`. -/
def Read4 (es : List TopEntry) (s : Int) (d : Dict) (u : BtDict) (r : List TopEntry) : Prop :=
  ∃ r1 u1 r2 r3, takeSeq es = .ok (s, r1) ∧ loadUnknowns kSeq kData [] r1 = .ok (u1, r2) ∧
    takeData r2 = .ok (d, r3) ∧ loadUnknowns kData kLag u1 r3 = .ok (u, r)

/-- What has been read before `=`. -/
def Read6 (lag : Int) (es : List TopEntry) (s : Int) (d : Dict) (lg : List (SH × BtDict)) (u : BtDict)
    (r : List TopEntry) : Prop :=
  ∃ u2 r4 r5, Read4 es s d u2 r4 ∧ takeLag s lag r4 = .ok (lg, r5) ∧ loadUnknowns kLag kDiff u2 r5 = .ok (u, r)

theorem read4_local {es : List TopEntry} {s : Int} {d : Dict} {u : BtDict} {r : List TopEntry} (h : Read4 es s d u r) :
    ∃ C, es = C ++ r ∧ (∀ e ∈ C, e.key < kLag) ∧ (∀ e ∈ r.head?, ¬e.key < kLag) ∧
      ∀ X : List TopEntry, (∀ e ∈ X.head?, ¬e.key < kLag) → Read4 (C ++ X) s d u X := by
  obtain ⟨r1, u1, r2, r3, h1, h2, h3, h4⟩ := h
  obtain ⟨hs, o1, rfl⟩ := takeSeq_ok h1
  obtain ⟨p1, rfl, _, _, hp1, hn1⟩ := loadUnknowns_ok h2
  obtain ⟨_, o2, rfl⟩ := takeData_ok h3
  obtain ⟨p2, rfl, _, _, hp2, hn2⟩ := loadUnknowns_ok h4
  have e1 : kSeq < kLag := by decide
  have e2 : kData < kLag := by decide
  refine ⟨⟨o1, kSeq, .int s⟩ :: (p1 ++ ⟨o2, kData, .dict (dictBt d)⟩ :: p2), by simp, ?_, ?_, ?_⟩
  · intro e he
    simp only [List.mem_cons, List.mem_append] at he
    rcases he with rfl | he | rfl | he
    · exact e1
    · exact lt_trans (hp1 e he).2 e2
    · exact e2
    · exact (hp2 e he).2
  · intro e he
    cases r with
    | nil => cases he
    | cons a t =>
      simp only [List.head?_cons, Option.mem_def, Option.some.injEq] at he
      subst he
      exact hn2 _ _ rfl
  · intro X hX
    refine ⟨p1 ++ ⟨o2, kData, .dict (dictBt d)⟩ :: (p2 ++ X), u1, ⟨o2, kData, .dict (dictBt d)⟩ :: (p2 ++ X), p2 ++ X, ?_,
      ?_, ?_, ?_⟩
    · simp [takeSeq, hs]
    · refine loadUnknowns_local h2 (fun e he => (hp1 e he).2) ?_
      intro e he
      simp only [List.head?_cons, Option.mem_def, Option.some.injEq] at he
      subst he
      exact lt_irrefl _
    · unfold takeData at h3 ⊢
      simp only [if_true] at h3 ⊢
      obtain ⟨x, hx, h3⟩ := Out.bind_eq_ok.1 h3
      cases h3
      rw [hx]
      rfl
    · exact loadUnknowns_local h4 (fun e he => (hp2 e he).2) hX

theorem read6_local {lag : Int} {es : List TopEntry} {s : Int} {d : Dict} {lg : List (SH × BtDict)} {u : BtDict}
    {r : List TopEntry} (h : Read6 lag es s d lg u r) (hr : r ≠ []) :
    ∃ C, es = C ++ r ∧ (∀ e ∈ C, e.key < kDiff) ∧ (∀ e ∈ r.head?, ¬e.key < kDiff) ∧
      ∀ X : List TopEntry, X ≠ [] → (∀ e ∈ X.head?, ¬e.key < kDiff) → Read6 lag (C ++ X) s d lg u X := by
  obtain ⟨u2, r4, r5, h4, h5, h6⟩ := h
  obtain ⟨C, rfl, hC, _, hloc⟩ := read4_local h4
  obtain ⟨p, rfl, _, _, hp, hn⟩ := loadUnknowns_ok h6
  have e1 : kLag < kDiff := by decide
  have hhead : ∀ e ∈ r.head?, ¬e.key < kDiff := by
    intro e he
    cases r with
    | nil => cases he
    | cons a t =>
      simp only [List.head?_cons, Option.mem_def, Option.some.injEq] at he
      subst he
      exact hn _ _ rfl
  cases r4 with
  | nil => simp [takeLag] at h5
  | cons e t =>
    simp only [takeLag] at h5
    by_cases hk : e.key = kLag
    · rw [if_pos hk] at h5
      obtain ⟨o, k, v⟩ := e
      cases v with
      | list rows =>
        simp only at h5 hk
        obtain ⟨x, hx, h5⟩ := Out.bind_eq_ok.1 h5
        cases h5
        subst hk
        refine ⟨C ++ ⟨o, kLag, .list rows⟩ :: p, by simp, ?_, hhead, ?_⟩
        · intro e he
          simp only [List.mem_append, List.mem_cons] at he
          rcases he with he | rfl | he
          · exact lt_trans (hC e he) e1
          · exact e1
          · exact (hp e he).2
        · intro X _ hX
          refine ⟨u2, ⟨o, kLag, .list rows⟩ :: (p ++ X), p ++ X, ?_, ?_, ?_⟩
          · have := hloc (⟨o, kLag, .list rows⟩ :: (p ++ X)) (by
              intro e he
              simp only [List.head?_cons, Option.mem_def, Option.some.injEq] at he
              subst he; exact lt_irrefl _)
            simpa using this
          · simp only [takeLag, if_true, hx]; rfl
          · exact loadUnknowns_local h6 (fun e he => (hp e he).2) hX
      | _ => cases h5
    · rw [if_neg hk] at h5
      obtain ⟨hlg, h7⟩ := Prod.mk.inj (Out.ok.inj h5)
      subst hlg
      refine ⟨C ++ p, by rw [h7]; simp, ?_, hhead, ?_⟩
      · intro e he
        rcases List.mem_append.1 he with he | he
        · exact lt_trans (hC e he) e1
        · exact (hp e he).2
      · intro X hX0 hX
        have hXk : ∀ e ∈ (p ++ X).head?, kLag < e.key := by
          intro e he
          cases p with
          | nil => exact lt_of_lt_of_le e1 (not_lt.1 (hX e (by simpa using he)))
          | cons a w =>
            simp only [List.cons_append, List.head?_cons, Option.mem_def, Option.some.injEq] at he
            subst he
            exact (hp _ (List.mem_cons_self ..)).1
        refine ⟨u2, p ++ X, p ++ X, ?_, ?_, loadUnknowns_local h6 (fun e he => (hp e he).2) hX⟩
        · rw [List.append_assoc]
          exact hloc _ fun e he => not_lt.2 (le_of_lt (hXk e he))
        · cases hpx : p ++ X with
          | nil => simp at hpx; exact absurd hpx.2 hX0
          | cons a w =>
            rw [hpx] at hXk
            simp only [takeLag]
            rw [if_neg (ne_of_gt (hXk a (by simp)))]

/-! ### The message -/

theorem takeSeq_ne_hang {es : List TopEntry} : takeSeq es ≠ .hang := by
  unfold takeSeq
  split
  · split <;> simp
  · simp

theorem takeData_ne_hang {es : List TopEntry} : takeData es ≠ .hang := by
  unfold takeData
  split
  · split
    · intro h
      rcases bind_hang.1 h with h | ⟨_, _, h⟩
      · exact parseD_ne_hang _ _ h
      · cases h
    · simp
  · simp

theorem verifySig_ne_hang {env : Env} {trust : Bool} {bs : Bytes} {es : List TopEntry} :
    verifySig env trust bs es ≠ .hang := by
  unfold verifySig
  repeat' split
  all_goals intro h; cases h

theorem takeLag_hang {cur lag : Int} {es : List TopEntry} : takeLag cur lag es = .hang ↔
    ∃ o rows t, es = ⟨o, kLag, .list rows⟩ :: t ∧ parseLagged cur lag none rows = .hang := by
  constructor
  · intro h
    cases es with
    | nil => simp [takeLag] at h
    | cons e t =>
      obtain ⟨o, k, v⟩ := e
      simp only [takeLag] at h
      split at h
      · rename_i hk
        subst hk
        cases v with
        | list rows =>
          rcases bind_hang.1 h with h | ⟨_, _, h⟩
          · exact ⟨o, rows, t, rfl, h⟩
          · cases h
        | _ => cases h
      · cases h
  · rintro ⟨o, rows, t, rfl, h⟩
    simp only [takeLag, if_true, h]
    rfl

theorem takeDiff_hang {es : List TopEntry} : takeDiff es = .hang ↔
    ∃ o d t, es = ⟨o, kDiff, .dict d⟩ :: t ∧ Traps d := by
  constructor
  · intro h
    cases es with
    | nil => simp [takeDiff] at h
    | cons e t =>
      obtain ⟨o, k, v⟩ := e
      simp only [takeDiff] at h
      split at h
      · rename_i hk
        subst hk
        cases v with
        | dict d =>
          rcases bind_hang.1 h with h | ⟨_, _, h⟩
          · exact ⟨o, d, t, rfl, loadD_hang_iff.1 h⟩
          · cases h
        | _ => cases h
      · cases h
  · rintro ⟨o, d, t, rfl, h⟩
    simp only [takeDiff, if_true, loadD_hang_iff.2 h]
    rfl

theorem parseEntries_hang {env : Env} {trust : Bool} {bs : Bytes} {es : List TopEntry} :
    parseEntries env trust bs es = .hang ↔
      (∃ s d u r, Read4 es s d u r ∧ takeLag s env.lag r = .hang) ∨
      (∃ s d lg u r, Read6 env.lag es s d lg u r ∧ takeDiff r = .hang) := by
  unfold parseEntries
  constructor
  · intro h
    rcases bind_hang.1 h with h | ⟨⟨s, r1⟩, h1, h⟩
    · exact absurd h takeSeq_ne_hang
    rcases bind_hang.1 h with h | ⟨⟨u1, r2⟩, h2, h⟩
    · exact absurd h (loadUnknowns_ne_hang _ _ _ _)
    rcases bind_hang.1 h with h | ⟨⟨d, r3⟩, h3, h⟩
    · exact absurd h takeData_ne_hang
    rcases bind_hang.1 h with h | ⟨⟨u2, r4⟩, h4, h⟩
    · exact absurd h (loadUnknowns_ne_hang _ _ _ _)
    rcases bind_hang.1 h with h | ⟨⟨lg, r5⟩, h5, h⟩
    · exact .inl ⟨s, d, u2, r4, ⟨r1, u1, r2, r3, h1, h2, h3, h4⟩, h⟩
    rcases bind_hang.1 h with h | ⟨⟨u3, r6⟩, h6, h⟩
    · exact absurd h (loadUnknowns_ne_hang _ _ _ _)
    rcases bind_hang.1 h with h | ⟨⟨df, r7⟩, h7, h⟩
    · exact .inr ⟨s, d, lg, u3, r6, ⟨u2, r4, r5, ⟨r1, u1, r2, r3, h1, h2, h3, h4⟩, h5, h6⟩, h⟩
    rcases bind_hang.1 h with h | ⟨⟨u4, r8⟩, h8, h⟩
    · exact absurd h (loadUnknowns_ne_hang _ _ _ _)
    rcases bind_hang.1 h with h | ⟨_, h9, h⟩
    · exact absurd h verifySig_ne_hang
    · cases h
  · rintro (⟨s, d, u, r, ⟨r1, u1, r2, r3, h1, h2, h3, h4⟩, h⟩ |
      ⟨s, d, lg, u, r, ⟨u2, r4, r5, ⟨r1, u1, r2, r3, h1, h2, h3, h4⟩, h5, h6⟩, h⟩)
    · simp only [h1, h2, h3, h4, h, Out.bind_ok]; rfl
    · simp only [h1, h2, h3, h4, h5, h6, h, Out.bind_ok]; rfl

theorem parseEntries_read6 {env : Env} {trust : Bool} {bs : Bytes} {es : List TopEntry} {m : Msg}
    (h : parseEntries env trust bs es = .ok m) :
    ∃ u r, r ≠ [] ∧ Read6 env.lag es m.seqno m.data m.lagged u r := by
  unfold parseEntries at h
  obtain ⟨⟨s, r1⟩, h1, h⟩ := Out.bind_eq_ok.1 h
  obtain ⟨⟨u1, r2⟩, h2, h⟩ := Out.bind_eq_ok.1 h
  obtain ⟨⟨d, r3⟩, h3, h⟩ := Out.bind_eq_ok.1 h
  obtain ⟨⟨u2, r4⟩, h4, h⟩ := Out.bind_eq_ok.1 h
  obtain ⟨⟨lg, r5⟩, h5, h⟩ := Out.bind_eq_ok.1 h
  obtain ⟨⟨u3, r6⟩, h6, h⟩ := Out.bind_eq_ok.1 h
  obtain ⟨⟨df, r7⟩, h7, h⟩ := Out.bind_eq_ok.1 h
  obtain ⟨⟨u4, r8⟩, h8, h⟩ := Out.bind_eq_ok.1 h
  obtain ⟨vs, h9, h⟩ := Out.bind_eq_ok.1 h
  cases h
  refine ⟨u3, r6, ?_, u2, r4, r5, ⟨r1, u1, r2, r3, h1, h2, h3, h4⟩, h5, h6⟩
  rintro rfl
  simp [takeDiff] at h7

/-- An empty diff after what was read gives a message. -/
theorem read6_done {env : Env} {trust : Bool} {bs : Bytes} {es : List TopEntry} {s : Int} {d : Dict}
    {lg : List (SH × BtDict)} {u : BtDict} {o : Nat} (hv : env.verifier = none)
    (h : Read6 env.lag es s d lg u [⟨o, kDiff, .dict []⟩]) :
    ∃ m, parseEntries env trust bs es = .ok m ∧ m.seqno = s ∧ m.lagged = lg := by
  obtain ⟨u2, r4, r5, ⟨r1, u1, r2, r3, h1, h2, h3, h4⟩, h5, h6⟩ := h
  refine ⟨{ data := d, diff := [], lagged := lg, unknown := u, seqno := s, hash := env.H bs, vsig := none, unmerged := -1 }, ?_, rfl, rfl⟩
  unfold parseEntries
  simp only [h1, h2, h3, h4, h5, h6, Out.bind_ok, takeDiff, if_true, loadD, loadUnknowns, verifySig, hv,
    Option.isSome_none, Bool.false_eq_true, if_false]

theorem topEntries_split {o : Nat} {D : BtDict} {C t : List TopEntry} {e : TopEntry} (h : topEntries o D = C ++ e :: t) :
    ∃ A R, D = A ++ e.kv :: R ∧ C = topEntries o A ∧ e :: t = topEntries (o + (encD A).length) (e.kv :: R) := by
  have h1 : D = C.map TopEntry.kv ++ e.kv :: t.map TopEntry.kv := by
    rw [← topEntries_kv o D, h]; simp
  have hlen : ∀ (o : Nat) (X : BtDict), (topEntries o X).length = X.length := by
    intro o X
    rw [← List.length_map (f := TopEntry.kv), topEntries_kv]
  refine ⟨C.map TopEntry.kv, t.map TopEntry.kv, h1, ?_⟩
  have h2 := h
  rw [h1, topEntries_append] at h2
  have := List.append_inj h2 (by rw [hlen, List.length_map])
  exact ⟨this.1.symm, this.2.symm⟩

theorem okD_append_iff {A B : BtDict} : Bt.okD (A ++ B) = true ↔ Bt.okD A = true ∧ Bt.okD B = true := by
  induction A with
  | nil => simp [Bt.okD]
  | cons p t ih =>
    obtain ⟨k, v⟩ := p
    simp only [List.cons_append, Bt.okD, Bool.and_eq_true, ih, and_assoc]

theorem okL_append_iff {A B : List Bt} : Bt.okL (A ++ B) = true ↔ Bt.okL A = true ∧ Bt.okL B = true := by
  induction A with
  | nil => simp [Bt.okL]
  | cons p t ih =>
    simp only [List.cons_append, Bt.okL, Bool.and_eq_true, ih, and_assoc]

/-- Reading without a verifier. -/
def Env.bare (env : Env) : Env := { env with verifier := none }

theorem documented_read6 {env : Env} {D : BtDict} (hD : Bt.okD D = true) {m : Msg}
    (hub : int64Ok (m.seqno - env.lag) = true) (h : Documented none env.lag D m) :
    ∃ u r, r ≠ [] ∧ Read6 env.lag (topEntries 1 D) m.seqno m.data m.lagged u r := by
  obtain ⟨m', e1, e2, e3, e4, e5, e6, e7, e8⟩ : ∃ m' : Msg, m'.data = m.data ∧ m'.diff = m.diff ∧ m'.lagged = m.lagged ∧
      m'.unknown = m.unknown ∧ m'.seqno = m.seqno ∧ m'.vsig = none ∧ m'.hash = env.H (100 :: (encD D ++ [101])) ∧
      m'.unmerged = -1 := ⟨{ m with vsig := none, hash := env.H (100 :: (encD D ++ [101])), unmerged := -1 }, rfl, rfl, rfl, rfl, rfl,
        rfl, rfl, rfl⟩
  have h' : Documented env.bare.verifier env.bare.lag D m' :=
    ⟨h.sorted, h.noBreak, h.noTail, by rw [e5]; exact h.seqno, by rw [e1]; exact h.data, by rw [e5, e3]; exact h.lagged,
      by rw [e2]; exact h.diff, h.more, by rw [e4]; exact h.unknown, h.sig64, h.signed⟩
  have hv : ∀ s, m'.vsig = some s ↔ (env.bare.verifier.isSome = true ∨ false = true) ∧ ([126], .str s) ∈ D := by
    intro s
    rw [e6]
    exact ⟨fun h => (by cases h), fun h => (by rcases h.1 with h | h <;> cases h)⟩
  have := (accepted_iff_documented (env := env.bare) (trust := false) hD (m := m') (by rw [e5]; exact hub)).2
    ⟨h', hv, e7, e8⟩
  rw [parse_encoded hD] at this
  obtain ⟨u, r, h1, h2⟩ := parseEntries_read6 this
  rw [e1, e3, e5] at h2
  exact ⟨u, r, h1, h2⟩

theorem read6_documented {env : Env} {D : BtDict} (hD : Bt.okD D = true) {s : Int} {d : Dict}
    {lg : List (SH × BtDict)} {u : BtDict} {o : Nat} (hub : int64Ok (s - env.lag) = true)
    (h : Read6 env.lag (topEntries 1 D) s d lg u [⟨o, kDiff, .dict []⟩]) :
    ∃ m, Documented none env.lag D m ∧ m.seqno = s ∧ m.lagged = lg := by
  obtain ⟨m, h1, rfl, rfl⟩ := read6_done (env := env.bare) (trust := false) (bs := 100 :: (encD D ++ [101])) rfl h
  rw [← parse_encoded hD] at h1
  exact ⟨m, ((accepted_iff_documented (env := env.bare) hD hub).1 h1).1, rfl, rfl⟩

theorem read4_seq {o : Nat} {D : BtDict} {s : Int} {d : Dict} {u : BtDict} {r : List TopEntry}
    (h : Read4 (topEntries o D) s d u r) : int64Ok s = true ∧ ([35], .int s) ∈ D := by
  obtain ⟨r1, _, _, _, h1, _⟩ := h
  obtain ⟨h2, o', h3⟩ := takeSeq_ok h1
  refine ⟨h2, ?_⟩
  have := congrArg (List.map TopEntry.kv) h3
  rw [topEntries_kv] at this
  rw [this]
  simp [TopEntry.kv, kSeq]

/-- C07.  When parsing does not end: `D` is any bencoded dict.  Reading it as a config message hangs if and
only if everything before some diff is as documented and the diff has an integer, or a dict that has one, as a
value (of the diff, or of a dict in it that is reached).  Whether there is a signature, and who made it, plays no role. -/
theorem parse_hangs_iff {env : Env} {trust : Bool} {D : BtDict} (hD : Bt.okD D = true)
    (hub : ∀ s, ([35], .int s) ∈ D → int64Ok s = true → int64Ok (s - env.lag) = true) :
    parseMsg env trust (100 :: (encD D ++ [101])) = .hang ↔ TrapMsg env.lag D := by
  rw [parse_encoded hD, parseEntries_hang]
  constructor
  · rintro (⟨s, d, u, r, h4, h⟩ | ⟨s, d, lg, u, r, h6, h⟩)
    · obtain ⟨o, rows, t, rfl, hpl⟩ := takeLag_hang.1 h
      obtain ⟨hs64, hsD⟩ := read4_seq h4
      obtain ⟨C, hC, _, _, hloc⟩ := read4_local h4
      obtain ⟨A, R, hA, rfl, _⟩ := topEntries_split hC
      simp only [TopEntry.kv] at hA
      obtain ⟨pre, s', hh, dd, rest, post, l, rfl, a1, a2, a3, a4, a5, a6, _, a8, a9⟩ := parseLagged_hang.1 hpl
      have hok := hD
      rw [hA, okD_append_iff] at hok
      have hok2 : Bt.okL pre = true := by
        have := hok.2
        simp only [Bt.okD, Bt.ok, Bool.and_eq_true, okL_append_iff] at this
        exact this.1.1
      have hok' : Bt.okD (A ++ [([60], .list pre), ([61], .dict [])]) = true := by
        rw [okD_append_iff]
        exact ⟨hok.1, by simp [Bt.okD, Bt.ok, hok2]⟩
      set o1 := 1 + (encD A).length with ho1
      set o2 := o1 + ((encStr kLag).length + (encV (.list pre)).length) with ho2
      have htop : topEntries 1 (A ++ [([60], .list pre), ([61], .dict [])]) =
          topEntries 1 A ++ [⟨o1, kLag, .list pre⟩, ⟨o2, kDiff, .dict []⟩] := by
        rw [topEntries_append]; rfl
      have h4' := hloc [⟨o1, kLag, .list pre⟩, ⟨o2, kDiff, .dict []⟩] (by
        intro e he
        simp only [List.head?_cons, Option.mem_def, Option.some.injEq] at he
        subst he; exact lt_irrefl _)
      have h6' : Read6 env.lag (topEntries 1 (A ++ [([60], .list pre), ([61], .dict [])])) s d l u [⟨o2, kDiff, .dict []⟩] := by
        rw [htop]
        refine ⟨u, _, [⟨o2, kDiff, .dict []⟩], h4', ?_, ?_⟩
        · simp only [takeLag, if_true, a1]; rfl
        · simp only [loadUnknowns, lt_irrefl, if_false]
      obtain ⟨m, hm, rfl, rfl⟩ := read6_documented hok' (hub s hsD hs64) h6'
      simp only [int64Ok, Bool.and_eq_true, decide_eq_true_eq] at a2
      exact .earlier hA hm a5 a3 a2.1 a6 a8 a9
    · obtain ⟨o, dd, t, rfl, ht⟩ := takeDiff_hang.1 h
      have hsD := h6
      obtain ⟨_, _, _, h4, _⟩ := hsD
      obtain ⟨hs64, hsD⟩ := read4_seq h4
      obtain ⟨C, hC, _, _, hloc⟩ := read6_local h6 (by simp)
      obtain ⟨A, R, hA, rfl, _⟩ := topEntries_split hC
      simp only [TopEntry.kv] at hA
      have hok := hD
      rw [hA, okD_append_iff] at hok
      have hok' : Bt.okD (A ++ [([61], .dict [])]) = true := by
        rw [okD_append_iff]
        exact ⟨hok.1, by simp [Bt.okD, Bt.ok]⟩
      have h6' := hloc [⟨1 + (encD A).length, kDiff, .dict []⟩] (by simp) (by
        intro e he
        simp only [List.head?_cons, Option.mem_def, Option.some.injEq] at he
        subst he; exact lt_irrefl _)
      have htop : topEntries 1 (A ++ [([61], .dict [])]) = topEntries 1 A ++ [⟨1 + (encD A).length, kDiff, .dict []⟩] := by
        rw [topEntries_append]; rfl
      rw [← htop] at h6'
      obtain ⟨m, hm, _, _⟩ := read6_documented hok' (hub s hsD hs64) h6'
      exact .diff hA hm ht
  · intro h
    have key : ∀ {A B : BtDict} {o : Nat} {p : Bytes × Bt}, (A ++ p :: B).Pairwise (fun a b => a.1 < b.1) →
        ∀ e ∈ topEntries o A, e.key < p.1 := by
      intro A B o p hs e he
      have hmem : e.kv ∈ A := by
        rw [← topEntries_kv o A]; exact List.mem_map_of_mem he
      exact (List.pairwise_append.1 hs).2.2 _ hmem p (by simp)
    cases h with
    | @diff A d R m hA hm ht =>
      right
      subst hA
      have hok := okD_append_iff.1 hD
      have hok' : Bt.okD (A ++ [([61], .dict [])]) = true := by
        rw [okD_append_iff]
        exact ⟨hok.1, by simp [Bt.okD, Bt.ok]⟩
      have hseq : ([35], .int m.seqno) ∈ A := by
        have := hm.seqno.1
        simpa using this
      have hub' := hub m.seqno (List.mem_append_left _ hseq) (by
        simp only [int64Ok, Bool.and_eq_true, decide_eq_true_eq]; exact hm.seqno.2)
      obtain ⟨u, r, hr, h6⟩ := documented_read6 hok' hub' hm
      obtain ⟨C, hC, hCk, hrk, hloc⟩ := read6_local h6 hr
      have hall := key (o := 1) (B := []) hm.sorted
      rw [topEntries_append] at hC
      have hCA : C = topEntries 1 A := by
        rcases List.append_eq_append_iff.1 hC with ⟨w, h1, h2⟩ | ⟨w, h1, h2⟩
        · cases w with
          | nil => simpa using h1
          | cons a w' =>
            exfalso
            simp only [topEntries, List.cons_append, List.cons.injEq] at h2
            have ha : a ∈ C := by rw [h1]; simp
            have := hCk a ha
            rw [← h2.1] at this
            exact absurd this (lt_irrefl _)
        · cases w with
          | nil => simpa using h1.symm
          | cons a w' =>
            exfalso
            rw [h2] at hrk
            exact hrk a (by simp) (hall a (by rw [h1]; simp))
      subst hCA
      have h6' := hloc (topEntries (1 + (encD A).length) (([61], .dict d) :: R)) (by simp [topEntries]) (by
        intro e he
        simp only [topEntries, List.head?_cons, Option.mem_def, Option.some.injEq] at he
        subst he; exact lt_irrefl _)
      rw [← topEntries_append] at h6'
      exact ⟨_, _, _, _, _, h6', takeDiff_hang.2 ⟨_, d, _, rfl, ht⟩⟩
    | @earlier A R d before rest post s h m hA hm h1 h2 h3 h4 h5 ht =>
      left
      subst hA
      have hok := okD_append_iff.1 hD
      have hok2 : Bt.okL before = true := by
        have := hok.2
        simp only [Bt.okD, Bt.ok, Bool.and_eq_true, okL_append_iff] at this
        exact this.1.1
      have hok' : Bt.okD (A ++ [([60], .list before), ([61], .dict [])]) = true := by
        rw [okD_append_iff]
        exact ⟨hok.1, by simp [Bt.okD, Bt.ok, hok2]⟩
      have hseq : ([35], .int m.seqno) ∈ A := by
        have := hm.seqno.1
        simpa using this
      have hs64 : int64Ok m.seqno = true := by
        simp only [int64Ok, Bool.and_eq_true, decide_eq_true_eq]; exact hm.seqno.2
      have hub' := hub m.seqno (List.mem_append_left _ hseq) hs64
      obtain ⟨u, r, hr, u2, r4, r5, h4', h5', _⟩ := documented_read6 hok' hub' hm
      obtain ⟨C, hC, hCk, hrk, hloc⟩ := read4_local h4'
      have hall := key (o := 1) (B := [([61], .dict [])]) hm.sorted
      rw [topEntries_append] at hC
      have hCA : C = topEntries 1 A ∧ topEntries (1 + (encD A).length) [([60], .list before), ([61], .dict [])] = r4 := by
        rcases List.append_eq_append_iff.1 hC with ⟨w, h1, h2⟩ | ⟨w, h1, h2⟩
        · cases w with
          | nil => exact ⟨by simpa using h1, by simpa using h2⟩
          | cons a w' =>
            exfalso
            simp only [topEntries, List.cons_append, List.cons.injEq] at h2
            have ha : a ∈ C := by rw [h1]; simp
            have := hCk a ha
            rw [← h2.1] at this
            exact absurd this (lt_irrefl _)
        · cases w with
          | nil => exact ⟨by simpa using h1.symm, by simpa using h2.symm⟩
          | cons a w' =>
            exfalso
            rw [h2] at hrk
            exact hrk a (by simp) (hall a (by rw [h1]; simp))
      obtain ⟨rfl, rfl⟩ := hCA
      simp only [topEntries, takeLag] at h5'
      rw [if_pos (show ([60] : Bytes) = kLag from rfl)] at h5'
      obtain ⟨x, hx, h5'⟩ := Out.bind_eq_ok.1 h5'
      cases h5'
      have h4'' := hloc (topEntries (1 + (encD A).length)
        (([60], .list (before ++ .list (.int s :: .str h :: .dict d :: rest) :: post)) :: R)) (by
        intro e he
        simp only [topEntries, List.head?_cons, Option.mem_def, Option.some.injEq] at he
        subst he; exact lt_irrefl _)
      rw [← topEntries_append] at h4''
      refine ⟨_, _, _, _, h4'', takeLag_hang.2 ⟨_, _, _, rfl, ?_⟩⟩
      have hsn := hm.seqno.2
      exact parseLagged_hang.2 ⟨before, s, h, d, rest, post, _, rfl, hx, by
        simp only [int64Ok, Bool.and_eq_true, decide_eq_true_eq]; omega, h2, hub', h1, h4, by simp, h5, ht⟩

/-- C07.  Whether a message hangs the reader does not depend on its signature, nor on who verifies it: for all bytes
and any two readers with the same lag, it hangs both or neither. -/
theorem hang_ignores_signature {env env' : Env} {trust trust' : Bool} {bs : Bytes} (hl : env'.lag = env.lag) :
    parseMsg env trust bs = .hang ↔ parseMsg env' trust' bs = .hang := by
  unfold parseMsg
  split
  · split
    · rw [parseEntries_hang, parseEntries_hang, hl]
    · rfl
  · rfl

/-- A message with the diff `{"a": 1}`. -/
def exTrapD : BtDict := [([35], .int 3), ([38], .dict []), ([60], .list []), ([61], .dict [([97], .int 1)])]

/-- A message with an earlier change whose diff has the dict `{"b": {"a": 1}}`; nothing after it is read. -/
def exTrapE : BtDict := [([35], .int 3), ([38], .dict []),
  ([60], .list [.list [.int 2, .str (List.replicate 32 7), .dict [([98], .dict [([97], .int 1)])]], .int 4]), ([126], .int 0)]

private theorem trapD_hangs : parseMsg ⟨fun _ => [], some fun _ _ => false, none, 5⟩ false (100 :: (encD exTrapD ++ [101])) = .hang := by
  decide +kernel

private theorem trapE_hangs : parseMsg ⟨fun _ => [], some fun _ _ => false, none, 5⟩ false (100 :: (encD exTrapE ++ [101])) = .hang := by
  decide +kernel

private theorem trap_hub {D : BtDict} (h : ∀ p ∈ D, p.1 = [35] → p.2 = .int 3) :
    ∀ s, ([35], .int s) ∈ D → int64Ok s = true → int64Ok (s - 5) = true := by
  intro s hs _
  have := h _ hs rfl
  simp only [Bt.int.injEq] at this
  subst this
  decide

/-- The hypotheses hold of both, and both hang readers that take no signature for valid. -/
example : Bt.okD exTrapD = true ∧ TrapMsg 5 exTrapD ∧ Bt.okD exTrapE = true ∧ TrapMsg 5 exTrapE := by
  have h1 : Bt.okD exTrapD = true := by decide +kernel
  have h2 : Bt.okD exTrapE = true := by decide +kernel
  refine ⟨h1, ?_, h2, ?_⟩
  · exact (parse_hangs_iff (env := ⟨fun _ => [], some fun _ _ => false, none, 5⟩) h1 (trap_hub (by
      intro p hp; simp only [exTrapD, List.mem_cons, List.not_mem_nil, or_false] at hp
      rcases hp with rfl | rfl | rfl | rfl <;> first | (intro _; rfl) | (intro h; cases h)))).1 trapD_hangs
  · exact (parse_hangs_iff (env := ⟨fun _ => [], some fun _ _ => false, none, 5⟩) h2 (trap_hub (by
      intro p hp; simp only [exTrapE, List.mem_cons, List.not_mem_nil, or_false] at hp
      rcases hp with rfl | rfl | rfl | rfl <;> first | (intro _; rfl) | (intro h; cases h)))).1 trapE_hangs

/-- And the diff `{"a": {}}`, or an integer after a value that is refused, do not. -/
example : ¬Traps [([97], .dict [])] ∧ ¬Traps [([97], .str [120]), ([98], .int 1)] := by
  constructor <;> rw [← loadD_hang_iff] <;> decide +kernel

/-! ### A config object -/

/-- C07.  Whoever has an encryption key of a config can hang every object that uses it: merging one such
message, with no valid signature in it, does not end, whatever the object holds and whether or not it requires
signatures. -/
theorem key_holder_hangs_merge {S : Sys} (hS : S.Good) {c : Client} (hc : Reach S c) {k : Bytes} {ks : List Bytes}
    (hk : c.keys = k :: ks) (hl : k.length = 32) {D : BtDict} (hD : Bt.okD D = true)
    (hub : ∀ s, ([35], .int s) ∈ D → int64Ok s = true → int64Ok (s - S.env.lag) = true) (ht : TrapMsg S.env.lag D)
    {n : Int} {out : Bytes} (h : envelope S k n (100 :: (encD D ++ [101])) = .ok out) (hash : Bytes) :
    (c.merge S [(hash, out)]).2 = .hang := by
  have hr := receive_head hS hl h ks
  have hg : gather S c.keys [(hash, out)] = [(hash, 100 :: (encD D ++ [101]))] := by
    rw [hk]
    simp [gather, hr]
  have hb := (parse_hangs_iff (trust := false) hD hub).2 ht
  have hall : mergeMsgs S.env ((c.allConfs S.env [(hash, 100 :: (encD D ++ [101]))]).map (·.2)) = .hang := by
    unfold mergeMsgs
    refine bind_hang.2 (.inl ?_)
    unfold Client.allConfs
    by_cases hm : c.hasMine = true
    · rw [if_pos hm]
      simp only [List.cons_append, List.nil_append, List.map_cons, List.map_nil, parseAll]
      rw [(hc.inv hS).parse_own hS hm, hb]
      rfl
    · rw [if_neg hm]
      simp only [List.nil_append, List.map_cons, List.map_nil, parseAll]
      rw [hb]
  unfold Client.merge
  rw [if_neg (by rw [hk]; simp), hg]
  unfold Client.mergeCore
  simp only [hall]

private theorem exC1_keys : exC1.keys = [exKey] := by decide +kernel
private theorem trap_sealed : (envelope exSys exKey 3 (100 :: (encD exTrapD ++ [101]))).isOk = true := by decide +kernel

/-- An object with changes of its own, and a verifier that wants signatures. -/
example : ∃ out, envelope exSys exKey 3 (100 :: (encD exTrapD ++ [101])) = .ok out ∧
    (exC1.merge exSys [([9], out)]).2 = .hang := by
  have h1 : Bt.okD exTrapD = true := by decide +kernel
  have hub := trap_hub (D := exTrapD) (by
      intro p hp; simp only [exTrapD, List.mem_cons, List.not_mem_nil, or_false] at hp
      rcases hp with rfl | rfl | rfl | rfl <;> first | (intro _; rfl) | (intro h; cases h))
  have ht := (parse_hangs_iff (env := ⟨fun _ => [], some fun _ _ => false, none, 5⟩) h1 hub).1 trapD_hangs
  cases ho : envelope exSys exKey 3 (100 :: (encD exTrapD ++ [101])) with
  | ok out => exact ⟨out, rfl, key_holder_hangs_merge exSys_good exC1_reach exC1_keys (by decide) h1 hub ht ho _⟩
  | _ => have := trap_sealed; rw [ho] at this; cases this

end Verif
