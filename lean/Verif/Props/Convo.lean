import Verif.Convo
import Verif.Props.Community
import Verif.Props.Contacts
import Verif.Props.ClientNet

/-!
# Volatile conversation info: C54 - C57
-/

namespace Verif

/-! ### Vocabulary -/

/-- Two spellings of one id of the given kind -/
def SameConvo (k : ConvoKind) (a b : Bytes) : Prop :=
  ∃ pk, idBytes a k.pre = .ok pk ∧ idBytes b k.pre = .ok pk

/-- The conversation stored at a path, the default one if there is none -/
def Client.convoAt (c : Client) (p : List Bytes) : Convo := (loadConvo (c.get p)).getD {}

/-- What is stored after `set`: the flag as given; the time as given if it is earlier than the stored
one, or not more than 30 days ago; otherwise the stored time. -/
def Convo.after (now : Int) (old new : Convo) : Convo :=
  { lastRead := if new.lastRead < old.lastRead ∨
        new.lastRead * 10 ^ 6 > now - 30 * 24 * 3600 * 10 ^ 9
      then new.lastRead else old.lastRead
    unread := new.unread }

/-- Last read more than 45 days ago (in whole milliseconds) and not marked unread -/
def Convo.Old (now : Int) (x : Convo) : Prop :=
  x.unread = false ∧ x.lastRead < (now - 45 * 24 * 3600 * 10 ^ 9).tdiv (10 ^ 6)

instance (now : Int) (x : Convo) : Decidable (x.Old now) := by unfold Convo.Old; infer_instance

theorem stale_iff (now : Int) (x : Convo) : x.stale now = true ↔ x.Old now := by
  unfold Convo.stale Convo.Old pruneCutoff pruneHigh
  simp

/-! ### Paths -/

theorem nested_same_length {p q : List Bytes} (hl : p.length = q.length) (h : Nested p q) : p = q := by
  rcases h with h | h
  · exact h.eq_of_length hl
  · exact (h.eq_of_length hl.symm).symm

theorem nested_head {a b : Bytes} {p q : List Bytes} (h : Nested (a :: p) (b :: q)) : a = b := by
  rcases h with h | h
  · exact (List.cons_prefix_cons.1 h).1
  · exact ((List.cons_prefix_cons.1 h).1).symm

theorem kind_path_ne {k k' : ConvoKind} (h : k ≠ k') (p q : List Bytes) :
    ¬ Nested (k.path ++ p) (k'.path ++ q) := by
  intro hn
  cases k <;> cases k' <;> first
    | exact h rfl
    | exact absurd (nested_head hn) (by decide)

theorem kind_path_O (k : ConvoKind) (p q : List Bytes) : ¬ Nested (k.path ++ p) (pathO ++ q) := by
  intro hn
  cases k <;> exact absurd (nested_head hn) (by decide)

theorem nested_record_ne {P : List Bytes} {a b : Bytes} (h : a ≠ b) (q : List Bytes) :
    ¬ Nested (P ++ [a]) (P ++ b :: q) := by
  intro hn
  rcases hn with hn | hn
  · rw [List.prefix_append_right_inj] at hn
    exact h (List.cons_prefix_cons.1 hn).1
  · rw [List.prefix_append_right_inj] at hn
    exact h ((List.cons_prefix_cons.1 hn).1).symm

theorem idBytes_kind_head {k : ConvoKind} {s b : Bytes} (h : idBytes s k.pre = .ok b) :
    b.length = 33 ∧ b.head? = some k.byte := by
  cases k
  · exact ⟨idBytes_len rfl h, idBytes_head05 h⟩
  · exact ⟨idBytes_len rfl h, idBytes_head03 h⟩
  · exact ⟨idBytes_len rfl h, idBytes_head05 h⟩

theorem idBytes_kind_toHex {k : ConvoKind} {b : Bytes} (hl : b.length = 33)
    (hh : b.head? = some k.byte) : idBytes (toHex b) k.pre = .ok b := by
  cases k
  · exact idBytes_toHex05 hl hh
  · exact idBytes_toHex03 hl hh
  · exact idBytes_toHex05 hl hh

/-! ### `set_base` -/

theorem convoAt_eq (c : Client) {p : List Bytes} (hp : p ≠ []) :
    c.convoAt p = { lastRead := (intOf (c.get (p ++ [[114]]))).getD 0,
                    unread := (intOf (c.get (p ++ [[117]]))).getD 0 != 0 } := by
  unfold Client.convoAt
  have h : ∀ k, c.get (p ++ [k]) = (c.get p).bind fun v => match v with
      | .dict e => mget k e
      | _ => none := fun k => valAt_snoc p k _ hp
  rw [h, h]
  cases hv : c.get p with
  | none => rfl
  | some v => cases v <;> rfl

theorem loadConvo_none {c : Client} {p : List Bytes} (h : loadConvo (c.get p) = none) :
    c.convoAt p = {} := by unfold Client.convoAt; rw [h]; rfl

theorem setBase_spec {S : Sys} (hS : S.Good) {now : Int} {c c' : Client} (hc : Reach S c)
    {p : List Bytes} (hp : p ≠ []) {x : Convo} (hx : int64Ok x.lastRead = true) (h0 : 0 ≤ x.lastRead)
    (h : c.setBase S now p x = (c', .ok ())) :
    Reach S c' ∧ c'.convoAt p = (c.convoAt p).after now x ∧
    (∀ k, k ≠ [114] → k ≠ [117] → c'.get (p ++ [k]) = c.get (p ++ [k])) ∧
    (∀ q, ¬ Nested p q → c'.get q = c.get q) := by
  have hpre : ∀ k, p <+: p ++ [k] := fun k => List.prefix_append p [k]
  unfold Client.setBase at h
  -- the two possible lists of writes
  have two : ∀ {c c' : Client}, Reach S c →
      c.writeAll S [(p ++ [[114]], some (.scalar (.int x.lastRead))), (p ++ [[117]], fFlag x.unread)] =
        (c', .ok ()) → Reach S c' ∧ c'.convoAt p = x ∧
        (∀ k, k ≠ [114] → k ≠ [117] → c'.get (p ++ [k]) = c.get (p ++ [k])) ∧
        (∀ q, ¬ Nested p q → c'.get q = c.get q) := by
    intro c c' hc h
    obtain ⟨a1, a2, a3⟩ := writeAll_get hS _ hc (by
      simp only [List.mem_cons, List.not_mem_nil, or_false, forall_eq_or_imp, forall_eq]
      exact ⟨⟨by simp, wfO_int hx⟩, by simp, wfO_flag _⟩)
      (by simp only [List.pairwise_cons, List.mem_cons, List.not_mem_nil, or_false, forall_eq,
            List.Pairwise.nil, and_true, false_imp_iff, implies_true]
          exact not_nested_snoc (by decide)) h
    have g1 := a2 (p ++ [[114]], some (.scalar (.int x.lastRead))) (by simp)
    have g2 := a2 (p ++ [[117]], fFlag x.unread) (by simp)
    refine ⟨a1, ?_, fun k k1 k2 => a3 _ ?_, fun q hq => a3 _ ?_⟩
    · rw [convoAt_eq c' hp]
      simp only at g1 g2
      rw [g1, g2]
      cases x with
      | mk l u => cases u <;> rfl
    · simp only [List.mem_cons, List.not_mem_nil, or_false, forall_eq_or_imp, forall_eq]
      exact ⟨not_nested_snoc (Ne.symm k1), not_nested_snoc (Ne.symm k2)⟩
    · simp only [List.mem_cons, List.not_mem_nil, or_false, forall_eq_or_imp, forall_eq]
      exact ⟨fun hn => hq (nested_trans_left (hpre _) hn), fun hn => hq (nested_trans_left (hpre _) hn)⟩
  have hold : (c.convoAt p).lastRead = (intOf (c.get (p ++ [[114]]))).getD 0 := by
    rw [convoAt_eq c hp]
  cases hrw : c.readWrites now p x with
  | err e => rw [hrw] at h; cases (Prod.mk.inj h).2
  | hang => rw [hrw] at h; cases (Prod.mk.inj h).2
  | ub => rw [hrw] at h; cases (Prod.mk.inj h).2
  | ok ws =>
    rw [hrw] at h
    simp only at h
    unfold Client.readWrites at hrw
    split at hrw
    · rename_i hany
      have e := (Out.ok.inj hrw).symm
      subst e
      obtain ⟨b1, b2, b3, b4⟩ := two hc h
      refine ⟨b1, ?_, b3, b4⟩
      rw [b2]
      unfold Convo.after
      have : x.lastRead < (c.convoAt p).lastRead := by
        rw [hold]
        cases hi : intOf (c.get (p ++ [[114]])) with
        | none => rw [hi] at hany; cases hany
        | some v => rw [hi] at hany; simpa using hany
      rw [if_pos (.inl this)]
    · rename_i hany
      have hnlt : ¬ x.lastRead < (c.convoAt p).lastRead := by
        rw [hold]
        cases hi : intOf (c.get (p ++ [[114]])) with
        | none => simp only [Option.getD_none]; omega
        | some v => rw [hi] at hany; simpa using hany
      split at hrw
      · by_cases hrec : x.lastRead * 10 ^ 6 > now - pruneLow
        · rw [if_pos hrec] at hrw
          have e := (Out.ok.inj hrw).symm
          subst e
          obtain ⟨b1, b2, b3, b4⟩ := two hc h
          refine ⟨b1, ?_, b3, b4⟩
          rw [b2]
          unfold Convo.after
          rw [if_pos (.inr hrec)]
        · rw [if_neg hrec] at hrw
          have e := (Out.ok.inj hrw).symm
          subst e
          rw [List.nil_append] at h
          obtain ⟨a1, a2, a3⟩ := writeAll_get hS _ hc (by
            simp only [List.mem_cons, List.not_mem_nil, or_false, forall_eq]
            exact ⟨by simp, wfO_flag _⟩) (by simp) h
          have g2 := a2 (p ++ [[117]], fFlag x.unread) (by simp)
          have ge : ∀ k, k ≠ [117] → c'.get (p ++ [k]) = c.get (p ++ [k]) := fun k hk => a3 _ (by
            simp only [List.mem_cons, List.not_mem_nil, or_false, forall_eq]
            exact not_nested_snoc (Ne.symm hk))
          refine ⟨a1, ?_, fun k _ k2 => ge k k2, fun q hq => a3 _ ?_⟩
          · rw [convoAt_eq c' hp, ge [114] (by decide)]
            simp only at g2
            rw [g2]
            unfold Convo.after
            rw [if_neg (by rintro (hh | hh); exacts [hnlt hh, hrec hh]), hold]
            cases x.unread <;> rfl
          · simp only [List.mem_cons, List.not_mem_nil, or_false, forall_eq]
            exact fun hn => hq (nested_trans_left (hpre _) hn)
      · cases hrw

/-! ### C54: conversations read back -/

theorem getConvo_eq {c : Client} {k : ConvoKind} {id pk : Bytes} (h : idBytes id k.pre = .ok pk) :
    c.getConvo k id = .ok (loadConvo (c.get (k.path ++ [pk]))) := by
  unfold Client.getConvo; rw [h]; rfl

theorem convo_eq {c : Client} {k : ConvoKind} {id pk : Bytes} (h : idBytes id k.pre = .ok pk) :
    c.convo k id = .ok (c.convoAt (k.path ++ [pk])) := by
  unfold Client.convo; rw [getConvo_eq h]; rfl

theorem getConvo_congr {c c' : Client} {k : ConvoKind} {id : Bytes}
    (h : ∀ pk, idBytes id k.pre = .ok pk → c'.get (k.path ++ [pk]) = c.get (k.path ++ [pk])) :
    c'.getConvo k id = c.getConvo k id := by
  unfold Client.getConvo
  cases hi : idBytes id k.pre with
  | ok pk => simp only [Out.bind, h pk hi]
  | err e => rfl
  | hang => rfl
  | ub => rfl

theorem getComm_congr {c c' : Client} (h : ∀ q, c'.get (pathO ++ q) = c.get (pathO ++ q))
    (base room : Bytes) : c'.getComm base room = c.getComm base room := by
  unfold Client.getComm Client.serverKey roomPath
  simp only [h]

theorem path_snoc_ne (k : ConvoKind) (pk : Bytes) : k.path ++ [pk] ≠ [] := by simp

/-- C54.  After `set` of a one-to-one conversation, group or legacy group the conversation reads back
as described by `Convo.after`, under every spelling of its id; every other conversation, of every
kind, and all other data are as before. -/
theorem convo_set_get {S : Sys} (hS : S.Good) {now : Int} {c c' : Client} (hc : Reach S c)
    {k : ConvoKind} {id : Bytes} {x : Convo} (hx : int64Ok x.lastRead = true) (h0 : 0 ≤ x.lastRead)
    (h : c.setConvo S now k id x = (c', .ok ())) :
    Reach S c' ∧
    (∀ id', SameConvo k id' id → ∃ old, c.convo k id' = .ok old ∧ c'.convo k id' = .ok (old.after now x)) ∧
    (∀ k' id', k' ≠ k ∨ ¬ SameConvo k id' id → c'.getConvo k' id' = c.getConvo k' id') ∧
    (∀ base room, c'.getComm base room = c.getComm base room) ∧
    (∀ q, ¬ Nested k.path q → c'.get q = c.get q) := by
  unfold Client.setConvo at h
  cases hi : idBytes id k.pre with
  | err e => rw [hi] at h; cases (Prod.mk.inj h).2
  | hang => rw [hi] at h; cases (Prod.mk.inj h).2
  | ub => rw [hi] at h; cases (Prod.mk.inj h).2
  | ok pk =>
    rw [hi] at h
    obtain ⟨h1, h2, h3, h4⟩ := setBase_spec hS hc (path_snoc_ne k pk) hx h0 h
    refine ⟨h1, ?_, ?_, ?_, ?_⟩
    · rintro id' ⟨pk', i1, i2⟩
      rw [hi] at i2; cases i2
      exact ⟨_, convo_eq i1, by rw [convo_eq i1, h2]⟩
    · intro k' id' hne
      refine getConvo_congr fun pk' hi' => h4 _ ?_
      by_cases hk : k' = k
      · subst hk
        refine not_nested_snoc ?_
        rintro rfl
        rcases hne with hne | hne
        · exact hne rfl
        · exact hne ⟨pk, hi', hi⟩
      · exact kind_path_ne (Ne.symm hk) _ _
    · intro base room
      exact getComm_congr (fun q => h4 _ (kind_path_O k _ _)) base room
    · intro q hq
      exact h4 q fun hn => hq (nested_trans_left (List.prefix_append _ _) hn)

/-- C54.  `set` throws exactly for an invalid id or (leaving the object as it was) if the object cannot
be modified.  Times up to 9223372036854 ms (the year 2262) are accepted. -/
theorem convo_set_error {S : Sys} (hS : S.Good) {now : Int} {c : Client} (hc : Reach S c)
    {k : ConvoKind} {id : Bytes} {x : Convo} (hx : 0 ≤ x.lastRead ∧ x.lastRead ≤ 9223372036854) :
    ((c.setConvo S now k id x).2 ≠ .ok () → (c.setConvo S now k id x).1 = c) ∧
    (checkId id k.pre = false → (c.setConvo S now k id x).2 = .err .foreign) ∧
    (checkId id k.pre = true → S.env.readonly = false → int64Ok (c.seqno + 1) = true →
      (c.setConvo S now k id x).2 = .ok ()) := by
  have hx64 : int64Ok x.lastRead = true := by
    simp only [int64Ok, Bool.and_eq_true, decide_eq_true_eq]; omega
  have hns : int64Ok (x.lastRead * 10 ^ 6) = true := by
    simp only [int64Ok, Bool.and_eq_true, decide_eq_true_eq]; omega
  have hws : ∀ p, ∃ ws, c.readWrites now p x = .ok ws ∧ ∀ w ∈ ws ++ [(p ++ [[117]], fFlag x.unread)],
      w.1 ≠ [] ∧ wfO w.2 = true := by
    intro p
    have ok1 : ∀ w ∈ [(p ++ [[114]], some (Val.scalar (.int x.lastRead)))] ++
        [(p ++ [[117]], fFlag x.unread)], w.1 ≠ [] ∧ wfO w.2 = true := by
      simp only [List.cons_append, List.nil_append, List.mem_cons, List.not_mem_nil, or_false,
        forall_eq_or_imp, forall_eq]
      exact ⟨⟨by simp, wfO_int hx64⟩, by simp, wfO_flag _⟩
    have ok2 : ∀ w ∈ [] ++ [(p ++ [[117]], fFlag x.unread)], w.1 ≠ [] ∧ wfO w.2 = true := by
      simp only [List.nil_append, List.mem_cons, List.not_mem_nil, or_false, forall_eq]
      exact ⟨by simp, wfO_flag _⟩
    unfold Client.readWrites
    by_cases ha : (intOf (c.get (p ++ [[114]]))).any (fun v => decide (x.lastRead < v)) = true
    · rw [if_pos ha]; exact ⟨_, rfl, ok1⟩
    · rw [if_neg ha, if_pos hns]
      by_cases hb : x.lastRead * 10 ^ 6 > now - pruneLow
      · rw [if_pos hb]; exact ⟨_, rfl, ok1⟩
      · rw [if_neg hb]; exact ⟨_, rfl, ok2⟩
  refine ⟨fun h => ?_, fun h => ?_, fun h hro hov => ?_⟩
  · unfold Client.setConvo at h ⊢
    cases hi : idBytes id k.pre with
    | err e => rfl
    | hang => rfl
    | ub => rfl
    | ok pk =>
      rw [hi] at h
      simp only at h ⊢
      obtain ⟨ws, h1, h2⟩ := hws (k.path ++ [pk])
      unfold Client.setBase at h ⊢
      rw [h1] at h ⊢
      exact writeAll_error hS _ hc h2 h
  · unfold Client.setConvo idBytes
    rw [if_neg (by rw [h]; simp)]
  · unfold Client.setConvo idBytes
    rw [if_pos h]
    obtain ⟨ws, h1, h2⟩ := hws (k.path ++ [fromHex id])
    show (c.setBase S now (k.path ++ [fromHex id]) x).2 = .ok ()
    unfold Client.setBase
    rw [h1]
    obtain ⟨c', hc'⟩ := writeAll_succeeds hS _ hc h2 hro hov
    simp only [hc']

/-- C54.  `erase` reports whether there was a conversation; afterwards there is none; everything else is
as before. -/
theorem convo_erase {S : Sys} (hS : S.Good) {c c' : Client} (hc : Reach S c) {k : ConvoKind}
    {id : Bytes} {b : Bool} (h : c.eraseConvo S k id = (c', .ok b)) :
    Reach S c' ∧ (∀ id', SameConvo k id' id → c'.getConvo k id' = .ok none) ∧
    (∀ k' id', k' ≠ k ∨ ¬ SameConvo k id' id → c'.getConvo k' id' = c.getConvo k' id') ∧
    (∀ base room, c'.getComm base room = c.getComm base room) ∧
    (c.getConvo k id ≠ .ok none → b = true) ∧
    c.convoSize k = c'.convoSize k + (if b then 1 else 0) ∧
    (∀ q, ¬ Nested k.path q → c'.get q = c.get q) := by
  unfold Client.eraseConvo at h
  cases hi : idBytes id k.pre with
  | err e => rw [hi] at h; cases (Prod.mk.inj h).2
  | hang => rw [hi] at h; cases (Prod.mk.inj h).2
  | ub => rw [hi] at h; cases (Prod.mk.inj h).2
  | ok pk =>
    rw [hi] at h
    simp only at h
    unfold Client.eraseImpl at h
    split at h
    · rename_i c1 hc1
      obtain ⟨rfl, hb⟩ := Prod.mk.inj h
      have hb := Out.ok.inj hb
      obtain ⟨h1, h2, h3, h4, h5⟩ := record_erased hS (by cases k <;> simp [ConvoKind.path]) hc hc1
      refine ⟨h1, ?_, ?_, ?_, ?_, ?_, h4⟩
      · rintro id' ⟨pk', i1, i2⟩
        rw [hi] at i2; cases i2
        rw [getConvo_eq i1, h2]; rfl
      · intro k' id' hne
        refine getConvo_congr fun pk' hi' => ?_
        by_cases hk : k' = k
        · subst hk
          refine h3 _ ?_
          rintro rfl
          rcases hne with hne | hne
          · exact hne rfl
          · exact hne ⟨_, hi', hi⟩
        · refine h4 _ ?_
          have := kind_path_ne (Ne.symm hk) [] [pk']
          rwa [List.append_nil] at this
      · intro base room
        refine getComm_congr (fun q => h4 _ ?_) base room
        have := kind_path_O k [] q
        rwa [List.append_nil] at this
      · intro hn
        rw [← hb]
        rw [getConvo_eq hi] at hn
        by_contra hs
        rw [Bool.not_eq_true, Option.isSome_eq_false_iff, Option.isNone_iff_eq_none] at hs
        rw [hs] at hn
        exact hn rfl
      · unfold Client.convoSize
        rw [h5, hb]
    · cases (Prod.mk.inj h).2
    · cases (Prod.mk.inj h).2
    · cases (Prod.mk.inj h).2

/-- C55 is false of the code: for a time beyond the year 2262 (any `int64_t` is accepted as
milliseconds) the conversion to nanoseconds overflows, which is undefined behaviour. -/
theorem convo_set_overflows {S : Sys} (c : Client) (now : Int) (k : ConvoKind) {id pk : Bytes}
    (hi : idBytes id k.pre = .ok pk) {x : Convo} (hx : x.lastRead > 9223372036854)
    (hnone : c.getConvo k id = .ok none) : (c.setConvo S now k id x).2 = .ub := by
  rw [getConvo_eq hi] at hnone
  have hr : intOf (c.get (k.path ++ [pk] ++ [[114]])) = none := by
    rw [show c.get (k.path ++ [pk] ++ [[114]]) = _ from valAt_snoc _ _ _ (path_snoc_ne k pk)]
    have := Out.ok.inj hnone
    rw [show valAt c.conf.m.data (k.path ++ [pk]) = c.get (k.path ++ [pk]) from rfl]
    cases hv : c.get (k.path ++ [pk]) with
    | none => rfl
    | some v =>
      rw [hv] at this
      cases v with
      | dict e => cases this
      | set s => rfl
      | scalar s => rfl
  have h2 : int64Ok (x.lastRead * 10 ^ 6) = false := by
    simp only [int64Ok, Bool.and_eq_false_iff, decide_eq_false_iff_not]; right; omega
  unfold Client.setConvo
  rw [hi]
  show (c.setBase S now (k.path ++ [pk]) x).2 = .ub
  unfold Client.setBase Client.readWrites
  rw [hr, h2]
  rfl

/-! ### Iteration over conversations with an id -/

theorem toHex_lower (k : Bytes) : lower (toHex k) = toHex k := by
  conv_rhs => rw [← fromHex_toHex k, toHex_fromHex _ (toHex_isHex k)]

theorem kind_path_nonempty (k : ConvoKind) : k.path ≠ [] := by cases k <;> simp [ConvoKind.path]

theorem convoEntry_some {b : UInt8} {y : Bytes × Val} {z : Bytes × Convo} :
    convoEntry b y = some z ↔ y.1.length = 33 ∧ y.1.head? = some b ∧ loadConvo (some y.2) = some z.2 ∧
      z.1 = toHex y.1 := by
  unfold convoEntry
  by_cases h : y.1.length = 33 ∧ y.1.head? = some b
  · rw [if_pos h]
    cases hl : loadConvo (some y.2) with
    | none => simp
    | some v =>
      simp only [Option.map_some, Option.some.injEq, h.1, h.2, true_and]
      constructor
      · rintro rfl; exact ⟨rfl, rfl⟩
      · rintro ⟨rfl, h1⟩; rw [← h1]
  · rw [if_neg h]
    constructor
    · intro h'; cases h'
    · rintro ⟨a, b, _⟩; exact absurd ⟨a, b⟩ h

theorem mem_convos {S : Sys} (hS : S.Good) {c : Client} (hc : Reach S c) (k : ConvoKind)
    (z : Bytes × Convo) : z ∈ c.convos k ↔ ∃ pk, pk.length = 33 ∧ pk.head? = some k.byte ∧
      loadConvo (c.get (k.path ++ [pk])) = some z.2 ∧ z.1 = toHex pk := by
  unfold Client.convos
  rw [List.mem_filterMap]
  constructor
  · rintro ⟨⟨pk, v⟩, hm, he⟩
    obtain ⟨h1, h2, h3, h4⟩ := convoEntry_some.1 he
    rw [← mget_iff_mem (table_sorted hS hc _), table_mget (kind_path_nonempty k)] at hm
    exact ⟨pk, h1, h2, by rw [hm]; exact h3, h4⟩
  · rintro ⟨pk, h1, h2, h3, h4⟩
    cases hv : c.get (k.path ++ [pk]) with
    | none => rw [hv] at h3; cases h3
    | some v =>
      refine ⟨(pk, v), ?_, convoEntry_some.2 ⟨h1, h2, by rw [← hv]; exact h3, h4⟩⟩
      rw [← mget_iff_mem (table_sorted hS hc _), table_mget (kind_path_nonempty k)]
      exact hv

theorem filterMap_nodup {α β γ : Type} {f : α → Option β} {key : α → γ} {key' : β → γ}
    (hk : ∀ a b, f a = some b → key' b = key a) : ∀ {l : List α}, (l.map key).Nodup →
    ((l.filterMap f).map key').Nodup
  | [], _ => by simp
  | a :: t, h => by
    rw [List.map_cons, List.nodup_cons] at h
    have ih := filterMap_nodup hk h.2
    rw [List.filterMap_cons]
    cases hf : f a with
    | none => exact ih
    | some b =>
      simp only [List.map_cons, List.nodup_cons]
      refine ⟨?_, ih⟩
      intro hm
      obtain ⟨b', hb', he⟩ := List.mem_map.1 hm
      obtain ⟨a', ha', hf'⟩ := List.mem_filterMap.1 hb'
      refine h.1 (List.mem_map.2 ⟨a', ha', ?_⟩)
      rw [← hk _ _ hf', ← hk _ _ hf, he]

/-- C57.  Iterating over one kind of conversation yields exactly those `get` finds, each once, under the
lower-case spelling of its id.  There are at most as many as `size` reports: exactly as many if the
table holds nothing but well-formed conversations. -/
theorem convo_iter {S : Sys} (hS : S.Good) {c : Client} (hc : Reach S c) (k : ConvoKind) :
    (∀ id x, (id, x) ∈ c.convos k ↔ lower id = id ∧ c.getConvo k id = .ok (some x)) ∧
    ((c.convos k).map (·.1)).Nodup ∧ (c.convos k).length ≤ c.convoSize k ∧
    ((∀ pk v, c.get (k.path ++ [pk]) = some v → pk.length = 33 ∧ pk.head? = some k.byte ∧
      ∃ e, v = .dict e) → (c.convos k).length = c.convoSize k) := by
  have hs := table_sorted hS hc k.path
  refine ⟨fun id x => (mem_convos hS hc k _).trans ⟨?_, ?_⟩, ?_, ?_, fun hall => ?_⟩
  · rintro ⟨pk, h1, h2, h3, rfl⟩
    exact ⟨toHex_lower pk, by rw [getConvo_eq (idBytes_kind_toHex h1 h2), h3]⟩
  · rintro ⟨hl, hg⟩
    cases hi : idBytes id k.pre with
    | ok pk =>
      rw [getConvo_eq hi] at hg
      obtain ⟨i1, i2, i3, i4⟩ := idBytes_ok hi
      obtain ⟨j1, j2⟩ := idBytes_kind_head hi
      exact ⟨pk, j1, j2, Out.ok.inj hg, by simp only; rw [i1, toHex_fromHex _ i2, hl]⟩
    | err e => unfold Client.getConvo at hg; rw [hi] at hg; cases hg
    | hang => unfold Client.getConvo at hg; rw [hi] at hg; cases hg
    | ub => unfold Client.getConvo at hg; rw [hi] at hg; cases hg
  · refine filterMap_nodup (key := fun y : Bytes × Val => toHex y.1) ?_ ?_
    · intro a b h; exact (convoEntry_some.1 h).2.2.2
    · have := hs.nodup_keys
      rw [show (c.table k.path).map (fun y : Bytes × Val => toHex y.1) =
        ((c.table k.path).map (·.1)).map toHex by rw [List.map_map]; rfl]
      refine this.map ?_
      intro a b h
      rw [← fromHex_toHex a, ← fromHex_toHex b, h]
  · exact List.length_filterMap_le _ _
  · unfold Client.convos Client.convoSize
    have : ∀ {l : Dict}, (∀ y ∈ l, (convoEntry k.byte y).isSome = true) →
        (l.filterMap (convoEntry k.byte)).length = l.length := by
      intro l
      induction l with
      | nil => intro _; rfl
      | cons a t ih =>
        intro h
        obtain ⟨z, hz⟩ := Option.isSome_iff_exists.1 (h a (by simp))
        rw [List.filterMap_cons, hz]
        simp only [List.length_cons]
        rw [ih fun y hy => h y (by simp [hy])]
    refine this fun y hy => ?_
    have hm := hy
    rw [show y = (y.1, y.2) from rfl, ← mget_iff_mem hs, table_mget (kind_path_nonempty k)] at hm
    obtain ⟨a1, a2, e, a3⟩ := hall _ _ hm
    unfold convoEntry
    rw [if_pos ⟨a1, a2⟩, a3]
    rfl

/-! ### Communities -/

theorem nested_append_left {p q r : List Bytes} : Nested (p ++ q) (p ++ r) ↔ Nested q r := by
  unfold Nested; rw [List.prefix_append_right_inj, List.prefix_append_right_inj]

theorem room_inj {b r b' r' : Bytes} (h : Nested (roomPath b r) (roomPath b' r')) : b = b' ∧ r = r' := by
  have := nested_same_length (by simp [roomPath, pathO]) h
  simp only [roomPath, pathO, List.cons_append, List.nil_append, List.cons.injEq, and_true,
    true_and] at this
  exact this

theorem room_server {b r b' : Bytes} {q : List Bytes} (h : Nested (roomPath b r) (pathO ++ b' :: q)) :
    b = b' := by
  rw [roomPath, nested_append_left] at h
  exact nested_head h

theorem room_field {b r f : Bytes} (h : Nested (roomPath b r) (pathO ++ [b, f])) : f = [82] := by
  rw [roomPath, nested_append_left] at h
  rcases h with h | h
  · have := h.length_le; simp at this
  · have := (List.cons_prefix_cons.1 h).2
    exact (List.cons_prefix_cons.1 this).1

theorem setBase_wf {x : Convo} (hx : int64Ok x.lastRead = true) {c : Client} {now : Int} {p : List Bytes}
    {ws : List (List Bytes × Option Val)} (h : c.readWrites now p x = .ok ws) :
    ∀ w ∈ ws ++ [(p ++ [[117]], fFlag x.unread)], w.1 ≠ [] ∧ wfO w.2 = true := by
  have hws : ws = [] ∨ ws = [(p ++ [[114]], some (.scalar (.int x.lastRead)))] := by
    unfold Client.readWrites at h
    split at h
    · exact .inr (Out.ok.inj h).symm
    · split at h
      · have := (Out.ok.inj h).symm
        split at this
        · exact .inr this
        · exact .inl this
      · cases h
  rcases hws with rfl | rfl
  · simp only [List.nil_append, List.mem_cons, List.not_mem_nil, or_false, forall_eq]
    exact ⟨by simp, wfO_flag _⟩
  · simp only [List.cons_append, List.nil_append, List.mem_cons, List.not_mem_nil, or_false,
      forall_eq_or_imp, forall_eq]
    exact ⟨⟨by simp, wfO_int hx⟩, by simp, wfO_flag _⟩

/-- Every community is stored under its canonical URL and room name -/
def Client.CanonNames (c : Client) : Prop :=
  ∀ b r, c.get (roomPath b r) ≠ none → canonUrl b = .ok b ∧ canonRoom r = .ok r

/-- Two spellings of one community -/
def SameComm (base room base' room' : Bytes) : Prop :=
  ∃ b r, canonUrl base = .ok b ∧ canonUrl base' = .ok b ∧ canonRoom room = .ok r ∧ canonRoom room' = .ok r

/-- The same server -/
def SameServer (base base' : Bytes) : Prop := ∃ b, canonUrl base = .ok b ∧ canonUrl base' = .ok b

theorem getComm_eq {c : Client} {base room b r : Bytes} (hb : canonUrl base = .ok b)
    (hr : canonRoom room = .ok r) : c.getComm base room =
      .ok ((loadConvo (c.get (roomPath b r))).map fun x => ⟨b, r, c.serverKey b, x⟩) := by
  unfold Client.getComm; rw [hb, hr]; rfl

theorem getComm_ok {c : Client} {base room : Bytes} {o : Option CommConvo}
    (h : c.getComm base room = .ok o) : ∃ b r, canonUrl base = .ok b ∧ canonRoom room = .ok r := by
  unfold Client.getComm at h
  cases hr : canonRoom room <;> rw [hr] at h <;> try cases h
  cases hb : canonUrl base <;> rw [hb] at h <;> try cases h
  exact ⟨_, _, rfl, rfl⟩

theorem getComm_bad {c c' : Client} {base room : Bytes}
    (h : ∀ b r, canonUrl base = .ok b → canonRoom room = .ok r → c'.getComm base room = c.getComm base room) :
    c'.getComm base room = c.getComm base room := by
  cases hr : canonRoom room with
  | ok r => cases hb : canonUrl base with
    | ok b => exact h b r hb hr
    | err e => unfold Client.getComm; rw [hr, hb]; rfl
    | hang => unfold Client.getComm; rw [hr, hb]; rfl
    | ub => unfold Client.getComm; rw [hr, hb]; rfl
  | err e => unfold Client.getComm; rw [hr]; rfl
  | hang => unfold Client.getComm; rw [hr]; rfl
  | ub => unfold Client.getComm; rw [hr]; rfl

theorem serverKey_congr {c c' : Client} {b : Bytes}
    (h : c'.get (pathO ++ [b, [35]]) = c.get (pathO ++ [b, [35]])) : c'.serverKey b = c.serverKey b := by
  unfold Client.serverKey; rw [h]

theorem setComm_ok {S : Sys} {now : Int} {c c' : Client} {base room pk : Bytes} {x : Convo}
    (h : c.setComm S now base room pk x = (c', .ok ())) : ∃ b r c1, canonUrl base = .ok b ∧
      canonRoom room = .ok r ∧ pk.length = 32 ∧
      c.assign S (pathO ++ [b, [35]]) (.scalar (.str pk)) = (c1, .ok ()) ∧
      c1.setBase S now (roomPath b r) x = (c', .ok ()) := by
  unfold Client.setComm at h
  cases hb : canonUrl base <;> rw [hb] at h <;> try cases (Prod.mk.inj h).2
  cases hr : canonRoom room <;> rw [hr] at h <;> try cases (Prod.mk.inj h).2
  simp only at h
  split at h
  · rename_i hl
    split at h
    · rename_i c1 h1
      exact ⟨_, _, c1, rfl, rfl, hl, h1, h⟩
    · rename_i c1 o hne heq
      obtain ⟨rfl, rfl⟩ := Prod.mk.inj h
      exact absurd rfl hne
  · cases (Prod.mk.inj h).2

/-- C58.  After `set` of a community it reads back as described by `Convo.after`, under every spelling
of its URL and room; the key given is the key of every room of that server; communities of other
servers, the other rooms' conversations and everything that is not a community are as before. -/
theorem comm_set_get {S : Sys} (hS : S.Good) {now : Int} {c c' : Client} (hc : Reach S c)
    {base room pk : Bytes} {x : Convo} (hx : int64Ok x.lastRead = true) (h0 : 0 ≤ x.lastRead)
    (h : c.setComm S now base room pk x = (c', .ok ())) :
    Reach S c' ∧
    (∀ base' room', SameComm base' room' base room → ∀ pk' : Bytes, pk'.length = 32 → ∃ old,
      c.commConvo base' room' pk' = .ok old ∧
      c'.commConvo base' room' pk' = .ok { old with convo := old.convo.after now x } ∧
      ∀ y, c'.getComm base' room' = .ok (some y) →
        y = { old with pubkey := pk, convo := old.convo.after now x }) ∧
    (∀ base' room', SameServer base' base → ¬ SameComm base' room' base room →
      ∀ y, c'.getComm base' room' = .ok (some y) ↔
        y.pubkey = pk ∧ ∃ k, c.getComm base' room' = .ok (some { y with pubkey := k })) ∧
    (∀ base' room', ¬ SameServer base' base → c'.getComm base' room' = c.getComm base' room') ∧
    (∀ k id, c'.getConvo k id = c.getConvo k id) ∧
    (∀ q, ¬ Nested pathO q → c'.get q = c.get q) ∧
    (c.CanonNames → c'.CanonNames) := by
  obtain ⟨b, r, c1, hb, hr, hpk, h1, h2⟩ := setComm_ok h
  obtain ⟨a1, a2, a3⟩ := assign_get hS hc (by simp) (v := .scalar (.str pk)) rfl h1
  obtain ⟨b1, b2, b3, b4⟩ := setBase_spec hS a3 (by simp [roomPath]) hx h0 h2
  have hkeyroom : ∀ b b' r', ¬ Nested (pathO ++ [b, [35]]) (roomPath b' r') := by
    intro b b' r' hn
    rw [roomPath, nested_append_left] at hn
    rcases hn with hn | hn
    · have := (List.cons_prefix_cons.1 (List.cons_prefix_cons.1 hn).2).1
      exact absurd this (by decide)
    · have := hn.length_le; simp at this
  have hkeykey : ∀ b b', b ≠ b' → ¬ Nested (pathO ++ [b, [35]]) (pathO ++ [b', [35]]) := by
    intro b b' hne hn
    rw [nested_append_left] at hn
    exact hne (nested_head hn)
  have hrooms : ∀ b' r', c1.get (roomPath b' r') = c.get (roomPath b' r') := fun b' r' =>
    a2 _ (hkeyroom b b' r')
  have hroom : ∀ b' r', ¬ (b = b' ∧ r = r') → c'.get (roomPath b' r') = c.get (roomPath b' r') := by
    intro b' r' hne
    rw [b4 _ fun hn => hne (room_inj hn), hrooms]
  have hkey1 : ∀ b', c'.get (pathO ++ [b', [35]]) = c1.get (pathO ++ [b', [35]]) := by
    intro b'
    refine b4 _ fun hn => ?_
    have e := room_server hn
    subst e
    exact absurd (room_field hn) (by decide)
  have hkey : c'.serverKey b = pk := by
    unfold Client.serverKey
    rw [hkey1, a1]
    simp only [strOf]
    rw [if_pos hpk]
  have hkey' : ∀ b', b ≠ b' → c'.serverKey b' = c.serverKey b' := fun b' hne =>
    serverKey_congr (by rw [hkey1, a2 _ (hkeykey b b' hne)])
  have houter : ∀ q, ¬ Nested pathO q → c'.get q = c.get q := by
    intro q hq
    rw [b4 q fun hn => hq (nested_trans_left (List.prefix_append _ _) hn),
      a2 q fun hn => hq (nested_trans_left (List.prefix_append _ _) hn)]
  refine ⟨b1, ?_, ?_, ?_, ?_, houter, ?_⟩
  · rintro base' room' ⟨b', r', e1, e2, e3, e4⟩ pk' hpk'
    rw [hb] at e2; cases e2
    rw [hr] at e4; cases e4
    have hcomm : ∀ c : Client, c.commConvo base' room' pk' =
        .ok ⟨b, r, pk', c.convoAt (roomPath b r)⟩ := by
      intro c; unfold Client.commConvo; rw [e1, e3]
      show (if pk'.length = 32 then _ else _) = _
      rw [if_pos hpk']; rfl
    have hat : c'.convoAt (roomPath b r) = (c.convoAt (roomPath b r)).after now x := by
      rw [b2]; unfold Client.convoAt; rw [hrooms]
    refine ⟨_, hcomm c, by rw [hcomm c', hat], fun y hy => ?_⟩
    rw [getComm_eq e1 e3, hkey] at hy
    have hy := Out.ok.inj hy
    simp only
    rw [← hat]
    unfold Client.convoAt
    cases hl : loadConvo (c'.get (roomPath b r)) with
    | none => rw [hl] at hy; cases hy
    | some z => rw [hl] at hy; exact (Option.some.inj hy).symm
  · rintro base' room' ⟨b', e1, e2⟩ hne y
    rw [hb] at e2; cases e2
    cases hr' : canonRoom room' with
    | ok r' =>
      rw [getComm_eq e1 hr', getComm_eq e1 hr', hkey, hroom b r' fun hh => hne ⟨b, r, e1, hb, by rw [hr', hh.2], hr⟩]
      cases hl : loadConvo (c.get (roomPath b r')) with
      | none => simp
      | some z =>
        obtain ⟨y1, y2, y3, y4⟩ := y
        simp only [Option.map_some, Out.ok.injEq, Option.some.injEq, CommConvo.mk.injEq]
        constructor
        · rintro ⟨g1, g2, g3, g4⟩; exact ⟨g3.symm, _, g1, g2, rfl, g4⟩
        · rintro ⟨g3, k, g1, g2, _, g4⟩; exact ⟨g1, g2, g3.symm, g4⟩
    | err e => unfold Client.getComm; rw [hr']; simp [Out.bind]
    | hang => unfold Client.getComm; rw [hr']; simp [Out.bind]
    | ub => unfold Client.getComm; rw [hr']; simp [Out.bind]
  · intro base' room' hne
    refine getComm_bad fun b' r' hb' hr' => ?_
    have hbb : b ≠ b' := fun hh => hne ⟨b', hb', by rw [hb, hh]⟩
    rw [getComm_eq hb' hr', getComm_eq hb' hr', hkey' b' hbb, hroom b' r' fun hh => hbb hh.1]
  · intro k id
    refine getConvo_congr fun pk' _ => houter _ fun hn => ?_
    have := kind_path_O k [pk'] []
    rw [List.append_nil] at this
    exact this hn.symm
  · intro hcn b' r' hg
    by_cases he : b = b' ∧ r = r'
    · obtain ⟨rfl, rfl⟩ := he
      exact ⟨canonical_url_idem _ _ hb, ((canonical_room_case _ _ hr)).2⟩
    · rw [hroom b' r' he] at hg; exact hcn b' r' hg

/-! ### Erasing a community -/

theorem roomsPath (b r : Bytes) : roomPath b r = (pathO ++ [b, [82]]) ++ [r] := by simp [roomPath]

/-- `erase_community`: the room is gone; if it was the last of its server the whole server is gone;
otherwise nothing else changes. -/
theorem eraseComm_spec {S : Sys} (hS : S.Good) {c c' : Client} (hc : Reach S c) {base room b r : Bytes}
    (hb : canonUrl base = .ok b) (hr : canonRoom room = .ok r) {res : Bool}
    (h : c.eraseComm S base room = (c', .ok res)) :
    Reach S c' ∧ res = (c.get (roomPath b r)).isSome ∧ c'.get (roomPath b r) = none ∧
    (∀ b' r', ¬ (b = b' ∧ r = r') → c'.get (roomPath b' r') = c.get (roomPath b' r')) ∧
    (∀ b' q, b ≠ b' → c'.get (pathO ++ b' :: q) = c.get (pathO ++ b' :: q)) ∧
    ((res = true → ∃ r', c'.get (roomPath b r') ≠ none) → ∀ f, f ≠ [82] →
      c'.get (pathO ++ [b, f]) = c.get (pathO ++ [b, f])) ∧
    (res = true → (∀ r', c'.get (roomPath b r') = none) → c'.get (pathO ++ [b]) = none) ∧
    (∀ q, ¬ Nested pathO q → c'.get q = c.get q) := by
  unfold Client.eraseComm at h
  rw [hb, hr] at h
  simp only at h
  have himpl : ∀ c1 o, c.eraseImpl S (roomPath b r) = (c1, .ok o) →
      c.erase S (roomPath b r) = (c1, .ok ()) ∧ o = (c.get (roomPath b r)).isSome := by
    intro c1 o h
    unfold Client.eraseImpl at h
    split at h
    · rename_i c2 h2
      obtain ⟨rfl, ho⟩ := Prod.mk.inj h
      exact ⟨h2, (Out.ok.inj ho).symm⟩
    · cases (Prod.mk.inj h).2
    · cases (Prod.mk.inj h).2
    · cases (Prod.mk.inj h).2
  have step1 : ∀ c1, c.erase S (roomPath b r) = (c1, .ok ()) → Reach S c1 ∧ c1.get (roomPath b r) = none ∧
      (∀ b' r', ¬ (b = b' ∧ r = r') → c1.get (roomPath b' r') = c.get (roomPath b' r')) ∧
      (∀ b' q, b ≠ b' → c1.get (pathO ++ b' :: q) = c.get (pathO ++ b' :: q)) ∧
      (∀ f, f ≠ [82] → c1.get (pathO ++ [b, f]) = c.get (pathO ++ [b, f])) ∧
      (∀ q, ¬ Nested pathO q → c1.get q = c.get q) := by
    intro c1 h1
    obtain ⟨e1, e2, e3⟩ := erase_get hS hc h1
    exact ⟨e3, e1, fun b' r' hne => e2 _ fun hn => hne (room_inj hn),
      fun b' q hne => e2 _ fun hn => hne (room_server hn),
      fun f hf => e2 _ fun hn => hf (room_field hn),
      fun q hq => e2 _ fun hn => hq (nested_trans_left (List.prefix_append _ _) hn)⟩
  split at h
  · rename_i c1 h1
    obtain ⟨h1, ho⟩ := himpl _ _ h1
    obtain ⟨s1, s2, s3, s4, s5, s6⟩ := step1 c1 h1
    split at h
    · rename_i c2 h2
      obtain ⟨rfl, hres⟩ := Prod.mk.inj h
      have hres := Out.ok.inj hres
      subst hres
      unfold Client.eraseServer at h2
      split at h2
      · rename_i k t hd
        obtain ⟨rfl, _⟩ := Prod.mk.inj h2
        have hex : ∃ r', c1.get (roomPath b r') ≠ none := by
          refine ⟨k.1, ?_⟩
          rw [roomsPath, get_entry (by simp) hd k.1]
          simp [mget]
        refine ⟨s1, ho, s2, s3, s4, fun _ => s5, fun _ hno => ?_, s6⟩
        obtain ⟨r', hr'⟩ := hex
        exact absurd (hno r') hr'
      · rename_i hd
        split at h2
        · rename_i c3 h3
          obtain ⟨e1, e2, e3⟩ := erase_get hS s1 h3
          obtain ⟨f1, f2, f3⟩ := erase_get hS e3 h2
          have hnone : ∀ r', c1.get (roomPath b r') = none := by
            intro r'
            rw [roomsPath]
            show valAt c1.conf.m.data _ = none
            rw [valAt_snoc _ _ _ (by simp)]
            show ((c1.get (pathO ++ [b, [82]])).bind _) = none
            cases hv : c1.get (pathO ++ [b, [82]]) with
            | none => rfl
            | some v =>
              cases v with
              | dict e =>
                cases e with
                | nil => rfl
                | cons y t => exact absurd hv (hd y t)
              | set s => rfl
              | scalar s => rfl
          have under : ∀ q, c2.get (pathO ++ b :: q) = none := by
            intro q
            induction q using List.reverseRecOn with
            | nil => exact f1
            | append_singleton q k ih =>
              rw [← List.cons_append, ← List.append_assoc]
              show valAt c2.conf.m.data _ = none
              rw [valAt_snoc _ _ _ (by simp)]
              show ((c2.get (pathO ++ b :: q)).bind _) = none
              rw [ih]; rfl
          have hother : ∀ b' q, b ≠ b' → c2.get (pathO ++ b' :: q) = c.get (pathO ++ b' :: q) := by
            intro b' q hne
            rw [f2 _ (nested_record_ne hne q), e2 _ fun hn => ?_, s4 _ _ hne]
            rw [nested_append_left] at hn
            exact hne (nested_head hn)
          refine ⟨f3, ho, under [[82], r], fun b' r' hne => ?_, hother, fun hex => ?_, fun _ _ => f1, fun q hq => ?_⟩
          · by_cases hbb : b = b'
            · subst hbb
              rw [show c2.get (roomPath b r') = none from under [[82], r'],
                ← s3 b r' hne, hnone]
            · exact hother b' [[82], r'] hbb
          · obtain ⟨r', hr'⟩ := hex rfl
            exact absurd (under [[82], r']) hr'
          · rw [f2 _ fun hn => hq (nested_trans_left (List.prefix_append _ _) hn),
              e2 _ fun hn => hq (nested_trans_left (List.prefix_append _ _) hn), s6 q hq]
        · rename_i c3 o hne heq
          obtain ⟨rfl, rfl⟩ := Prod.mk.inj h2
          exact absurd rfl hne
    · cases (Prod.mk.inj h).2
    · cases (Prod.mk.inj h).2
    · cases (Prod.mk.inj h).2
  · rename_i c1 o hne heq
    obtain ⟨rfl, rfl⟩ := Prod.mk.inj h
    obtain ⟨h1, ho⟩ := himpl _ _ heq
    obtain ⟨s1, s2, s3, s4, s5, s6⟩ := step1 c1 h1
    have hf : res = false := by
      cases res with
      | false => rfl
      | true => exact absurd rfl hne
    exact ⟨s1, ho, s2, s3, s4, fun _ => s5, (fun hh => by rw [hf] at hh; cases hh), s6⟩

/-- C58.  `erase_community` reports whether the room was there; afterwards it is not, under any spelling
of its URL and room; all other communities, with their keys, and everything else are as before. -/
theorem comm_erase {S : Sys} (hS : S.Good) {c c' : Client} (hc : Reach S c) {base room : Bytes}
    {res : Bool} (h : c.eraseComm S base room = (c', .ok res)) :
    Reach S c' ∧
    (∀ base' room', SameComm base' room' base room → c'.getComm base' room' = .ok none) ∧
    (∀ base' room', ¬ SameComm base' room' base room → c'.getComm base' room' = c.getComm base' room') ∧
    (c.getComm base room ≠ .ok none → res = true) ∧
    (∀ k id, c'.getConvo k id = c.getConvo k id) ∧
    (∀ q, ¬ Nested pathO q → c'.get q = c.get q) ∧
    (c.CanonNames → c'.CanonNames) := by
  have hok : ∃ b r, canonUrl base = .ok b ∧ canonRoom room = .ok r := by
    unfold Client.eraseComm at h
    cases hb : canonUrl base <;> rw [hb] at h <;> try cases (Prod.mk.inj h).2
    cases hr : canonRoom room <;> rw [hr] at h <;> try cases (Prod.mk.inj h).2
    exact ⟨_, _, rfl, rfl⟩
  obtain ⟨b, r, hb, hr⟩ := hok
  obtain ⟨h1, h2, h3, h4, h5, h6, h7, h8⟩ := eraseComm_spec hS hc hb hr h
  refine ⟨h1, ?_, ?_, ?_, ?_, h8, ?_⟩
  · rintro base' room' ⟨b', r', e1, e2, e3, e4⟩
    rw [hb] at e2; cases e2
    rw [hr] at e4; cases e4
    rw [getComm_eq e1 e3, h3]; rfl
  · intro base' room' hne
    refine getComm_bad fun b' r' e1 e3 => ?_
    have hne' : ¬ (b = b' ∧ r = r') := by
      rintro ⟨rfl, rfl⟩; exact hne ⟨b, r, e1, hb, e3, hr⟩
    have hroom := h4 b' r' hne'
    rw [getComm_eq e1 e3, getComm_eq e1 e3, hroom]
    by_cases hg : c.get (roomPath b' r') = none
    · rw [hg]; rfl
    · have : c'.serverKey b' = c.serverKey b' := by
        refine serverKey_congr ?_
        by_cases hbb : b = b'
        · subst hbb
          exact h6 (fun _ => ⟨r', by rw [hroom]; exact hg⟩) _ (by decide)
        · exact h5 b' _ hbb
      rw [this]
  · intro hn
    rw [h2]
    rw [getComm_eq hb hr] at hn
    by_contra hs
    rw [Bool.not_eq_true, Option.isSome_eq_false_iff, Option.isNone_iff_eq_none] at hs
    rw [hs] at hn
    exact hn rfl
  · intro k id
    refine getConvo_congr fun pk' _ => h8 _ fun hn => ?_
    have := kind_path_O k [pk'] []
    rw [List.append_nil] at this
    exact this hn.symm
  · intro hcn b' r' hg
    by_cases he : b = b' ∧ r = r'
    · obtain ⟨rfl, rfl⟩ := he
      exact absurd h3 hg
    · rw [h4 b' r' he] at hg; exact hcn b' r' hg

/-! ### Iterating over communities -/

theorem pathO_ne : pathO ≠ [] := by simp [pathO]

theorem mem_comms {S : Sys} (hS : S.Good) {c : Client} (hc : Reach S c) (x : CommConvo) :
    x ∈ c.comms ↔ ∃ b r, canonUrl b = .ok x.base ∧ canonRoom r = .ok x.room ∧
      c.serverKey b = x.pubkey ∧ x.pubkey.length = 32 ∧
      loadConvo (c.get (roomPath b r)) = some x.convo := by
  have hs := table_sorted hS hc pathO
  have hsub : ∀ {b e}, c.get (pathO ++ [b]) = some (.dict e) → ∀ k, c.get (pathO ++ [b, k]) = mget k e := by
    intro b e he k
    have := get_entry (by simp) he k
    rw [List.append_assoc] at this; exact this
  unfold Client.comms
  rw [List.mem_flatMap]
  constructor
  · rintro ⟨⟨b, v⟩, hm, hx⟩
    rw [← mget_iff_mem hs, table_mget pathO_ne] at hm
    unfold serverEntry at hx
    split at hx
    · rename_i e he
      simp only at he; subst he
      split at hx
      · rename_i pk rooms hpk hrooms
        rw [List.mem_filterMap] at hx
        obtain ⟨⟨r, w⟩, hw, hx⟩ := hx
        have hR : c.get (pathO ++ [b, [82]]) = some (.dict rooms) := by rw [hsub hm, hrooms]
        have hRs : KSorted rooms := by
          have := table_sorted hS hc (pathO ++ [b, [82]])
          unfold Client.table at this; rw [hR] at this; exact this
        rw [← mget_iff_mem hRs] at hw
        have hroom : c.get (roomPath b r) = some w := by
          rw [roomsPath, get_entry (by simp) hR r, hw]
        unfold roomEntry at hx
        split at hx
        · rename_i e' b' r' he' hb' hr'
          simp only at he' hb' hr'; subst he'
          split at hx
          · rename_i hl
            cases hx
            refine ⟨b, r, hb', hr', ?_, hl, by rw [hroom]; rfl⟩
            unfold Client.serverKey
            rw [hsub hm]
            rw [show strOf (mget [35] e) = some pk from hpk]
            simp only
            rw [if_pos hl]
          · cases hx
        · cases hx
      · cases hx
    · cases hx
  · rintro ⟨b, r, h1, h2, h3, h4, h5⟩
    obtain ⟨pk, hpk, hk⟩ : ∃ pk, strOf (c.get (pathO ++ [b, [35]])) = some pk ∧ pk = x.pubkey := by
      unfold Client.serverKey at h3
      split at h3
      · rename_i pk hpk
        split at h3
        · exact ⟨pk, hpk, h3⟩
        · rw [← h3] at h4; cases h4
      · rw [← h3] at h4; cases h4
    subst hk
    obtain ⟨e', he', hx'⟩ : ∃ e, c.get (roomPath b r) = some (.dict e) ∧ Convo.load e = x.convo := by
      cases hg : c.get (roomPath b r) with
      | none => rw [hg] at h5; cases h5
      | some v =>
        rw [hg] at h5
        cases v with
        | dict e => exact ⟨e, rfl, Option.some.inj h5⟩
        | set s => cases h5
        | scalar s => cases h5
    obtain ⟨rooms, hR, hr⟩ := get_dict (p := pathO ++ [b, [82]]) (by simp) (by rw [← roomsPath]; exact he')
    obtain ⟨e, hE, hRm⟩ := get_dict (p := pathO ++ [b]) (k := [82]) (by simp) (by
      rw [List.append_assoc]; exact hR)
    refine ⟨(b, .dict e), ?_, ?_⟩
    · rw [← mget_iff_mem hs, table_mget pathO_ne]; exact hE
    · unfold serverEntry
      have e1 : maybeStr e [35] = some x.pubkey := by
        rw [hsub hE] at hpk; exact hpk
      simp only [e1, hRm]
      rw [List.mem_filterMap]
      have hRs : KSorted rooms := by
        have := table_sorted hS hc (pathO ++ [b, [82]])
        unfold Client.table at this; rw [hR] at this; exact this
      refine ⟨(r, .dict e'), (mget_iff_mem hRs).1 hr, ?_⟩
      unfold roomEntry
      simp only [h1, h2]
      rw [if_pos h4, hx']

/-- C57.  Iterating over the communities yields every community `get` finds with a key; if all names are
stored canonically (as `set` does), nothing else, and each once. -/
theorem comm_iter {S : Sys} (hS : S.Good) {c : Client} (hc : Reach S c) :
    (∀ base room x, c.getComm base room = .ok (some x) → x.pubkey ≠ [] → x ∈ c.comms) ∧
    (c.CanonNames → (∀ x, x ∈ c.comms ↔ c.getComm x.base x.room = .ok (some x) ∧ x.pubkey ≠ []) ∧
      (c.comms.map fun x => (x.base, x.room)).Nodup) := by
  have key32 : ∀ b, c.serverKey b ≠ [] → (c.serverKey b).length = 32 := by
    intro b h
    unfold Client.serverKey at h ⊢
    split
    · split
      · assumption
      · rename_i hpk hl; rw [hpk] at h; simp only at h; rw [if_neg hl] at h; exact absurd rfl h
    · rename_i hpk; rw [hpk] at h; exact absurd rfl h
  have fwd : ∀ base room x, c.getComm base room = .ok (some x) → x.pubkey ≠ [] → x ∈ c.comms := by
    intro base room x hg hne
    obtain ⟨b, r, hb, hr⟩ := getComm_ok hg
    rw [getComm_eq hb hr] at hg
    have hg := Out.ok.inj hg
    cases hl : loadConvo (c.get (roomPath b r)) with
    | none => rw [hl] at hg; cases hg
    | some y =>
      rw [hl] at hg
      have hg := Option.some.inj hg
      subst hg
      exact (mem_comms hS hc _).2 ⟨b, r, canonical_url_idem _ _ hb, (canonical_room_case _ _ hr).2, rfl,
        key32 b hne, hl⟩
  refine ⟨fwd, fun hcn => ⟨fun x => ⟨fun hx => ?_, fun hx => fwd _ _ _ hx.1 hx.2⟩, ?_⟩⟩
  · obtain ⟨b, r, h1, h2, h3, h4, h5⟩ := (mem_comms hS hc _).1 hx
    have hne : c.get (roomPath b r) ≠ none := by
      intro hh; rw [hh] at h5; cases h5
    obtain ⟨n1, n2⟩ := hcn b r hne
    rw [n1] at h1; rw [n2] at h2
    have e1 := Out.ok.inj h1
    have e2 := Out.ok.inj h2
    rw [e1] at n1; rw [e2] at n2
    refine ⟨?_, by intro hh; rw [hh] at h4; cases h4⟩
    rw [getComm_eq n1 n2, ← e1, ← e2, h5, h3]
    simp only [Option.map_some, e1, e2]
  · have hs := table_sorted hS hc pathO
    unfold Client.comms
    rw [List.map_flatMap, List.nodup_flatMap]
    have hserver : ∀ y ∈ c.table pathO, ∀ z ∈ serverEntry y, z.base = y.1 := by
      intro ⟨b, v⟩ hy z hz
      rw [← mget_iff_mem hs, table_mget pathO_ne] at hy
      unfold serverEntry at hz
      split at hz
      · rename_i e he
        simp only at he; subst he
        split at hz
        · rename_i pk rooms hpk hrooms
          rw [List.mem_filterMap] at hz
          obtain ⟨⟨r, w⟩, hw, hz⟩ := hz
          have hR : c.get (pathO ++ [b, [82]]) = some (.dict rooms) := by
            have := get_entry (by simp) hy [82]
            rw [List.append_assoc] at this; rw [← hrooms]; exact this
          have hRs : KSorted rooms := by
            have := table_sorted hS hc (pathO ++ [b, [82]])
            unfold Client.table at this; rw [hR] at this; exact this
          rw [← mget_iff_mem hRs] at hw
          have hroom : c.get (roomPath b r) = some w := by
            rw [roomsPath, get_entry (by simp) hR r, hw]
          have hn := hcn b r (by rw [hroom]; simp)
          unfold roomEntry at hz
          split at hz
          · rename_i e' b' r' he' hb' hr'
            simp only at hb'
            rw [hn.1] at hb'
            split at hz
            · cases hz; exact (Out.ok.inj hb').symm
            · cases hz
          · cases hz
        · cases hz
      · cases hz
    constructor
    · intro ⟨b, v⟩ hy
      rw [← mget_iff_mem hs, table_mget pathO_ne] at hy
      unfold serverEntry
      split
      · rename_i e he
        simp only at he; subst he
        split
        · rename_i pk rooms hpk hrooms
          have hR : c.get (pathO ++ [b, [82]]) = some (.dict rooms) := by
            have := get_entry (by simp) hy [82]
            rw [List.append_assoc] at this; rw [← hrooms]; exact this
          have hRs : KSorted rooms := by
            have := table_sorted hS hc (pathO ++ [b, [82]])
            unfold Client.table at this; rw [hR] at this; exact this
          -- rooms are stored canonically, so they keep their names
          have key : ∀ a ∈ rooms, ∀ z, roomEntry b pk a = some z → z.room = a.1 := by
            intro ⟨r, w⟩ ha z hz
            rw [← mget_iff_mem hRs] at ha
            have hroom : c.get (roomPath b r) = some w := by
              rw [roomsPath, get_entry (by simp) hR r, ha]
            have hn := hcn b r (by rw [hroom]; simp)
            unfold roomEntry at hz
            split at hz
            · rename_i e' b' r' he' hb' hr'
              simp only at hr'
              rw [hn.2] at hr'
              split at hz
              · cases hz; exact (Out.ok.inj hr').symm
              · cases hz
            · cases hz
          refine List.Nodup.of_map (fun y : Bytes × Bytes => y.2) ?_
          rw [List.map_map]
          have : ∀ {l : Dict}, (∀ a ∈ l, ∀ z, roomEntry b pk a = some z → z.room = a.1) →
              (l.map (·.1)).Nodup → ((l.filterMap (roomEntry b pk)).map (·.room)).Nodup := by
            intro l
            induction l with
            | nil => intro _ _; simp
            | cons a t ih =>
              intro hk hn
              rw [List.map_cons, List.nodup_cons] at hn
              have ih := ih (fun a ha => hk a (by simp [ha])) hn.2
              rw [List.filterMap_cons]
              cases hf : roomEntry b pk a with
              | none => exact ih
              | some z =>
                simp only [List.map_cons, List.nodup_cons]
                refine ⟨fun hm => ?_, ih⟩
                obtain ⟨z', hz', he⟩ := List.mem_map.1 hm
                obtain ⟨a', ha', hf'⟩ := List.mem_filterMap.1 hz'
                refine hn.1 (List.mem_map.2 ⟨a', ha', ?_⟩)
                rw [← hk a' (by simp [ha']) _ hf', ← hk a (by simp) _ hf, he]
          exact this key hRs.nodup_keys
        · simp
      · simp
    · have hnd := hs.nodup_keys
      have hpw : (c.table pathO).Pairwise fun a b => a.1 ≠ b.1 := by
        rw [List.Nodup, List.pairwise_map] at hnd; exact hnd
      refine hpw.imp_of_mem ?_
      intro a b ha hb hab
      show List.Disjoint ((serverEntry a).map fun x => (x.base, x.room)) ((serverEntry b).map fun x => (x.base, x.room))
      intro z hz1 hz2
      obtain ⟨x, hx, rfl⟩ := List.mem_map.1 hz1
      obtain ⟨y, hy, he⟩ := List.mem_map.1 hz2
      refine hab ?_
      rw [← hserver a ha x hx, ← hserver b hb y hy, (Prod.mk.inj he).1]

/-! ### C56: pruning -/

theorem eraseConvo_at {S : Sys} (hS : S.Good) {c c' : Client} (hc : Reach S c) {k : ConvoKind}
    {id pk : Bytes} (hi : idBytes id k.pre = .ok pk) {b : Bool} (h : c.eraseConvo S k id = (c', .ok b)) :
    Reach S c' ∧ c'.get (k.path ++ [pk]) = none ∧
    (∀ pk', pk' ≠ pk → c'.get (k.path ++ [pk']) = c.get (k.path ++ [pk'])) ∧
    (∀ q, ¬ Nested k.path q → c'.get q = c.get q) := by
  unfold Client.eraseConvo at h
  rw [hi] at h
  simp only at h
  unfold Client.eraseImpl at h
  split at h
  · rename_i c1 hc1
    obtain ⟨rfl, _⟩ := Prod.mk.inj h
    obtain ⟨h1, h2, h3, h4, _⟩ := record_erased hS (kind_path_nonempty k) hc hc1
    exact ⟨h1, h2, h3, h4⟩
  · cases (Prod.mk.inj h).2
  · cases (Prod.mk.inj h).2
  · cases (Prod.mk.inj h).2

theorem eraseConvos_spec {S : Sys} (hS : S.Good) (k : ConvoKind) : ∀ {l : List Bytes} {c c' : Client},
    Reach S c → (∀ id ∈ l, ∃ pk, pk.length = 33 ∧ pk.head? = some k.byte ∧ id = toHex pk) →
    c.eraseConvos S k l = (c', .ok ()) → Reach S c' ∧
    (∀ pk, c'.get (k.path ++ [pk]) = if toHex pk ∈ l then none else c.get (k.path ++ [pk])) ∧
    (∀ q, ¬ Nested k.path q → c'.get q = c.get q)
  | [], c, c', hc, _, h => by
    obtain ⟨rfl, _⟩ := Prod.mk.inj h
    exact ⟨hc, fun pk => by simp, fun _ _ => rfl⟩
  | id :: t, c, c', hc, hl, h => by
    obtain ⟨pk, p1, p2, rfl⟩ := hl id (by simp)
    unfold Client.eraseConvos at h
    split at h
    · rename_i c1 b h1
      obtain ⟨a1, a2, a3, a4⟩ := eraseConvo_at hS hc (idBytes_kind_toHex p1 p2) h1
      obtain ⟨b1, b2, b3⟩ := eraseConvos_spec hS k a1 (fun id hid => hl id (by simp [hid])) h
      refine ⟨b1, fun pk' => ?_, fun q hq => by rw [b3 q hq, a4 q hq]⟩
      rw [b2]
      by_cases hm : toHex pk' ∈ t
      · rw [if_pos hm, if_pos (by simp [hm])]
      · rw [if_neg hm]
        by_cases he : pk' = pk
        · subst he; rw [if_pos (by simp), a2]
        · have hne : toHex pk' ≠ toHex pk := by
            intro hh; exact he (by rw [← fromHex_toHex pk', ← fromHex_toHex pk, hh])
          rw [if_neg (by simp [hm, hne]), a3 pk' he]
    · cases (Prod.mk.inj h).2
    · cases (Prod.mk.inj h).2
    · cases (Prod.mk.inj h).2

/-- The user's view of one kind after the loop over it -/
theorem pruneKind_spec {S : Sys} (hS : S.Good) {now : Int} {c c' : Client} (hc : Reach S c)
    {k : ConvoKind} (h : c.pruneKind S now k = (c', .ok ())) : Reach S c' ∧
    (∀ id x, c'.getConvo k id = .ok (some x) ↔ c.getConvo k id = .ok (some x) ∧ ¬ x.Old now) ∧
    (∀ q, ¬ Nested k.path q → c'.get q = c.get q) := by
  unfold Client.pruneKind at h
  have hmem : ∀ id, id ∈ ((c.convos k).filter (·.2.stale now)).map (·.1) ↔ ∃ pk x, pk.length = 33 ∧
      pk.head? = some k.byte ∧ loadConvo (c.get (k.path ++ [pk])) = some x ∧ id = toHex pk ∧ x.Old now := by
    intro id
    rw [List.mem_map]
    constructor
    · rintro ⟨z, hz, rfl⟩
      rw [List.mem_filter] at hz
      obtain ⟨pk, a, b, d, e⟩ := (mem_convos hS hc k z).1 hz.1
      exact ⟨pk, z.2, a, b, d, e, (stale_iff _ _).1 hz.2⟩
    · rintro ⟨pk, x, a, b, d, e, f⟩
      refine ⟨(id, x), ?_, rfl⟩
      rw [List.mem_filter]
      exact ⟨(mem_convos hS hc k _).2 ⟨pk, a, b, d, e⟩, (stale_iff _ _).2 f⟩
  obtain ⟨h1, h2, h3⟩ := eraseConvos_spec hS k hc (fun id hid => by
    obtain ⟨pk, x, a, b, _, e, _⟩ := (hmem id).1 hid
    exact ⟨pk, a, b, e⟩) h
  refine ⟨h1, fun id x => ?_, h3⟩
  cases hi : idBytes id k.pre with
  | ok pk =>
    obtain ⟨p1, p2⟩ := idBytes_kind_head hi
    rw [getConvo_eq hi, getConvo_eq hi, h2]
    by_cases hm : toHex pk ∈ ((c.convos k).filter (·.2.stale now)).map (·.1)
    · rw [if_pos hm]
      obtain ⟨pk', y, _, _, d, e, f⟩ := (hmem _).1 hm
      have : pk = pk' := by rw [← fromHex_toHex pk, ← fromHex_toHex pk', e]
      subst this
      rw [d]
      constructor
      · intro hh; cases hh
      · rintro ⟨hh, hno⟩; cases hh; exact absurd f hno
    · rw [if_neg hm]
      refine ⟨fun hg => ⟨hg, fun hold => hm ((hmem _).2 ⟨pk, x, p1, p2, Out.ok.inj hg, rfl, hold⟩)⟩,
        fun hh => hh.1⟩
  | err e => unfold Client.getConvo; rw [hi]; simp [Out.bind]
  | hang => unfold Client.getConvo; rw [hi]; simp [Out.bind]
  | ub => unfold Client.getConvo; rw [hi]; simp [Out.bind]

theorem eraseComms_spec {S : Sys} (hS : S.Good) : ∀ {l : List (Bytes × Bytes)} {c c' : Client},
    Reach S c → (∀ z ∈ l, canonUrl z.1 = .ok z.1 ∧ canonRoom z.2 = .ok z.2) →
    c.eraseComms S l = (c', .ok ()) → Reach S c' ∧
    (∀ b r, c'.get (roomPath b r) = if (b, r) ∈ l then none else c.get (roomPath b r)) ∧
    (∀ b r, c'.get (roomPath b r) ≠ none → c'.serverKey b = c.serverKey b) ∧
    (∀ q, ¬ Nested pathO q → c'.get q = c.get q)
  | [], c, c', hc, _, h => by
    obtain ⟨rfl, _⟩ := Prod.mk.inj h
    exact ⟨hc, fun b r => by simp, fun _ _ _ => rfl, fun _ _ => rfl⟩
  | (b0, r0) :: t, c, c', hc, hl, h => by
    obtain ⟨p1, p2⟩ := hl (b0, r0) (by simp)
    unfold Client.eraseComms at h
    split at h
    · rename_i c1 res h1
      obtain ⟨a1, _, a3, a4, a5, a6, _, a8⟩ := eraseComm_spec hS hc p1 p2 h1
      obtain ⟨b1, b2, b3, b4⟩ := eraseComms_spec hS a1 (fun z hz => hl z (by simp [hz])) h
      refine ⟨b1, fun b r => ?_, fun b r hg => ?_, fun q hq => by rw [b4 q hq, a8 q hq]⟩
      · rw [b2]
        by_cases hm : (b, r) ∈ t
        · rw [if_pos hm, if_pos (by simp [hm])]
        · rw [if_neg hm]
          by_cases he : b0 = b ∧ r0 = r
          · obtain ⟨rfl, rfl⟩ := he
            rw [if_pos (by simp), a3]
          · rw [if_neg (by
              simp only [List.mem_cons, Prod.mk.injEq, not_or]
              exact ⟨fun hh => he ⟨hh.1.symm, hh.2.symm⟩, hm⟩), a4 b r he]
      · rw [b3 b r hg]
        refine serverKey_congr ?_
        by_cases hb : b0 = b
        · subst hb
          refine a6 (fun _ => ⟨r, ?_⟩) _ (by decide)
          intro hh
          rw [b2, hh] at hg
          simp at hg
        · exact a5 b _ hb
    · cases (Prod.mk.inj h).2
    · cases (Prod.mk.inj h).2
    · cases (Prod.mk.inj h).2

theorem pruneComms_spec {S : Sys} (hS : S.Good) {now : Int} {c c' : Client} (hc : Reach S c)
    (hcn : c.CanonNames) (h : c.pruneComms S now = (c', .ok ())) : Reach S c' ∧
    (∀ base room x, c'.getComm base room = .ok (some x) ↔
      c.getComm base room = .ok (some x) ∧ ¬ (x.convo.Old now ∧ x.pubkey ≠ [])) ∧
    (∀ q, ¬ Nested pathO q → c'.get q = c.get q) ∧ c'.CanonNames := by
  unfold Client.pruneComms at h
  have hi := (comm_iter hS hc).2 hcn
  have hmem : ∀ z, z ∈ (c.comms.filter (·.convo.stale now)).map (fun x => (x.base, x.room)) ↔
      ∃ x, c.getComm z.1 z.2 = .ok (some x) ∧ x.pubkey ≠ [] ∧ x.convo.Old now ∧ z = (x.base, x.room) := by
    intro z
    rw [List.mem_map]
    constructor
    · rintro ⟨x, hx, rfl⟩
      rw [List.mem_filter] at hx
      obtain ⟨a, b⟩ := (hi.1 x).1 hx.1
      exact ⟨x, a, b, (stale_iff _ _).1 hx.2, rfl⟩
    · rintro ⟨x, a, b, d, rfl⟩
      refine ⟨x, ?_, rfl⟩
      rw [List.mem_filter]
      exact ⟨(hi.1 x).2 ⟨a, b⟩, (stale_iff _ _).2 d⟩
  obtain ⟨h1, h2, h3, h4⟩ := eraseComms_spec hS hc (fun z hz => by
    obtain ⟨x, a, _, _, e⟩ := (hmem z).1 hz
    obtain ⟨b, r, hb, hr⟩ := getComm_ok a
    have hg := a
    rw [getComm_eq hb hr] at hg
    have hg := Out.ok.inj hg
    cases hl : loadConvo (c.get (roomPath b r)) with
    | none => rw [hl] at hg; cases hg
    | some y =>
      rw [hl] at hg
      have hg := Option.some.inj hg
      subst hg
      subst e
      exact ⟨canonical_url_idem _ _ hb, (canonical_room_case _ _ hr).2⟩) h
  refine ⟨h1, fun base room x => ?_, h4, fun b r hg => ?_⟩
  · by_cases hok : ∃ b r, canonUrl base = .ok b ∧ canonRoom room = .ok r
    · obtain ⟨b, r, hb, hr⟩ := hok
      have hb' := canonical_url_idem _ _ hb
      have hr' := (canonical_room_case _ _ hr).2
      rw [getComm_eq hb hr, getComm_eq hb hr, h2]
      by_cases hm : (b, r) ∈ (c.comms.filter (·.convo.stale now)).map (fun x => (x.base, x.room))
      · rw [if_pos hm]
        obtain ⟨y, g1, g2, g3, g4⟩ := (hmem _).1 hm
        rw [getComm_eq hb' hr'] at g1
        have g1 := Out.ok.inj g1
        rw [g1]
        constructor
        · intro hh; cases hh
        · rintro ⟨hh, hno⟩; cases hh; exact absurd ⟨g3, g2⟩ hno
      · rw [if_neg hm]
        cases hl : loadConvo (c.get (roomPath b r)) with
        | none => simp
        | some y =>
          have hne : c'.get (roomPath b r) ≠ none := by
            rw [h2, if_neg hm]; intro hh; rw [hh] at hl; cases hl
          rw [h3 b r hne]
          refine ⟨fun hg => ⟨hg, ?_⟩, fun hh => hh.1⟩
          rintro ⟨o1, o2⟩
          have hg' := Option.some.inj (Out.ok.inj hg)
          refine hm ((hmem _).2 ⟨x, ?_, o2, o1, ?_⟩)
          · rw [getComm_eq hb' hr', hl]; exact hg
          · rw [← hg']
    · have hbad : ∀ c : Client, c.getComm base room ≠ .ok (some x) := by
        intro c hh; exact hok (getComm_ok hh)
      exact ⟨fun hh => absurd hh (hbad _), fun hh => absurd hh.1 (hbad _)⟩
  · rw [h2] at hg
    split at hg
    · exact absurd rfl hg
    · exact hcn b r hg

/-- C56.  Pruning removes exactly the one-to-one conversations, legacy groups and communities (with a
key) that were last read more than 45 days ago and are not marked unread.  Missing: groups are never
pruned (`prune_ignores_groups`). -/
theorem prune_stale_partial {S : Sys} (hS : S.Good) {now : Int} {c c' : Client} (hc : Reach S c)
    (hcn : c.CanonNames) (h : c.pruneStale S now = (c', .ok ())) : Reach S c' ∧
    (∀ k id x, k ≠ .group → (c'.getConvo k id = .ok (some x) ↔
      c.getConvo k id = .ok (some x) ∧ ¬ x.Old now)) ∧
    (∀ base room x, c'.getComm base room = .ok (some x) ↔
      c.getComm base room = .ok (some x) ∧ ¬ (x.convo.Old now ∧ x.pubkey ≠ [])) ∧
    (∀ id, c'.getConvo .group id = c.getConvo .group id) ∧
    (∀ q, ¬ Nested [[49]] q → ¬ Nested [[67]] q → ¬ Nested [[111]] q → c'.get q = c.get q) ∧
    c'.CanonNames := by
  unfold Client.pruneStale at h
  split at h
  · rename_i c1 h1
    obtain ⟨a1, a2, a3⟩ := pruneKind_spec hS hc h1
    split at h
    · rename_i c2 h2
      obtain ⟨b1, b2, b3⟩ := pruneKind_spec hS a1 h2
      have hO : ∀ q, c2.get (pathO ++ q) = c.get (pathO ++ q) := by
        intro q
        have n1 := kind_path_O .legacy [] q
        have n2 := kind_path_O .oneToOne [] q
        rw [List.append_nil] at n1 n2
        rw [b3 _ n1, a3 _ n2]
      have hcn2 : c2.CanonNames := by
        intro b r hg
        rw [roomPath, hO] at hg
        exact hcn b r hg
      obtain ⟨d1, d2, d3, d4⟩ := pruneComms_spec hS b1 hcn2 h
      have other : ∀ k k' id {x y : Client}, k ≠ k' → (∀ q, ¬ Nested k'.path q → y.get q = x.get q) →
          y.getConvo k id = x.getConvo k id := by
        intro k k' id x y hne hq
        refine getConvo_congr fun pk _ => hq _ ?_
        have := kind_path_ne (Ne.symm hne) [] [pk]
        rwa [List.append_nil] at this
      have otherO : ∀ k id, c'.getConvo k id = c2.getConvo k id := by
        intro k id
        refine getConvo_congr fun pk _ => d3 _ fun hn => ?_
        have := kind_path_O k [pk] []
        rw [List.append_nil] at this
        exact this hn.symm
      refine ⟨d1, fun k id x hk => ?_, fun base room x => ?_, fun id => ?_, fun q q1 q2 q3 => ?_, d4⟩
      · cases k with
        | oneToOne => rw [otherO, other .oneToOne .legacy id (by decide) b3]; exact a2 id x
        | legacy => rw [otherO, b2 id x, other .legacy .oneToOne id (by decide) a3]
        | group => exact absurd rfl hk
      · rw [d2, getComm_congr hO]
      · rw [otherO, other .group .legacy id (by decide) b3, other .group .oneToOne id (by decide) a3]
      · rw [d3 q q3, b3 q q2, a3 q q1]
    · rename_i c2 o hne heq
      obtain ⟨rfl, rfl⟩ := Prod.mk.inj h
      exact absurd rfl hne
  · rename_i c2 o hne heq
    obtain ⟨rfl, rfl⟩ := Prod.mk.inj h
    exact absurd rfl hne

/-- C56 is false of the code for groups: pruning, and hence `push`, keeps every group however long ago
it was read. -/
theorem prune_ignores_groups {S : Sys} (hS : S.Good) {now : Int} {c c' : Client} (hc : Reach S c)
    (hcn : c.CanonNames) (h : c.pruneStale S now = (c', .ok ())) {id : Bytes} {x : Convo}
    (_hold : x.Old now) (hx : c.getConvo .group id = .ok (some x)) :
    c'.getConvo .group id = .ok (some x) := by
  rw [(prune_stale_partial hS hc hcn h).2.2.2.1, hx]

/-- What an object without the empty dicts shows: the same conversations. -/
theorem convoAt_pruned {c r : Client} (ht : typedD c.conf.m.data = true)
    (hd : r.conf.m.data = pruneD c.conf.m.data) {p : List Bytes} (hp : p ≠ []) :
    r.convoAt p = c.convoAt p ∧ (loadConvo (c.get p) = none → loadConvo (r.get p) = none) := by
  have hg : ∀ q, r.get q = (c.get q).bind fun v => if v.prune.emptyVal then none else some v.prune := by
    intro q; unfold Client.get; rw [hd]; exact valAt_pruneD _ ht
  have hi : ∀ q, intOf (r.get q) = intOf (c.get q) := by
    intro q
    rw [hg]
    cases c.get q with
    | none => rfl
    | some v =>
      cases v with
      | scalar x => rfl
      | set s =>
        rw [Option.bind_some]
        split <;> rfl
      | dict e =>
        rw [Option.bind_some]
        split <;> rfl
  refine ⟨by rw [convoAt_eq r hp, convoAt_eq c hp, hi, hi], fun hn => ?_⟩
  rw [hg]
  cases hv : c.get p with
  | none => rfl
  | some v =>
    rw [hv] at hn
    cases v with
    | scalar x => rfl
    | set s =>
      rw [Option.bind_some]
      split <;> rfl
    | dict e => cases hn

/-- C56.  End to end: what `push` publishes has no one-to-one conversation or legacy group last read
more than 45 days ago and not marked unread; the others read the same on every device that receives it
(as in C34). -/
theorem push_prunes_partial {S : Sys} (hS : S.Good) {sg : Option (Bytes → Bytes)}
    (hS' : (S.as sg).Good) {now : Int} {c c' r : Client} (hc : Reach S c) (hcn : c.CanonNames) {s : Int}
    {m : Bytes} {obs : List Bytes} (hp : c.pushConvos S now = (c', .ok (s, m, obs)))
    (hr : Reach (S.as sg) r) (hs : s ≠ 0)
    (hk : r.keys.head? = c'.keys.head?) (hst : r.st ≠ .dirty)
    (hknown : r.seqno = 0 ∨ ∀ M, parseMsg S.env false ((c.pruneStale S now).1.plain S) = .ok M →
      Supersedes (S.as sg) M r)
    (hnc : S.env.H ((c.pruneStale S now).1.plain S) = S.env.H (r.plain (S.as sg)) →
      (c.pruneStale S now).1.plain S = r.plain (S.as sg))
    (hov : int64Ok (s + S.env.lag) = true) (h : Bytes)
    {r' : Client} {res : Out (List Bytes)} (hm : r.merge (S.as sg) [(h, m)] = (r', res)) :
    ∀ k id x, k ≠ .group → c.getConvo k id = .ok (some x) →
      (x.Old now → r'.getConvo k id = .ok none) ∧ (¬ x.Old now → r'.convo k id = .ok x) := by
  unfold Client.pushConvos at hp
  split at hp
  · rename_i c1 h1
    rw [h1] at hknown hnc
    obtain ⟨a1, a2, _⟩ := prune_stale_partial hS hc hcn h1
    have hp2 : (c1.push S).2 = .ok (s, m, obs) := by rw [hp]
    have hkeys : c'.keys = c1.keys := by
      have := (push_state hp2).2.2.2.2.1
      rw [hp] at this; exact this
    rw [hkeys] at hk
    obtain ⟨_, hd, _⟩ := delivery_full hS hS' a1 hr hp2 hs hk hst hknown hnc hov h
    rw [hm] at hd
    have hd : r'.conf.m.data = pruneD c1.conf.m.data := hd
    have ht := (a1.inv hS).wf.data
    intro k id x hk hx
    cases hi : idBytes id k.pre with
    | ok pk =>
      obtain ⟨e1, e2⟩ := convoAt_pruned ht hd (path_snoc_ne k pk)
      constructor
      · intro hold
        have hno : ∀ y, c1.getConvo k id ≠ .ok (some y) := by
          intro y hy
          obtain ⟨g1, g2⟩ := (a2 k id y hk).1 hy
          rw [hx] at g1; cases g1
          exact g2 hold
        rw [getConvo_eq hi] at hno ⊢
        rw [e2]
        cases hl : loadConvo (c1.get (k.path ++ [pk])) with
        | none => rfl
        | some y => exact absurd (by rw [hl]) (hno y)
      · intro hold
        have := (a2 k id x hk).2 ⟨hx, hold⟩
        rw [convo_eq hi, e1]
        rw [getConvo_eq hi] at this
        unfold Client.convoAt
        rw [Out.ok.inj this]
        rfl
    | err e => unfold Client.getConvo at hx; rw [hi] at hx; cases hx
    | hang => unfold Client.getConvo at hx; rw [hi] at hx; cases hx
    | ub => unfold Client.getConvo at hx; rw [hi] at hx; cases hx
  · cases (Prod.mk.inj hp).2
  · cases (Prod.mk.inj hp).2
  · cases (Prod.mk.inj hp).2

/-! ### Pruning never fails on a writable object -/

/-- The object accepts changes: it is writable and not out of sequence numbers, or already changed -/
def Client.Ready (S : Sys) (c : Client) : Prop :=
  (S.env.readonly = false ∧ int64Ok (c.seqno + 1) = true) ∨ c.st = .dirty

theorem erase_ready {S : Sys} (hS : S.Good) {c : Client} (hc : Reach S c) (h : c.Ready S) (p : List Bytes) :
    ∃ c', c.erase S p = (c', .ok ()) ∧ Reach S c' ∧ c'.Ready S := by
  have hex : ∃ c', c.erase S p = (c', .ok ()) := by
    rcases h with ⟨h1, h2⟩ | h
    · exact field_succeeds hS hc h1 h2 p .erase
    · exact write_dirty_ok hS hc h p none
  obtain ⟨c', hc'⟩ := hex
  refine ⟨c', hc', (erase_get hS hc hc').2.2, ?_⟩
  rcases write_pending (v := none) hc' with ⟨he, _⟩ | hd
  · rw [he]; exact h
  · exact .inr hd

theorem eraseConvos_ready {S : Sys} (hS : S.Good) (k : ConvoKind) : ∀ {l : List Bytes} {c : Client},
    Reach S c → c.Ready S → (∀ id ∈ l, ∃ pk, pk.length = 33 ∧ pk.head? = some k.byte ∧ id = toHex pk) →
    ∃ c', c.eraseConvos S k l = (c', .ok ()) ∧ Reach S c' ∧ c'.Ready S
  | [], c, hc, h, _ => ⟨c, rfl, hc, h⟩
  | id :: t, c, hc, h, hl => by
    obtain ⟨pk, p1, p2, rfl⟩ := hl id (by simp)
    obtain ⟨c1, h1, h2, h3⟩ := erase_ready hS hc h (k.path ++ [pk])
    obtain ⟨c2, g1, g2, g3⟩ := eraseConvos_ready hS k (l := t) h2 h3 (fun id hid => hl id (by simp [hid]))
    refine ⟨c2, ?_, g2, g3⟩
    unfold Client.eraseConvos Client.eraseConvo
    rw [idBytes_kind_toHex p1 p2]
    simp only [Client.eraseImpl, h1, g1]

theorem eraseComms_ready {S : Sys} (hS : S.Good) : ∀ {l : List (Bytes × Bytes)} {c : Client},
    Reach S c → c.Ready S → (∀ z ∈ l, (∃ b, canonUrl z.1 = .ok b) ∧ ∃ r, canonRoom z.2 = .ok r) →
    ∃ c', c.eraseComms S l = (c', .ok ()) ∧ Reach S c' ∧ c'.Ready S
  | [], c, hc, h, _ => ⟨c, rfl, hc, h⟩
  | (b0, r0) :: t, c, hc, h, hl => by
    obtain ⟨⟨b, hb⟩, r, hr⟩ := hl (b0, r0) (by simp)
    obtain ⟨c1, h1, h2, h3⟩ := erase_ready hS hc h (roomPath b r)
    have hone : ∃ c2 res, c.eraseComm S b0 r0 = (c2, .ok res) ∧ Reach S c2 ∧ c2.Ready S := by
      unfold Client.eraseComm
      simp only at hb hr
      rw [hb, hr]
      simp only [Client.eraseImpl, h1]
      cases hs : (c.get (roomPath b r)).isSome with
      | false => exact ⟨c1, false, rfl, h2, h3⟩
      | true =>
        have : ∃ c2, c1.eraseServer S b = (c2, .ok ()) ∧ Reach S c2 ∧ c2.Ready S := by
          unfold Client.eraseServer
          split
          · exact ⟨c1, rfl, h2, h3⟩
          · obtain ⟨d1, i1, i2, i3⟩ := erase_ready hS h2 h3 (pathO ++ [b, [82]])
            obtain ⟨d2, j1, j2, j3⟩ := erase_ready hS i2 i3 (pathO ++ [b])
            exact ⟨d2, by simp only [i1, j1], j2, j3⟩
        obtain ⟨c2, i1, i2, i3⟩ := this
        exact ⟨c2, true, by simp only [i1], i2, i3⟩
    obtain ⟨c2, res, i1, i2, i3⟩ := hone
    obtain ⟨c3, g1, g2, g3⟩ := eraseComms_ready hS (l := t) i2 i3 (fun z hz => hl z (by simp [hz]))
    exact ⟨c3, by unfold Client.eraseComms; simp only [i1, g1], g2, g3⟩

/-- C56.  Pruning succeeds on every writable object, whatever it contains. -/
theorem prune_succeeds {S : Sys} (hS : S.Good) {now : Int} {c : Client} (hc : Reach S c)
    (hro : S.env.readonly = false) (hov : int64Ok (c.seqno + 1) = true) :
    ∃ c', c.pruneStale S now = (c', .ok ()) := by
  have kind : ∀ {c : Client} (k : ConvoKind), Reach S c → c.Ready S →
      ∃ c', c.pruneKind S now k = (c', .ok ()) ∧ Reach S c' ∧ c'.Ready S := by
    intro c k hc h
    refine eraseConvos_ready hS k hc h fun id hid => ?_
    obtain ⟨z, hz, rfl⟩ := List.mem_map.1 hid
    obtain ⟨pk, a, b, _, e⟩ := (mem_convos hS hc k z).1 (List.mem_filter.1 hz).1
    exact ⟨pk, a, b, e⟩
  obtain ⟨c1, h1, h2, h3⟩ := kind .oneToOne hc (.inl ⟨hro, hov⟩)
  obtain ⟨c2, g1, g2, g3⟩ := kind .legacy h2 h3
  obtain ⟨c3, i1, i2, i3⟩ := eraseComms_ready hS (l := (c2.comms.filter (·.convo.stale now)).map
      fun x => (x.base, x.room)) g2 g3 (fun z hz => by
    obtain ⟨x, hx, rfl⟩ := List.mem_map.1 hz
    obtain ⟨b, r, a1, a2, _⟩ := (mem_comms hS g2 x).1 (List.mem_filter.1 hx).1
    exact ⟨⟨_, canonical_url_idem _ _ a1⟩, _, (canonical_room_case _ _ a2).2⟩)
  exact ⟨c3, by unfold Client.pruneStale; simp only [h1, g1]; exact i1⟩

/-! ### Examples -/

/-- A point in time, in ns, and a recent and an old last-read time, in ms -/
def exNow : Int := 1700000000 * 10 ^ 9
def exRecent : Int := 1699990000 * 10 ^ 3
def exOldTime : Int := 1690000000 * 10 ^ 3
def exGid : Bytes := [48, 51] ++ (List.replicate 32 [97, 66]).flatten

/-- An object with conversations of all kinds; old times can only be written while lowering. -/
def exConvos : Client :=
  let base : Bytes := [72, 84, 84, 80, 58, 47, 47, 97, 46, 66, 67]   -- HTTP://a.BC
  let a := (exC3.setConvo exSys exNow .oneToOne exId ⟨exRecent, false⟩).1
  let a := (a.setConvo exSys exNow .oneToOne exId2 ⟨exRecent, false⟩).1
  let a := (a.setConvo exSys exNow .oneToOne exId2 ⟨exOldTime, false⟩).1
  let a := (a.setConvo exSys exNow .legacy exId ⟨exRecent, false⟩).1
  let a := (a.setConvo exSys exNow .legacy exId ⟨exOldTime, true⟩).1
  let a := (a.setConvo exSys exNow .group exGid ⟨exRecent, false⟩).1
  let a := (a.setConvo exSys exNow .group exGid ⟨exOldTime, false⟩).1
  let a := (a.setComm exSys exNow base [82] (List.replicate 32 1) ⟨exRecent, false⟩).1
  let a := (a.setComm exSys exNow base [82] (List.replicate 32 1) ⟨exOldTime, false⟩).1
  (a.setComm exSys exNow base [83] (List.replicate 32 2) ⟨exRecent, true⟩).1

/-- Set, read under another spelling, counted; pruning removes what is old and not unread, except the
group. -/
example :
    let c := exConvos
    let p := (c.pruneStale exSys exNow).1
    let url : Bytes := [104, 116, 116, 112, 58, 47, 47, 97, 46, 98, 99]
    c.getConvo .oneToOne (lower exId) = .ok (some ⟨exRecent, false⟩) ∧
    c.getConvo .oneToOne exId2 = .ok (some ⟨exOldTime, false⟩) ∧
    c.convo .oneToOne (lower exId2) = .ok ⟨exOldTime, false⟩ ∧
    c.convoSize .oneToOne = 2 ∧ c.convos .oneToOne = [(lower exId, ⟨exRecent, false⟩), (lower exId2, ⟨exOldTime, false⟩)] ∧
    c.getComm url [114] = .ok (some ⟨url, [114], List.replicate 32 2, ⟨exOldTime, false⟩⟩) ∧
    c.comms = [⟨url, [114], List.replicate 32 2, ⟨exOldTime, false⟩⟩, ⟨url, [115], List.replicate 32 2, ⟨exRecent, true⟩⟩] ∧
    c.commSize = 2 ∧
    (c.pruneStale exSys exNow).2 = .ok () ∧
    p.getConvo .oneToOne exId = .ok (some ⟨exRecent, false⟩) ∧
    p.getConvo .oneToOne exId2 = .ok none ∧
    p.getConvo .legacy exId = .ok (some ⟨exOldTime, true⟩) ∧
    p.getConvo .group exGid = .ok (some ⟨exOldTime, false⟩) ∧ Convo.Old exNow ⟨exOldTime, false⟩ ∧
    p.getComm url [114] = .ok none ∧
    p.getComm url [115] = .ok (some ⟨url, [115], List.replicate 32 2, ⟨exRecent, true⟩⟩) ∧
    (p.eraseComm exSys url [115]).2 = .ok true ∧
    (p.eraseComm exSys url [115]).1.get (pathO ++ [url]) = none ∧
    (p.eraseConvo exSys .oneToOne exId).2 = .ok true := by
  decide +kernel

/-- The names are canonical because `set` stores them so. -/
example : exC3.CanonNames := by
  intro b r h
  exfalso
  apply h
  have : exC3.get pathO = none := by decide +kernel
  show valAt exC3.conf.m.data ([111] :: b :: [[82], r]) = none
  unfold valAt
  rw [show mget [111] exC3.conf.m.data = none from this]

/-- Published and delivered without the old conversation. -/
example :
    let m := match (exConvos.pushConvos exSys exNow).2 with | .ok (_, m, _) => m | _ => []
    let d := (exD1.merge exSys [([107], m)]).1
    d.getConvo .oneToOne exId = .ok (some ⟨exRecent, false⟩) ∧ d.getConvo .oneToOne exId2 = .ok none ∧
      d.getConvo .group exGid = .ok (some ⟨exOldTime, false⟩) := by decide +kernel

/-- The overflow: a time in the year 2262 is accepted, one in 2263 is not. -/
example :
    (exC3.setConvo exSys exNow .oneToOne exId ⟨9223372036854, false⟩).2 = .ok () ∧
    (exC3.setConvo exSys exNow .oneToOne exId ⟨9223372036855, false⟩).2 = .ub := by decide +kernel

end Verif
