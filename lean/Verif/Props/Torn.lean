/-
C148: a dump that was cut off is never taken for a dump.
-/
import Verif.Local
import Verif.Props.GroupWitness
import Verif.Props.Client

namespace Verif

/-! ## Reading more bytes than needed -/

theorem decV_more {bs r x : Bytes} {v : Bt} {f n : Nat} (h : decV f bs = some (v, r)) (hn : bs.length ≤ n) :
    decV n (bs ++ x) = some (v, r ++ x) := by
  obtain ⟨c, _, h1, h2⟩ := (dec_local f).1 _ _ _ h
  rw [h1, List.append_assoc]
  exact h2 n (r ++ x) (by rw [h1] at hn; simp only [List.length_append] at hn; omega)

theorem decStr_more {bs s r x : Bytes} (h : decStr bs = some (s, r)) : decStr (bs ++ x) = some (s, r ++ x) := by
  obtain ⟨c, _, h1, h2⟩ := decStr_local h
  rw [h1, List.append_assoc]
  exact h2 (r ++ x)

theorem decTop_more {x : Bytes} : ∀ {f off : Nat} {bs : Bytes} {es : List TopEntry} {r : Bytes} (n : Nat),
    decTop f off bs = some (es, r) → decTop (f + n) off (bs ++ x) = some (es, r ++ x) := by
  intro f
  induction f with
  | zero => intro off bs es r n h; simp [decTop] at h
  | succ f ih =>
    intro off bs es r n h
    rw [show f + 1 + n = (f + n) + 1 by omega]
    cases bs with
    | nil => simp [decTop] at h
    | cons c t =>
      rw [List.cons_append]
      simp only [decTop] at h ⊢
      split at h
      · rename_i hc
        rw [if_pos hc]
        cases h; rfl
      · rename_i hc
        rw [if_neg hc]
        split at h
        · cases h
        · rename_i k r1 hk
          split at h
          · cases h
          · rename_i v r2 hv
            obtain ⟨⟨l, z⟩, hp, e⟩ := Option.map_eq_some_iff.1 h
            simp only [Prod.mk.injEq] at e
            obtain ⟨rfl, rfl⟩ := e
            have h1 := decStr_more (x := x) hk
            rw [List.cons_append] at h1
            rw [h1]
            dsimp only
            rw [decV_more (x := x) (n := (r1 ++ x).length) hv (by simp)]
            dsimp only
            have hlen : (c :: (t ++ x)).length - (r2 ++ x).length = (c :: t).length - r2.length := by
              simp only [List.length_cons, List.length_append]; omega
            rw [hlen, ih n hp]
            rfl

theorem seekKey_more {find x : Bytes} : ∀ {f : Nat} {bs r : Bytes} {b : Bool} (n : Nat),
    seekKey f find bs = some (b, r) → seekKey (f + n) find (bs ++ x) = some (b, r ++ x) := by
  intro f
  induction f with
  | zero => intro bs r b n h; simp [seekKey] at h
  | succ f ih =>
    intro bs r b n h
    rw [show f + 1 + n = (f + n) + 1 by omega]
    cases bs with
    | nil => simp [seekKey] at h
    | cons c t =>
      rw [List.cons_append]
      simp only [seekKey] at h ⊢
      split at h
      · rename_i hc
        rw [if_pos hc]
        cases h; rfl
      · rename_i hc
        rw [if_neg hc]
        split at h
        · cases h
        · rename_i k r1 hk
          have h1 := decStr_more (x := x) hk
          rw [List.cons_append] at h1
          rw [h1]
          dsimp only
          split at h
          · rename_i hlt
            rw [if_pos hlt]
            split at h
            · cases h
            · rename_i v r2 hv
              rw [decV_more (x := x) (n := (r1 ++ x).length) hv (by simp)]
              exact ih n h
          · rename_i hlt
            rw [if_neg hlt]
            split at h
            · rename_i he
              rw [if_pos he]; cases h; rfl
            · rename_i he
              rw [if_neg he]; cases h; rfl

theorem requireKey_more {k bs r x : Bytes} (h : requireKey k bs = some r) : requireKey k (bs ++ x) = some (r ++ x) := by
  unfold requireKey at h ⊢
  split at h
  · rename_i r' hs
    cases h
    have := seekKey_more (x := x) (x.length) hs
    rw [List.length_append, this]
  · cases h

theorem takeList_more {bs r x : Bytes} {l : List Bt} (h : takeList bs = some (l, r)) :
    takeList (bs ++ x) = some (l, r ++ x) := by
  unfold takeList takeVal at h ⊢
  split at h
  · rename_i l' r' hv
    cases h
    rw [decV_more (x := x) (n := (bs ++ x).length) hv (by simp)]
  · cases h

theorem takeDict_more {bs r x : Bytes} {l : BtDict} (h : takeDict bs = some (l, r)) :
    takeDict (bs ++ x) = some (l, r ++ x) := by
  unfold takeDict takeVal at h ⊢
  split at h
  · rename_i l' r' hv
    cases h
    rw [decV_more (x := x) (n := (bs ++ x).length) hv (by simp)]
  · cases h

/-! ## Config objects -/

/-- Part of a dict is no dict. -/
theorem torn_dict {D : BtDict} (hok : Bt.okD D = true) {p x : Bytes} (hx : x ≠ []) (h : p ++ x = encD D ++ [101])
    (f off : Nat) : decTop f off p = none := by
  cases hd : decTop f off p with
  | none => rfl
  | some a =>
    obtain ⟨es, r⟩ := a
    have h1 := decTop_more (x := x) ((encD D).length + 1) hd
    rw [h, decTop_encD D _ off [] hok (by omega)] at h1
    simp only [Option.some.injEq, Prod.mk.injEq] at h1
    have := List.append_eq_nil_iff.1 h1.2.symm
    exact absurd this.2 hx

theorem okD_dump (c : Client) (s : Bytes) (ord : List Bytes) :
    Bt.okD [([33], .int c.st.code), ([36], .str s), ([40], .str c.curr), ([41], .list (ord.map .str))] = true := by
  have : Bt.okL (ord.map Bt.str) = true := by
    rw [okL_iff]; intro p hp
    obtain ⟨x, _, rfl⟩ := List.mem_map.1 hp; rfl
  have hc : intOk c.st.code = true := by cases c.st <;> decide
  simp [Bt.okD, Bt.ok, this, hc]

/-- What `init_from_dump` does with the entries of the dump (src/config/base.cpp:380-412) -/
def restoreTop (S : Sys) (es : List TopEntry) : Out Client :=
  match skipUntil [33] es with
  | e1 :: es1 =>
    if e1.key ≠ [33] then .err .foreign
    else
      match e1.val, skipUntil [36] es1 with
      | .int i, e2 :: es2 =>
        if e2.key ≠ [36] then .err .foreign
        else
          match e2.val with
          | .str data =>
            if i = 0 ∨ i = 1 ∨ i = 2 then
              let st : CState := if i = 0 then .clean else if i = 1 then .dirty else .waiting
              loadConf S.env st data >>= fun conf =>
              loadHashes es2 >>= fun h =>
                .ok { conf := conf, st := st, curr := h.1, old := h.2, needsDump := false, keys := [] }
            else .err .foreign
          | _ => .err .foreign
      | _, _ => .err .foreign
  | [] => .err .foreign

theorem restore_cons (S : Sys) (t : Bytes) : Client.restore S (100 :: t) = match decTop t.length 1 t with
    | none => .err .foreign
    | some (es, _) => restoreTop S es := rfl

/-- C148.  Any part of a dump of a config object that was cut off at the end is refused with an exception. -/
theorem torn_dump_refused (S S' : Sys) (c : Client) (ord : List Bytes) {n : Nat}
    (hn : n < (c.dumpBytes S ord).length) : Client.restore S' ((c.dumpBytes S ord).take n) = .err .foreign := by
  have hsplit := List.take_append_drop n (c.dumpBytes S ord)
  have hx : (c.dumpBytes S ord).drop n ≠ [] := by
    intro h; have := congrArg List.length h; simp only [List.length_drop, List.length_nil] at this; omega
  generalize (c.dumpBytes S ord).take n = p at *
  generalize (c.dumpBytes S ord).drop n = x at *
  cases p with
  | nil => rfl
  | cons a t =>
    rw [Client.dumpBytes, List.cons_append, List.cons.injEq] at hsplit
    obtain ⟨rfl, h⟩ := hsplit
    rw [restore_cons, torn_dict (okD_dump c (c.conf.ser S.env false) ord) hx h]

/-- C148.  What follows a dump does not matter. -/
theorem dump_tail_ignored {S : Sys} {d x : Bytes} {c : Client} (h : Client.restore S d = .ok c) :
    Client.restore S (d ++ x) = .ok c := by
  cases d with
  | nil => cases h
  | cons a t =>
    by_cases ha : a = 100
    · subst ha
      rw [List.cons_append, restore_cons]
      rw [restore_cons] at h
      cases hd : decTop t.length 1 t with
      | none => rw [hd] at h; cases h
      | some p =>
        obtain ⟨es, r⟩ := p
        rw [hd] at h
        have h1 := decTop_more (x := x) x.length hd
        rw [List.length_append, h1]
        exact h
    · exfalso
      unfold Client.restore at h
      split at h
      · rename_i heq; simp only [List.cons.injEq] at heq; exact absurd heq.1 ha
      · cases h

theorem parseMsg_cons (env : Env) (b : Bool) (a : UInt8) (t : Bytes) :
    parseMsg env b (100 :: a :: t) = match decTop (a :: t).length 1 (a :: t) with
      | some (es, _) => parseEntries env b (100 :: a :: t) es
      | none => .err .parse := rfl

/-- C148.  A config message that was cut off is refused, by whoever reads it. -/
theorem torn_message_refused {S : Sys} (hS : S.Good) {c : Client} (hr : Reach S c) {env' : Env} {b : Bool} {n : Nat}
    (hn : n < (c.plain S).length) : ∃ e, parseMsg env' b ((c.plain S).take n) = .err e := by
  have hok := top_ok S.env.lag (hr.inv hS).wf.refresh_msg
  have hser : c.plain S = 100 :: (encD (c.conf.refresh.m.top S.env.lag ++
      sigEntry (c.conf.refresh.m.sig S.env true)) ++ [101]) := ser_eq S.env c.conf.refresh.m true
  have hokD : Bt.okD (c.conf.refresh.m.top S.env.lag ++ sigEntry (c.conf.refresh.m.sig S.env true)) = true := by
    rw [okD_append, hok]
    cases c.conf.refresh.m.sig S.env true <;> rfl
  rw [hser] at hn ⊢
  generalize c.conf.refresh.m.top S.env.lag ++ sigEntry (c.conf.refresh.m.sig S.env true) = D at hn hokD ⊢
  have hsplit := List.take_append_drop n (100 :: (encD D ++ [101]))
  have hx : (100 :: (encD D ++ [101])).drop n ≠ [] := by
    intro h; have := congrArg List.length h; simp only [List.length_drop, List.length_nil] at this; omega
  generalize (100 :: (encD D ++ [101])).take n = p at *
  generalize (100 :: (encD D ++ [101])).drop n = x at *
  cases p with
  | nil => exact ⟨_, rfl⟩
  | cons a t =>
    rw [List.cons_append, List.cons.injEq] at hsplit
    obtain ⟨rfl, h⟩ := hsplit
    cases t with
    | nil => exact ⟨_, rfl⟩
    | cons a' t' => exact ⟨.parse, by rw [parseMsg_cons, torn_dict hokD hx h]⟩

/-! ## Group keys -/

theorem loadPending_more {bs x : Bytes} {s : GKeys} (h : ∀ e, loadPending bs s ≠ .err e) :
    loadPending (bs ++ x) s = loadPending bs s := by
  unfold loadPending at h ⊢
  cases hs : seekKey bs.length (asc ['p', 'e', 'n', 'd', 'i', 'n', 'g']) bs with
  | none => rw [hs] at h; exact absurd rfl (h _)
  | some a =>
    obtain ⟨b, r⟩ := a
    have h1 := seekKey_more (x := x) x.length hs
    rw [List.length_append, h1]
    rw [hs] at h
    cases b with
    | false => rfl
    | true =>
      dsimp only at h ⊢
      cases hd : takeDict r with
      | none => rw [hd] at h; exact absurd rfl (h _)
      | some a =>
        obtain ⟨d, r'⟩ := a
        rw [takeDict_more hd]

theorem loadDump_more {d x : Bytes} (h : ∀ e, loadDump d ≠ .err e) : loadDump (d ++ x) = loadDump d := by
  unfold loadDump at h ⊢
  cases h0 : openDict d with
  | none => rw [h0] at h; exact absurd rfl (h _)
  | some r0 =>
    have g0 : openDict (d ++ x) = some (r0 ++ x) := by
      unfold openDict at h0 ⊢
      split at h0
      · cases h0; rfl
      · cases h0
    rw [h0] at h
    rw [g0]
    dsimp only at h ⊢
    cases h1 : requireKey (asc ['a', 'c', 't', 'i', 'v', 'e']) r0 with
    | none => rw [h1] at h; exact absurd rfl (h _)
    | some r1 =>
      rw [h1] at h
      rw [requireKey_more h1]
      dsimp only at h ⊢
      cases h2 : takeList r1 with
      | none => rw [h2] at h; exact absurd rfl (h _)
      | some a =>
        obtain ⟨al, r2⟩ := a
        rw [h2] at h
        rw [takeList_more h2]
        dsimp only at h ⊢
        cases h3 : loadActive al [] with
        | none => rfl
        | some act =>
          rw [h3] at h
          dsimp only at h ⊢
          cases h4 : requireKey (asc ['k', 'e', 'y', 's']) r2 with
          | none => rw [h4] at h; exact absurd rfl (h _)
          | some r3 =>
            rw [h4] at h
            rw [requireKey_more h4]
            dsimp only at h ⊢
            cases h5 : takeList r3 with
            | none => rw [h5] at h; exact absurd rfl (h _)
            | some a =>
              obtain ⟨kl, r4⟩ := a
              rw [h5] at h
              rw [takeList_more h5]
              dsimp only at h ⊢
              cases h6 : decKeyInfos kl with
              | err e => rfl
              | ub => rfl
              | hang => rfl
              | ok ks =>
                rw [h6, Out.bind_ok] at h
                rw [Out.bind_ok, Out.bind_ok]
                by_cases ha : ascending ks = false
                · rw [if_pos ha, if_pos ha]
                · rw [if_neg ha] at h
                  rw [if_neg ha, if_neg ha, loadPending_more h]

/-- C148.  Any part of a dump of group keys that was cut off at the end is refused with an exception, or
gives the object the whole dump gives (C67). -/
theorem torn_keys_dump {P : GPrims} (hP : P.Good) {s : GKeys} {log : List (Bytes × Found)} (h : KReach P s log)
    (n : Nat) : (∃ e, loadDump (s.dump.2.take n) = .err e) ∨
      ∃ s', loadDump (s.dump.2.take n) = .ok s' ∧ loadDump s.dump.2 = .ok s' := by
  by_cases he : ∃ e, loadDump (s.dump.2.take n) = .err e
  · exact .inl he
  · right
    have h1 := loadDump_more (x := s.dump.2.drop n) (fun e h => he ⟨e, h⟩)
    rw [List.take_append_drop] at h1
    obtain ⟨s', h2, _⟩ := keys_restore hP h
    exact ⟨s', by rw [← h1]; exact h2, h2⟩

/-- C148.  What follows a dump of group keys does not matter. -/
theorem keys_dump_tail {d x : Bytes} {s : GKeys} (h : loadDump d = .ok s) : loadDump (d ++ x) = .ok s := by
  rw [loadDump_more (fun e he => by rw [h] at he; cases he), h]

/-! ## Dumps from anywhere -/

theorem dInt_int64 {k : Bytes} {d r : BtDict} {i : Int} (h : dInt k d = some (i, r)) : int64Ok i = true := by
  unfold dInt at h
  split at h
  · split at h
    · rename_i hi; cases h; exact hi
    · cases h
  · cases h

/-- What there is to know about `active_msgs_`: generations in order and in range, no hash twice -/
def ActiveOk (a : List (Int × List Bytes)) : Prop :=
  AscA a ∧ (∀ e ∈ a, int64Ok e.1 = true) ∧ ∀ e ∈ a, e.2.Nodup

theorem addGen_fst {g : Int} : ∀ {a : List (Int × List Bytes)} {e : Int × List Bytes}, e ∈ addGen g a →
    e = (g, []) ∨ e ∈ a
  | [], e, h => by simp only [addGen, List.mem_singleton] at h; exact .inl h
  | (g', hs) :: t, e, h => by
    simp only [addGen] at h
    split at h
    · rcases List.mem_cons.1 h with h | h
      · exact .inl h
      · exact .inr h
    · split at h
      · exact .inr h
      · rcases List.mem_cons.1 h with rfl | h
        · exact .inr (List.mem_cons_self ..)
        · rcases addGen_fst h with h | h
          · exact .inl h
          · exact .inr (List.mem_cons_of_mem _ h)

theorem addGen_asc {g : Int} : ∀ {a : List (Int × List Bytes)}, AscA a → AscA (addGen g a)
  | [], _ => by simp [addGen]
  | (g', hs) :: t, ha => by
    have ha' := List.pairwise_cons.1 ha
    simp only [addGen]
    split
    · rename_i hlt
      refine List.pairwise_cons.2 ⟨fun e he => ?_, ha⟩
      rcases List.mem_cons.1 he with rfl | he
      · exact hlt
      · exact lt_trans hlt (ha'.1 e he)
    · rename_i h1
      split
      · exact ha
      · rename_i h2
        refine List.pairwise_cons.2 ⟨fun e he => ?_, addGen_asc ha'.2⟩
        rcases addGen_fst he with rfl | he
        · exact lt_of_le_of_ne (not_lt.1 h1) (Ne.symm h2)
        · exact ha'.1 e he

theorem addHash_nodup' {g : Int} {h : Bytes} : ∀ {a : List (Int × List Bytes)},
    (∀ e ∈ a, e.2.Nodup) → ∀ e ∈ addHash g h a, e.2.Nodup
  | [], _ => by simp [addHash]
  | (g0, hs) :: t, ha => by
    have h0 := ha _ (List.mem_cons_self ..)
    have ht : ∀ e ∈ t, e.2.Nodup := fun e he => ha e (List.mem_cons_of_mem _ he)
    intro e he
    simp only [addHash] at he
    split at he
    · rcases List.mem_cons.1 he with rfl | he
      · simp
      · exact ha e he
    · split at he
      · rcases List.mem_cons.1 he with rfl | he
        · dsimp only
          split
          · exact h0
          · rename_i hn
            exact List.nodup_append.2 ⟨h0, by simp, by
              intro x hx y hy; rw [List.mem_singleton.1 hy]; rintro rfl; exact hn hx⟩
        · exact ht e he
      · rcases List.mem_cons.1 he with rfl | he
        · exact h0
        · exact addHash_nodup' ht e he

theorem addHashes_ok {g : Int} (hg : int64Ok g = true) {hs : List Bytes} {a : List (Int × List Bytes)}
    (ha : ActiveOk a) : ActiveOk (addHashes g hs a) := by
  unfold addHashes
  have h0 : ActiveOk (addGen g a) := by
    refine ⟨addGen_asc ha.1, fun e he => ?_, fun e he => ?_⟩
    · rcases addGen_fst he with rfl | he
      · exact hg
      · exact ha.2.1 e he
    · rcases addGen_fst he with rfl | he
      · simp
      · exact ha.2.2 e he
  generalize addGen g a = b at h0
  induction hs generalizing b with
  | nil => exact h0
  | cons h t ih =>
    rw [List.foldl_cons]
    refine ih _ ⟨addHash_asc h0.1, fun e he => ?_, addHash_nodup' h0.2.2⟩
    rcases addHash_fst he with h' | ⟨e', he', hh⟩
    · rw [h']; exact hg
    · rw [← hh]; exact h0.2.1 e' he'

theorem loadActive_ok : ∀ {l : List Bt} {a b : List (Int × List Bytes)}, ActiveOk a → loadActive l a = some b →
    ActiveOk b := by
  intro l
  induction l with
  | nil => intro a b ha h; cases h; exact ha
  | cons v t ih =>
    intro a b ha h
    unfold loadActive at h
    split at h
    · cases h; exact ha
    · rename_i g hs t' heq
      split at h
      · rename_i hg
        split at h
        · rename_i hs' _
          obtain ⟨rfl, rfl⟩ := List.cons.inj heq
          exact ih (addHashes_ok hg ha) h
        · cases h
      · cases h
    · cases h

theorem loadPending_keys {bs : Bytes} {s s' : GKeys} (h : loadPending bs s = .ok s') :
    s' = s ∨ ∃ c g k, int64Ok g = true ∧ k.length = 32 ∧
      s' = { s with pendingConfig := c, pendingGen := g, pendingKey := k } := by
  unfold loadPending at h
  split at h
  · cases h
  · cases h; exact .inl rfl
  · split at h
    · cases h
    · split at h
      · cases h
      · split at h
        · cases h
        · rename_i hg
          split at h
          · cases h
          · split at h
            · cases h
            · rename_i hk
              cases h
              exact .inr ⟨_, _, _, dInt_int64 hg, by simpa using hk, rfl⟩

/-- An object from a dump fits the dump format. -/
theorem loadDump_ok {d : Bytes} {s : GKeys} (h : loadDump d = .ok s) :
    RInv s ∧ Asc s.keys ∧ ActiveOk s.active ∧ s.needsDump = false := by
  unfold loadDump at h
  split at h
  · cases h
  · split at h
    · cases h
    · split at h
      · cases h
      · split at h
        · cases h
        · rename_i act hact
          split at h
          · cases h
          · split at h
            · cases h
            · obtain ⟨ks, hks, h⟩ := Out.bind_eq_ok.1 h
              split at h
              · cases h
              · rename_i hasc
                have ha : ActiveOk act := loadActive_ok ⟨List.Pairwise.nil, by simp, by simp⟩ hact
                have hasc' : Asc ks := ascending_iff.1 (by simpa using hasc)
                have hk := decKeyInfos_ok hks
                rcases loadPending_keys h with rfl | ⟨c, g, k, hg, hl, rfl⟩
                · exact ⟨⟨hk, ha.2.1, fun hp => absurd rfl hp⟩, hasc', ha, rfl⟩
                · exact ⟨⟨hk, ha.2.1, fun _ => ⟨hl, hg⟩⟩, hasc', ha, rfl⟩

/-- C148.  Whatever bytes an object is loaded from: if they are not refused, the object has keys of 32 bytes
sorted from oldest to newest, none twice, and a dump of it gives back the same keys, hashes and pending
rekey. -/
theorem any_keys_dump {d : Bytes} {s : GKeys} (h : loadDump d = .ok s) :
    (∀ k ∈ s.keys, k.key.length = 32) ∧ s.keys.Pairwise (· < ·) ∧ s.needsDump = false ∧
    ∃ s', loadDump s.dump.2 = .ok s' ∧ s'.keys = s.keys ∧ s'.active = s.active ∧
      s'.pendingConfig? = s.pendingConfig? ∧ s'.groupKeys = s.groupKeys ∧ s'.groupEncKey = s.groupEncKey := by
  obtain ⟨hr, ha, hA, hn⟩ := loadDump_ok h
  refine ⟨fun k hk => ?_, ha, hn, s.persist, loadDump_makeDump hr ha hA.1 hA.2.2, rfl, rfl, rfl, ?_, ?_⟩
  · have := hr.keys k hk
    simp only [KeyInfo.ok, Bool.and_eq_true, beq_iff_eq] at this
    exact this.2
  · unfold GKeys.groupKeys GKeys.persist
    by_cases hp : s.pendingConfig = [] <;> simp [hp]
  · unfold GKeys.groupEncKey GKeys.persist
    by_cases hp : s.pendingConfig = [] <;> simp [hp]

/-! ### Concrete cases -/

/-- A dump with something in it, from a reachable object; every cut of it is refused. -/
example : Reach exSys exC3 ∧ 20 < (exC3.dumpBytes exSys []).length ∧
    Client.restore exSys (exC3.dumpBytes exSys []) ≠ .err .foreign ∧
    Client.restore exSys ((exC3.dumpBytes exSys []).take 20) = .err .foreign := by
  have h : 20 < (exC3.dumpBytes exSys []).length := by decide +kernel
  exact ⟨exC3_reach, h, by decide +kernel, torn_dump_refused exSys exSys exC3 [] h⟩

/-- A message of a reachable object. -/
example : Reach exSys exC1 ∧ 20 < (exC1.plain exSys).length := ⟨exC1_reach, by decide +kernel⟩

/-- Group keys with three messages loaded: the dump is read, and a cut one is refused. -/
example : KReach toyG (afterKeys gClash1) (logOf gClash1) ∧
    (∃ s, loadDump (afterKeys gClash1).dump.2 = .ok s ∧ s.keys.length = 3) ∧
    ∃ e, loadDump ((afterKeys gClash1).dump.2.take ((afterKeys gClash1).dump.2.length - 1)) = .err e := by
  refine ⟨gClash1_reach, ?_, ?_⟩
  · have h : (match loadDump (afterKeys gClash1).dump.2 with
        | .ok s => s.keys.length == 3
        | _ => false) = true := by decide +kernel
    revert h
    cases loadDump (afterKeys gClash1).dump.2 with
    | ok s => exact fun h => ⟨s, rfl, by simpa using h⟩
    | _ => exact fun h => nomatch h
  · have h : (match loadDump ((afterKeys gClash1).dump.2.take ((afterKeys gClash1).dump.2.length - 1)) with
        | .err _ => true
        | _ => false) = true := by decide +kernel
    revert h
    cases loadDump ((afterKeys gClash1).dump.2.take ((afterKeys gClash1).dump.2.length - 1)) with
    | err e => exact fun _ => ⟨e, rfl⟩
    | _ => exact fun h => nomatch h

def tornPending : GKeys := { GKeys.init with pendingConfig := [1, 2], pendingKey := gKeyA, pendingGen := 3 }

/-- C148.  With a rekey pending the last byte of the dump is not looked at: the dump without it is accepted,
and gives the object the whole dump gives. -/
theorem keys_dump_last_byte : ∃ s, loadDump tornPending.dump.2 = .ok s ∧ s.pendingConfig = [1, 2] ∧
    loadDump (tornPending.dump.2.take (tornPending.dump.2.length - 1)) = .ok s := by
  have h : (match loadDump (tornPending.dump.2.take (tornPending.dump.2.length - 1)) with
      | .ok s => s.pendingConfig == [1, 2]
      | _ => false) = true := by decide +kernel
  cases hd : loadDump (tornPending.dump.2.take (tornPending.dump.2.length - 1)) with
  | ok s =>
    rw [hd] at h
    refine ⟨s, ?_, by simpa using h, rfl⟩
    rw [← List.take_append_drop (tornPending.dump.2.length - 1) tornPending.dump.2]
    exact keys_dump_tail hd
  | err e => rw [hd] at h; cases h
  | ub => rw [hd] at h; cases h
  | hang => rw [hd] at h; cases h

end Verif
