/-
C39 and C40, exactly: what a reload of the last dump loses while `needs_dump()` is false, and when the next
update after a reload lists the published config.
-/
import Verif.Props.ClientDump
import Verif.Props.ClientHash
namespace Verif

/-! ## C39, exactly -/

/-- What a call that does not request a dump, and is not an edit, may change: the set of obsolete hashes,
by those in `P` and the current hash. -/
structure Calm (S : Sys) (P : Bytes → Prop) (c c' : Client) : Prop where
  st : c'.st = c.st
  curr : c'.curr = c.curr
  seqno : c'.seqno = c.seqno
  content : c'.content = c.content ∧ c'.plain S = c.plain S
  old : ∀ x ∈ c'.old, x ∈ c.old ∨ x = c.curr ∨ P x

theorem Calm.refl (S : Sys) (P : Bytes → Prop) (c : Client) : Calm S P c c :=
  ⟨rfl, rfl, rfl, ⟨rfl, rfl⟩, fun _ h => .inl h⟩

theorem Calm.keys {S : Sys} {P : Bytes → Prop} {c c' : Client} (ks ks' : List Bytes)
    (h : Calm S P { c with keys := ks } c') : Calm S P c { c' with keys := ks' } :=
  ⟨h.st, h.curr, h.seqno, h.content, h.old⟩

theorem Calm.trans {S : Sys} {P : Bytes → Prop} {a b c : Client} (h1 : Calm S P a b) (h2 : Calm S P b c) :
    Calm S P a c :=
  ⟨h2.st.trans h1.st, h2.curr.trans h1.curr, h2.seqno.trans h1.seqno,
    ⟨h2.content.1.trans h1.content.1, h2.content.2.trans h1.content.2⟩, fun x hx => by
      rcases h2.old x hx with h | h | h
      · exact h1.old x h
      · exact .inr (.inl (h.trans h1.curr))
      · exact .inr (.inr h)⟩

/-- The calls other than edits and merges. -/
inductive OtherStep (S : Sys) : Client → Client → Prop
  | push (c : Client) : OtherStep S c (c.push S).1
  | confirm (c : Client) (s : Int) (h : Bytes) : OtherStep S c (c.confirm s h)
  | dump (c : Client) : OtherStep S c (c.dumped S)
  | addKey (c : Client) (k : Bytes) (hi d : Bool) : (c.addKey S k hi d).2.safe = true →
      OtherStep S c (c.addKey S k hi d).1
  | removeKey (c : Client) (k : Bytes) (n : Nat) (d : Bool) : (c.removeKey S k n d).2.safe = true →
      OtherStep S c (c.removeKey S k n d).1
  | clearKeys (c : Client) (d : Bool) : (c.clearKeys S d).2.safe = true →
      OtherStep S c (c.clearKeys S d).1
  | replaceKeys (c : Client) (ks : List Bytes) (d : Bool) : (c.replaceKeys S ks d).2.safe = true →
      OtherStep S c (c.replaceKeys S ks d).1

theorem OtherStep.step {S : Sys} {c c' : Client} (h : OtherStep S c c') : Step S c c' := by
  cases h with
  | push => exact .push c
  | confirm s x => exact .confirm c s x
  | dump => exact .dump c
  | addKey k hi d h => exact .addKey c k hi d h
  | removeKey k n d h => exact .removeKey c k n d h
  | clearKeys d h => exact .clearKeys c d h
  | replaceKeys ks d h => exact .replaceKeys c ks d h

theorem touched_calm {S : Sys} {P : Bytes → Prop} {c : Client} (h : CInv S c) : Calm S P c c.touched := by
  refine ⟨rfl, rfl, refresh_seqno _, ⟨?_, ser_refresh h.wf _ _⟩, fun _ h => .inl h⟩
  show pruneD c.conf.refresh.m.data = _
  rw [refresh_data_eq h.wf]; exact pruneD_of_wf (pruneD_wf h.wf.data)

theorem other_calm {S : Sys} {P : Bytes → Prop} {c c' : Client} (h : CInv S c) (hs : OtherStep S c c')
    (hn : c'.needsDump = false) : Calm S P c c' := by
  have hdq : ∀ c : Client, (c.dirty S).1.needsDump = false → Calm S P c (c.dirty S).1 := fun c hc => by
    rcases dirty_quiet S c with h | h
    · rw [h] at hc; cases hc
    · rw [h]; exact .refl S P c
  have ht : Calm S P c c.touched := touched_calm h
  cases hs with
  | push =>
    cases hp : (c.push S).2 with
    | ok r =>
      obtain ⟨s, m, obs⟩ := r
      obtain ⟨_, _, _, h4⟩ := push_eq hp
      rw [h4] at hn ⊢
      by_cases hd : c.st = .dirty
      · rw [if_pos hd] at hn; cases hn
      · rw [if_neg hd]
        exact ⟨ht.st, ht.curr, ht.seqno, ht.content, fun x hx => by cases hx⟩
    | err e =>
      have : (c.push S).1 = c ∨ (c.push S).1 = c.touched := by
        unfold Client.push at hp ⊢
        split
        · exact .inl rfl
        · split
          · split
            · exact .inr rfl
            · rename_i hk _ m hm hl
              rw [hk] at hp
              simp only [hm, if_neg hl] at hp
              cases hp
          · exact .inr rfl
          · exact .inl rfl
          · exact .inl rfl
      rcases this with h1 | h1
      · rw [h1]; exact .refl S P c
      · rw [h1]; exact ht
    | hang =>
      have : (c.push S).1 = c := by
        unfold Client.push at hp ⊢
        split
        · rfl
        · rename_i hk
          rw [hk] at hp
          simp only at hp
          split
          · rename_i hm
            rw [hm] at hp
            simp only at hp
            split at hp <;> cases hp
          · rename_i hm
            rw [hm] at hp; cases hp
          · rfl
          · rfl
      rw [this]; exact .refl S P c
    | ub =>
      have : (c.push S).1 = c := by
        unfold Client.push at hp ⊢
        split
        · rfl
        · rename_i hk
          rw [hk] at hp
          simp only at hp
          split
          · rename_i hm
            rw [hm] at hp
            simp only at hp
            split at hp <;> cases hp
          · rename_i hm
            rw [hm] at hp; cases hp
          · rfl
          · rfl
      rw [this]; exact .refl S P c
  | confirm s x =>
    unfold Client.confirm at hn ⊢
    split at hn
    · cases hn
    · rename_i hh; rw [if_neg hh]; exact .refl S P c
  | dump => 
    refine ⟨ht.st, ht.curr, ht.seqno, ht.content, fun x hx => .inl ?_⟩
    have hx' : x ∈ (if S.env.readonly then [] else c.old) := hx
    split at hx'
    · cases hx'
    · exact hx'
  | addKey k hi d _ =>
    unfold Client.addKey at hn ⊢
    split
    · exact .refl S P c
    split
    · exact .refl S P c
    split
    · exact .refl S P c
    rename_i h1 h2 h3
    rw [if_neg h1, if_neg h2, if_neg h3] at hn
    cases hi with
    | true =>
      have hc : (c.removeKey S k 1 false).1 = { c with keys := (c.removeKey S k 1 false).1.keys } := by
        unfold Client.removeKey
        split
        · rfl
        · split <;> simp
      simp only [if_true] at hn ⊢
      rw [hc] at hn ⊢
      split
      · rename_i hb
        rw [if_pos hb] at hn
        exact (hdq { c with keys := k :: (c.removeKey S k 1 false).1.keys } hn).keys _ _
      · exact (Calm.refl S P { c with keys := _ }).keys _ _
    | false =>
      simp only [Bool.false_eq_true, if_false] at hn ⊢
      split
      · rename_i hb
        rw [if_pos hb] at hn
        exact (hdq { c with keys := c.keys ++ [k] } hn).keys _ _
      · exact (Calm.refl S P { c with keys := _ }).keys _ _
  | removeKey k n d _ =>
    unfold Client.removeKey at hn ⊢
    split
    · exact .refl S P c
    · rename_i front tl hk
      rw [hk] at hn
      simp only at hn ⊢
      split
      · exact .refl S P c
      · rename_i hl
        rw [hk] at hl
        rw [if_neg hl] at hn
        rw [hk]
        split
        · rename_i hb
          rw [if_pos hb] at hn
          have h2 := hdq { c with keys := (front :: tl).take n ++ ((front :: tl).drop n).filter (· ≠ k) }
          split <;> (rename_i he; rw [he] at hn h2; exact (h2 hn).keys _ _)
        · exact (Calm.refl S P { c with keys := _ }).keys _ _
  | clearKeys d _ =>
    unfold Client.clearKeys at hn ⊢
    dsimp only at hn ⊢
    split
    · rename_i hb
      rw [if_pos hb] at hn
      exact (hdq { c with keys := [] } hn).keys _ _
    · exact (Calm.refl S P { c with keys := _ }).keys _ _
  | replaceKeys ks d _ =>
    unfold Client.replaceKeys at hn ⊢
    split
    · simp only at hn
      split
      · exact .refl S P c
      · rename_i hb
        rw [if_neg hb] at hn
        unfold Client.clearKeys at hn ⊢
        dsimp only at hn ⊢
        split
        · rename_i hb2
          rw [if_pos hb2] at hn
          exact (hdq { c with keys := [] } hn).keys _ _
        · exact (Calm.refl S P { c with keys := _ }).keys _ _
    · simp only at hn
      split
      · exact .refl S P c
      · rename_i hb
        rw [if_neg hb] at hn
        dsimp only
        rw [addKeys_conf] at hn ⊢
        split
        · rename_i hb2
          rw [if_pos hb2] at hn
          exact (hdq { c with keys := _ } hn).keys _ _
        · exact (Calm.refl S P { c with keys := _ }).keys _ _

theorem merge_calm {S : Sys} (hS : S.Good) {P : Bytes → Prop} {c : Client} (hr : Reach S c)
    {configs : List (Bytes × Bytes)} (hf : ∀ p ∈ gather S c.keys configs, Fair S.env p.2)
    (hc : NoCollision S.env ((c.allConfs S.env (gather S c.keys configs)).map (·.2)))
    (hs : (c.merge S configs).2.safe = true) (hn : (c.merge S configs).1.needsDump = false)
    (hP : ∀ p ∈ configs, accepts S c.keys p.2 = true → P p.1) : Calm S P c (c.merge S configs).1 := by
  have h := hr.inv hS
  have hold : ∀ x ∈ (c.merge S configs).1.old, x ∈ c.old ∨ x = c.curr ∨ P x := fun x hx => by
    rcases merge_obsolete hS hr hf hc hs hx with h1 | h1 | h1
    · exact .inl h1
    · exact .inr (.inl h1)
    · obtain ⟨p, hp, rfl⟩ := List.mem_map.1 h1
      obtain ⟨p1, p2⟩ := List.mem_filter.1 hp
      exact .inr (.inr (hP p p1 p2))
  have hq := step_quiet hS h (.merge c configs hf hc hs) hn
  refine ⟨hq.st, hq.curr, hq.seqno, ?_, hold⟩
  have ht : Calm S P c c.touched := touched_calm h
  rcases merge_cases hs with ⟨e, he, h1 | h1⟩ | ⟨R, bad, hk, hR, h1⟩
  · rw [h1]; exact ⟨rfl, rfl⟩
  · rw [h1]
    cases hm : c.hasMine with
    | false => exact ⟨rfl, rfl⟩
    | true => exact ht.content
  · rw [h1] at hn ⊢
    obtain ⟨_, h2 | ⟨hu, hro, hlt, _, h2⟩ | ⟨top, i, x, y, hi, hmax, hcur, hRe, hne, hlt, hx, h2⟩⟩ :=
      absorb_cases hS h hf hc hR
    · rw [h2]
      obtain ⟨a1, a2, a3⟩ := noted_conf h.wf (c.allConfs S.env (gather S c.keys configs)) R bad S.env
      exact ⟨a3, a2⟩
    · rw [h2] at hn; cases hn
    · rw [h2] at hn; cases hn

/-- Calls after each of which `needs_dump()` is false and none of which is an edit of an object with pending
edits; `P` holds of the hashes of all messages accepted by the merges among them. -/
inductive CalmRun (S : Sys) (P : Bytes → Prop) : Client → Client → Prop
  | refl (c : Client) : CalmRun S P c c
  | edit {a b : Client} (d : Dict) : CalmRun S P a b → b.st ≠ .dirty → typedD d = true →
      (b.edit S d).2.safe = true → (b.edit S d).1.needsDump = false → CalmRun S P a (b.edit S d).1
  | merge {a b : Client} (configs : List (Bytes × Bytes)) : CalmRun S P a b →
      (∀ p ∈ gather S b.keys configs, Fair S.env p.2) →
      NoCollision S.env ((b.allConfs S.env (gather S b.keys configs)).map (·.2)) →
      (b.merge S configs).2.safe = true → (b.merge S configs).1.needsDump = false →
      (∀ p ∈ configs, accepts S b.keys p.2 = true → P p.1) → CalmRun S P a (b.merge S configs).1
  | other {a b c : Client} : CalmRun S P a b → OtherStep S b c → c.needsDump = false → CalmRun S P a c

theorem edit_calm {S : Sys} {P : Bytes → Prop} {c : Client} {d : Dict} (hd : c.st ≠ .dirty)
    (hn : (c.edit S d).1.needsDump = false) : Calm S P c (c.edit S d).1 := by
  by_cases hk : (c.dirty S).2 = .ok ()
  · exfalso
    rw [edit_eq_ok hk] at hn
    have hst := (dirty_ok hk).1
    rcases dirty_quiet S c with h1 | h1
    · have : (c.dirty S).1.needsDump = false := hn
      rw [h1] at this; cases this
    · rw [h1] at hst; exact hd hst
  · rw [edit_eq_err hk] at hn ⊢
    rcases dirty_quiet S c with h1 | h1
    · rw [h1] at hn; cases hn
    · rw [h1]; exact .refl S P c

theorem CalmRun.calm {S : Sys} (hS : S.Good) {P : Bytes → Prop} {a b : Client} (hr : Reach S a)
    (h : CalmRun S P a b) : Reach S b ∧ Calm S P a b := by
  induction h with
  | refl => exact ⟨hr, .refl S P _⟩
  | edit d _ hd ht hs hn ih =>
    obtain ⟨r, q⟩ := ih
    exact ⟨r.step (.edit _ d ht hs), q.trans (edit_calm hd hn)⟩
  | merge configs _ hf hc hs hn hP ih =>
    obtain ⟨r, q⟩ := ih
    exact ⟨r.step (.merge _ configs hf hc hs), q.trans (merge_calm hS r hf hc hs hn hP)⟩
  | other _ hs hn ih =>
    obtain ⟨r, q⟩ := ih
    exact ⟨r.step hs.step, q.trans (other_calm (r.inv hS) hs hn)⟩

/-- C39, what is true of the code.  As long as `needs_dump()` stays false after a dump and no further edit is
made on top of pending ones, a reload of that dump loses nothing but the obsolete hashes that merges since
the dump have added: state, current hash and content are the current ones (and the seqno and the bytes to
publish, unless edits are pending: then the seqno is one higher), and every obsolete hash is in the dump, or
is the current hash, or that of a message accepted since. The two exceptions are real:
`needs_dump_misses_edit`, `needs_dump_misses_obsolete`. -/
theorem needs_dump_misses_only {S : Sys} (hS : S.Good) {P : Bytes → Prop} {c c' d : Client} (hr : Reach S c)
    (hq : CalmRun S P (c.dumped S) c') {ord : List Bytes}
    (hord : ord.Perm (if S.env.readonly then [] else c.old))
    (hd : Client.restore S (c.dumpBytes S ord) = .ok d) :
    d.st = c'.st ∧ d.needsPush = c'.needsPush ∧ d.currentHashes = c'.currentHashes ∧
      d.content = c'.content ∧ d.seqno = (if c'.st = .dirty then c'.seqno + 1 else c'.seqno) ∧
      (c'.st ≠ .dirty → d.plain S = c'.plain S) ∧
      ∀ x ∈ c'.old, x ∈ d.old ∨ x = c'.curr ∨ P x := by
  have hinv := hr.inv hS
  have hn : ord.Nodup := by
    rw [hord.nodup_iff]; split
    · exact List.nodup_nil
    · exact hinv.old
  have h0 : Calm S P c (c.dumped S) := other_calm hinv (.dump c) rfl
  have hr0 : Reach S (c.dumped S) := hr.step (.dump c)
  have hdo : (c.dumped S).old = if S.env.readonly then [] else c.old := rfl
  have h1 := (hq.calm hS hr0).2
  have hQ := h0.trans h1
  have hsq := seqno_restored hS hr hn hd
  obtain ⟨rfl, _⟩ := restore_inv hS hinv hn hd
  refine ⟨hQ.st.symm, ?_, ?_, (reloaded_content hinv ord).trans hQ.content.1.symm, ?_, fun hnd => ?_,
    fun x hx => ?_⟩
  · unfold Client.needsPush; rw [hQ.st]; rfl
  · unfold Client.currentHashes; rw [hQ.curr]; rfl
  · rw [hsq, hQ.st, hQ.seqno]
  · have hnd' : c.st ≠ .dirty := by rw [← hQ.st]; exact hnd
    exact (reloaded_plain hnd' ord).trans hQ.content.2.symm
  · rcases h1.old x hx with h2 | h2 | h2
    · left
      rw [hdo] at h2
      exact hord.mem_iff.2 h2
    · exact .inr (.inl (h2.trans h1.curr.symm))
    · exact .inr (.inr h2)

/-- Pending edits, dumped, then another key added: calm.  And a merge of a known
message makes the hash `104` obsolete, without asking for a dump. -/
example : CalmRun exSys (fun _ => False) (exC1.dumped exSys)
      ((exC1.dumped exSys).addKey exSys (List.replicate 32 9) false false).1 ∧
    (exC1.dumped exSys).st = .dirty ∧
    ((exC2.dumped exSys).merge exSys [([104], exM1)]).1.needsDump = false ∧
    ((exC2.dumped exSys).merge exSys [([104], exM1)]).1.old = [[104]] :=
  ⟨.other (.refl _) (.addKey _ _ _ _ (by decide +kernel)) (by decide +kernel), by decide +kernel,
    by decide +kernel, by decide +kernel⟩

/-! ## C40, exactly -/

theorem increment_only {env : Env} (hs : env.Sane) {c : Conf} (hc : ConfWF c) {p : SH × BtDict}
    (hp : p ∈ (c.increment env).m.lagged) :
    p.1 = (c.hashed env).m.sh ∨ p ∈ c.m.lagged := by
  have hw := hc.hashed hs (env := env)
  have hlt : ∀ p ∈ (c.hashed env).m.lagged, p.1 < (c.hashed env).m.sh :=
    fun p hp => sh_lt_of_fst (hw.window p hp)
  have he : (c.increment env).m.lagged = lagsForNext (c.hashed env).m.seqno env.lag
      (c.hashed env).m.lagged ++ [((c.hashed env).m.sh, (c.hashed env).m.diff)] :=
    memplace_last (fun p hp => hlt p ((lagsForNext_sublist _ _ _).subset hp)) _
  rw [he] at hp
  rcases List.mem_append.1 hp with h | h
  · right
    have := (lagsForNext_sublist _ _ _).subset h
    rwa [hashed_lagged] at this
  · left; rw [List.mem_singleton.1 h]

/-- The first edit of an object without unpublished edits lists exactly one config of its own seqno: the
one with the hash the object computes for what it holds. -/
theorem edit_lists_iff {S : Sys} (hS : S.Good) (hlag : 2 ≤ S.env.lag) {c : Client} (h : CInv S c)
    (hd : c.st ≠ .dirty) {d : Dict} (ht : typedD d = true) (he : (c.edit S d).2 = .ok ()) (b : Bytes) :
    ListsPrevious S (c.edit S d).1 c.seqno b ↔ S.env.H b = (c.conf.hashed S.env).m.hash := by
  have hk : (c.dirty S).2 = .ok () := by
    by_contra hk
    rw [edit_eq_err hk] at he; exact hk he
  have hinv := h.edit hS ht (d := d)
  have hst : (c.edit S d).1.st = .dirty := by rw [edit_eq_ok hk]; exact (dirty_ok hk).1
  have hmine : (c.edit S d).1.hasMine = true := by unfold Client.hasMine; simp [hst]
  have hconf : (c.edit S d).1.conf =
      { (c.conf.increment S.env) with m := { (c.conf.increment S.env).m with data := d } } := by
    rw [edit_eq_ok hk]
    rcases dirty_fst (S := S) (c := c) with h1 | ⟨_, _, _, h1⟩
    · exfalso
      have := (dirty_ok hk).1
      rw [h1] at this; exact hd this
    · rw [h1]
  have hl : (c.edit S d).1.conf.refresh.m.lagged = (c.conf.increment S.env).m.lagged := by
    rw [hconf]; rfl
  have hq : (c.edit S d).1.conf.refresh.m.seqno = c.seqno + 1 := by
    rw [refresh_seqno, hconf]; exact increment_seqno _ _
  have hsh : (c.conf.hashed S.env).m.sh = toLex (c.seqno, (c.conf.hashed S.env).m.hash) := by
    show toLex ((c.conf.hashed S.env).m.seqno, (c.conf.hashed S.env).m.hash) = _
    rw [hashed_seqno]; rfl
  have hown := hinv.parse_own hS hmine
  constructor
  · rintro ⟨M, hM, p, hp, hpe⟩
    have hM' : parseMsg S.env false ((c.edit S d).1.conf.ser S.env true) = .ok M := hM
    rw [hown] at hM'
    obtain rfl := Out.ok.inj hM'
    have hp' : p ∈ (c.edit S d).1.conf.refresh.m.lagged :=
      (List.mem_filter.1 hp).1
    rw [hl] at hp'
    rcases increment_only hS.sane h.wf hp' with h1 | h1
    · rw [hsh, hpe] at h1
      exact (Prod.mk.inj (toLex.injective h1)).2
    · exfalso
      have := h.wf.window p h1
      rw [hpe] at this
      exact absurd this (lt_irrefl _)
  · intro hb
    refine ⟨_, hown, ?_⟩
    obtain ⟨p, hp, hpe⟩ := (increment_lists hS.sane h.wf hS.lag1).1
    have hps : p.1 = toLex (c.seqno, S.env.H b) := by rw [hpe, hsh, hb]
    refine ⟨p, ?_, hps⟩
    show p ∈ (c.edit S d).1.conf.refresh.m.lagged.filter (lagLive (c.edit S d).1.conf.refresh.m.seqno S.env.lag)
    rw [mem_lagLive, hl, hq, hps]
    refine ⟨hp, ?_, ?_⟩
    · show c.seqno + 1 - S.env.lag < c.seqno; omega
    · show c.seqno < c.seqno + 1; omega

/-- C40, exactly.  An edit after reloading a dump made without pending edits lists the published config if
and only if its signed and unsigned forms have the same hash: always for configs that are not signed, and
never - short of a hash collision - for signed ones. -/
theorem next_lists_reloaded_iff {S : Sys} (hS : S.Good) (hlag : 2 ≤ S.env.lag) {c c' : Client}
    (hr : Reach S c) (hd : c.st ≠ .dirty) {ord : List Bytes}
    (hord : ord.Perm (if S.env.readonly then [] else c.old))
    (hl : Client.restore S (c.dumpBytes S ord) = .ok c') {d : Dict} (ht : typedD d = true)
    (he : (c'.edit S d).2 = .ok ()) :
    ListsPrevious S (c'.edit S d).1 c.seqno (c.plain S) ↔
      S.env.H (c.conf.ser S.env true) = S.env.H (c.conf.ser S.env false) := by
  have hinv := hr.inv hS
  have hn : ord.Nodup := by
    rw [hord.nodup_iff]; split
    · exact List.nodup_nil
    · exact hinv.old
  have hinv' := (Reach.restore hr hord hl).inv hS
  have hq := seqno_restored hS hr hn hl
  rw [if_neg hd] at hq
  obtain ⟨rfl, _⟩ := restore_inv hS hinv hn hl
  have h1 := edit_lists_iff hS hlag hinv' (c := c.reloaded S ord) hd ht he (c.plain S)
  rw [hq] at h1
  rw [h1]
  have hc : (c.reloaded S ord).conf = ⟨dumpedMsg S.env c.conf true, none⟩ := by
    unfold Client.reloaded; simp only [if_neg hd]
  rw [hc]
  exact Iff.rfl

/-- C40: a dump made while the edit is pending loses nothing, signed or not: what the pending config lists
is also listed after the reload, as long as it stays in the history window, one step further. -/
theorem reload_pending_lists {S : Sys} (hS : S.Good) {c c' : Client} (hr : Reach S c)
    (hd : c.st = .dirty) {ord : List Bytes}
    (hord : ord.Perm (if S.env.readonly then [] else c.old))
    (hl : Client.restore S (c.dumpBytes S ord) = .ok c') {s : Int} {b : Bytes}
    (hb : ListsPrevious S c s b) (hs : c.seqno + 1 < s + S.env.lag) :
    c'.seqno = c.seqno + 1 ∧ ListsPrevious S c' s b := by
  have hinv := hr.inv hS
  have hn : ord.Nodup := by
    rw [hord.nodup_iff]; split
    · exact List.nodup_nil
    · exact hinv.old
  have hinv' := (Reach.restore hr hord hl).inv hS
  have hq := seqno_restored hS hr hn hl
  rw [if_pos hd] at hq
  obtain ⟨rfl, _⟩ := restore_inv hS hinv hn hl
  refine ⟨hq, ?_⟩
  have hmine : c.hasMine = true := by unfold Client.hasMine; simp [hd]
  have hst' : (c.reloaded S ord).st = .dirty := hd
  have hmine' : (c.reloaded S ord).hasMine = true := by unfold Client.hasMine; simp [hst']
  obtain ⟨M, hM, p, hp, hpe⟩ := hb
  have hM' : parseMsg S.env false (c.conf.ser S.env true) = .ok M := hM
  rw [hinv.parse_own hS hmine] at hM'
  obtain rfl := Out.ok.inj hM'
  have hp' : p ∈ (dumpedMsg S.env c.conf false).lagged := hp
  refine ⟨_, hinv'.parse_own hS hmine', ?_⟩
  have w := dumpedMsg_wf hS hinv false
  have hw : ConfWF ⟨{ dumpedMsg S.env c.conf false with unmerged := 0 }, none⟩ :=
    ⟨w.data, w.pruned, w.orig, w.diff, w.lagS, w.lagRows, w.window, w.unkS, w.unkKeys, w.seq, w.vsig, w.hash⟩
  have hc : (c.reloaded S ord).conf =
      (⟨{ dumpedMsg S.env c.conf false with unmerged := 0 }, none⟩ : Conf).increment S.env := by
    unfold Client.reloaded; simp only [if_pos hd]; rfl
  have hsq : (dumpedMsg S.env c.conf false).seqno = c.seqno := refresh_seqno c.conf
  rcases (increment_lists hS.sane hw hS.lag1).2 p hp' with ⟨q, hq1, hq2⟩ | h3
  · refine ⟨q, ?_, hq2.trans hpe⟩
    have hr1 : (c.reloaded S ord).conf.refresh.m.lagged = (c.reloaded S ord).conf.m.lagged := by
      rw [hc]; rfl
    show q ∈ (c.reloaded S ord).conf.refresh.m.lagged.filter
      (lagLive (c.reloaded S ord).conf.refresh.m.seqno S.env.lag)
    rw [mem_lagLive, hr1, hc, refresh_seqno, increment_seqno]
    refine ⟨hq1, ?_⟩
    have h5 : q.1.1 = s := by rw [hq2, hpe]; rfl
    have h6 : s < c.seqno := by
      have := hw.window p hp'
      rw [hpe] at this
      have h7 : s < (dumpedMsg S.env c.conf false).seqno := this
      omega
    rw [h5]
    show (dumpedMsg S.env c.conf false).seqno + 1 - S.env.lag < s ∧ s < (dumpedMsg S.env c.conf false).seqno + 1
    omega
  · exfalso
    have h4 : s + S.env.lag ≤ (dumpedMsg S.env c.conf false).seqno := by
      have h5 : p.1.1 = s := by rw [hpe]; rfl
      rw [← h5]; exact h3
    omega
/-- A dump made while a signed edit is pending, reloaded: the config published before is still listed. -/
def exE3 : Client := (exE2.edit exSysE []).1

example : exE3.st = .dirty ∧ exE2.seqno = 1 ∧
    ((Client.restore exSysE (exE3.dumpBytes exSysE [])).toOption.map fun c =>
      decide (c.st = .dirty) &&
      (((parseMsg exSysE.env false (c.plain exSysE)).toOption.map fun M =>
        decide (∃ p ∈ M.lagged, p.1 = toLex (exE2.seqno, exSysE.env.H (exE2.plain exSysE)))) ==
          some true)) = some true := by decide +kernel

end Verif
