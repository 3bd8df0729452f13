import Verif.Props.GroupWitness

/-!
# What a reload of the last dump of the group keys loses while `needs_dump` is false (C68)
-/

namespace Verif

variable {P : GPrims}

/-- The object was brought from `s` to `s'` by loading messages and rekeying, without a dump: the messages loaded, with what the
device found in them. -/
inductive KeysRun (P : GPrims) (s : GKeys) : GKeys → List (Bytes × Found) → Prop
  | none : KeysRun P s s []
  | load {t t' : GKeys} {l : List (Bytes × Found)} {e : GEnv} {hash data : Bytes} {ts : Int} {f : Found} {b : Bool} :
      KeysRun P s t l → parseKeyMsg P e data ts = .ok f → t.load P e hash data ts = .ok (t', b) →
      KeysRun P s t' (l ++ [(hash, f)])
  | rekey {t t' : GKeys} {l : List (Bytes × Found)} {e : GEnv} {ids : List Bytes} {msg : Bytes} :
      KeysRun P s t l → t.rekey P e ids = .ok (t', msg) → KeysRun P s t' l

theorem KeysRun.reach {s s' : GKeys} {l log : List (Bytes × Found)} (h : KeysRun P s s' l) (hr : KReach P s log) :
    ∃ log', KReach P s' log' := by
  induction h with
  | none => exact ⟨_, hr⟩
  | load _ hf hl ih => obtain ⟨g, hg⟩ := ih; exact ⟨_, .load hg hf hl⟩
  | rekey _ hk ih => obtain ⟨g, hg⟩ := ih; exact ⟨_, .rekey hg hk⟩

/-- A key of this generation and these bytes is held. -/
def GKeys.Holds (s : GKeys) (k : KeyInfo) : Prop := ∃ k' ∈ s.keys, k'.gen = k.gen ∧ k'.key = k.key

/-- The two states differ in the message hashes only, to which `hash` was added if `p`. -/
def HashIf (hash : Bytes) (p : Prop) (s s' : GKeys) : Prop :=
  s'.keys = s.keys ∧ s'.pendingConfig = s.pendingConfig ∧ s'.pendingKey = s.pendingKey ∧
    s'.pendingGen = s.pendingGen ∧ ∀ x, s'.isCurrentHash x ↔ s.isCurrentHash x ∨ (x = hash ∧ p)

theorem insertKey_hashIf {s : GKeys} {hash : Bytes} {k : KeyInfo} (ha : AscA s.active)
    (h : (s.insertKey hash k).needsDump = false) :
    AscA (s.insertKey hash k).active ∧ HashIf hash (s.Holds k) s (s.insertKey hash k) := by
  unfold GKeys.insertKey at h ⊢
  by_cases hd : s.keys.any (fun x => x.gen == k.gen && x.key == k.key) = true
  · rw [if_pos hd]
    have hh : s.Holds k := by
      obtain ⟨x, hx, he⟩ := List.any_eq_true.1 hd
      rw [Bool.and_eq_true, beq_iff_eq, beq_iff_eq] at he
      exact ⟨x, hx, he⟩
    refine ⟨addHash_asc ha, rfl, rfl, rfl, rfl, fun x => ?_⟩
    rw [isCurrentHash_iff, isCurrentHash_iff]
    refine ⟨?_, ?_⟩
    · rintro ⟨g, h1⟩
      rcases (mem_addHash ha).1 h1 with ⟨_, hx⟩ | h1
      · exact .inr ⟨hx, hh⟩
      · exact .inl ⟨g, h1⟩
    · rintro (⟨g, h1⟩ | ⟨hx, _⟩)
      · exact ⟨g, (mem_addHash ha).2 (.inr h1)⟩
      · exact ⟨k.gen, (mem_addHash ha).2 (.inl ⟨rfl, hx⟩)⟩
  · rw [if_neg hd] at h ⊢
    have hh : ¬ s.Holds k := by
      rintro ⟨x, hx, he⟩
      exact hd (List.any_eq_true.2 ⟨x, hx, by rw [Bool.and_eq_true, beq_iff_eq, beq_iff_eq]; exact he⟩)
    by_cases hs : s.stale k = true
    · rw [if_pos hs]
      exact ⟨ha, rfl, rfl, rfl, rfl, fun x => ⟨.inl, fun hx => hx.elim id fun ⟨_, hx⟩ => absurd hx hh⟩⟩
    · rw [if_neg hs] at h; cases h

theorem foldl_hashIf {hash : Bytes} : ∀ (ks : List KeyInfo) {s : GKeys}, AscA s.active →
    (ks.foldl (fun s k => s.insertKey hash k) s).needsDump = false →
    HashIf hash (∃ k ∈ ks, s.Holds k) s (ks.foldl (fun s k => s.insertKey hash k) s)
  | [], _, _, _ => ⟨rfl, rfl, rfl, rfl, fun _ => ⟨.inl, fun h => h.elim id fun ⟨_, _, h, _⟩ => nomatch h⟩⟩
  | k :: t, s, ha, h => by
    rw [List.foldl_cons] at h ⊢
    obtain ⟨h1, a1, a2, a3, a4, a5⟩ := insertKey_hashIf ha (foldl_flag_mono t h)
    obtain ⟨b1, b2, b3, b4, b5⟩ := foldl_hashIf t h1 h
    refine ⟨b1.trans a1, b2.trans a2, b3.trans a3, b4.trans a4, fun x => ?_⟩
    have hH : ∀ q, (s.insertKey hash k).Holds q ↔ s.Holds q := by
      intro q; unfold GKeys.Holds; rw [a1]
    rw [b5, a5]
    constructor
    · rintro ((hx | ⟨hx, hk⟩) | ⟨hx, q, hq, hh⟩)
      · exact .inl hx
      · exact .inr ⟨hx, k, List.mem_cons_self .., hk⟩
      · exact .inr ⟨hx, q, List.mem_cons_of_mem _ hq, (hH q).1 hh⟩
    · rintro (hx | ⟨hx, q, hq, hh⟩)
      · exact .inl (.inl hx)
      · rcases List.mem_cons.1 hq with rfl | hq
        · exact .inl (.inr ⟨hx, hh⟩)
        · exact .inr ⟨hx, q, hq, (hH q).2 hh⟩

theorem load_hashIf (hP : P.Good) {s s' : GKeys} {log : List (Bytes × Found)} (h : KReach P s log)
    {e : GEnv} {hash data : Bytes} {ts : Int} {b : Bool} {f : Found} (hf : parseKeyMsg P e data ts = .ok f)
    (hl : s.load P e hash data ts = .ok (s', b)) (hs : s'.needsDump = false) :
    HashIf hash (∃ k ∈ f.newKeys, s.Holds k) s s' := by
  obtain ⟨hi, _⟩ := h.inv hP
  unfold GKeys.load at hl
  rw [hf, Out.bind_ok] at hl
  have e' : s' = (s.apply e.admin hash f).1 := (congrArg Prod.fst (Out.ok.inj hl)).symm
  subst e'
  unfold GKeys.apply at hs ⊢
  cases hk : f.newKeys with
  | nil =>
    rw [hk] at hs
    cases hm : f.maxGen with
    | none => exact ⟨rfl, rfl, rfl, rfl, fun _ => ⟨.inl, fun h => h.elim id fun ⟨_, _, h, _⟩ => nomatch h⟩⟩
    | some g => rw [hm] at hs; cases hs
  | cons k t =>
    rw [hk] at hs
    dsimp only at hs ⊢
    have hm := foldl_flag_mono (k :: t) hs
    have hd : s.dropPending e.admin (k :: t) = s := by
      unfold GKeys.dropPending at hm ⊢
      dsimp only at hm ⊢
      split at hm
      · cases hm
      · rename_i hc; rw [if_neg hc]
    rw [hd] at hs ⊢
    exact foldl_hashIf (k :: t) hi.ascA hs

/-- C68, what is true of the code.  As long as `needs_dump()` is false since a dump, a reload of that dump loses nothing but message
hashes: the keys, the encryption key, the pending rekey, `needs_rekey` and the results of a further rekey or supplement are the
current ones, and the current hashes are those of the reloaded object and, exactly, those of the messages loaded since that
brought a key held already.  The loss is real: `needs_dump_misses_hash`. -/
theorem keys_reload_loses_only (hP : P.Good) {d s : GKeys} {log l : List (Bytes × Found)} (hd : KReach P d log)
    (hr : KeysRun P d.dump.1 s l) (hn : s.needsDump = false) :
    ∃ r, loadDump d.dump.2 = .ok r ∧ r.keys = s.keys ∧ r.pendingConfig? = s.pendingConfig? ∧ r.groupKeys = s.groupKeys ∧
      r.groupEncKey = s.groupEncKey ∧ r.size = s.size ∧ (∀ a, r.needsRekey a = s.needsRekey a) ∧
      (∀ e ids, (r.rekey P e ids).bind (fun x => .ok x.2) = (s.rekey P e ids).bind (fun x => .ok x.2)) ∧
      (∀ e ids, r.supplement P e ids = s.supplement P e ids) ∧
      ∀ x, s.isCurrentHash x ↔ r.isCurrentHash x ∨
        ∃ f, (x, f) ∈ l ∧ ∃ k ∈ f.newKeys, ∃ k' ∈ r.keys, k'.gen = k.gen ∧ k'.key = k.key := by
  have key : s.keys = d.keys ∧ s.pendingConfig = d.pendingConfig ∧ s.pendingKey = d.pendingKey ∧
      s.pendingGen = d.pendingGen ∧ ∀ x, s.isCurrentHash x ↔ d.isCurrentHash x ∨
        ∃ f, (x, f) ∈ l ∧ ∃ k ∈ f.newKeys, d.Holds k := by
    induction hr with
    | none =>
      exact ⟨rfl, rfl, rfl, rfl, fun x => ⟨.inl, fun h => h.elim id fun ⟨_, h, _⟩ => nomatch h⟩⟩
    | @load t t' l e hash data ts f b hrun hf hl ih =>
      obtain ⟨lg, hk⟩ := hrun.reach (.dump hd)
      have h1 := (keys_needs_dump_partial hP hk hl hn).1
      obtain ⟨a1, a2, a3, a4, a5⟩ := ih h1
      obtain ⟨b1, b2, b3, b4, b5⟩ := load_hashIf hP hk hf hl hn
      have hH : ∀ q, t.Holds q ↔ d.Holds q := by
        intro q; unfold GKeys.Holds; rw [a1]
      refine ⟨b1.trans a1, b2.trans a2, b3.trans a3, b4.trans a4, fun x => ?_⟩
      rw [b5, a5]
      constructor
      · rintro ((hx | ⟨g, hg, k, hk1, hk2⟩) | ⟨rfl, k, hk1, hk2⟩)
        · exact .inl hx
        · exact .inr ⟨g, List.mem_append_left _ hg, k, hk1, hk2⟩
        · exact .inr ⟨f, List.mem_append_right _ (List.mem_singleton.2 rfl), k, hk1, (hH k).1 hk2⟩
      · rintro (hx | ⟨g, hg, k, hk1, hk2⟩)
        · exact .inl (.inl hx)
        · rcases List.mem_append.1 hg with hg | hg
          · exact .inl (.inr ⟨g, hg, k, hk1, hk2⟩)
          · obtain ⟨rfl, rfl⟩ := Prod.mk.inj (List.mem_singleton.1 hg)
            exact .inr ⟨rfl, k, hk1, (hH k).2 hk2⟩
    | @rekey t t' l e ids msg hrun hk ih =>
      exfalso
      unfold GKeys.rekey at hk
      split at hk
      · cases hk
      split at hk
      · cases hk
      obtain ⟨gen, _, hk⟩ := Out.bind_eq_ok.1 hk
      obtain ⟨pks, _, hk⟩ := Out.bind_eq_ok.1 hk
      obtain ⟨m, _, hk⟩ := Out.bind_eq_ok.1 hk
      rw [← (Prod.mk.inj (Out.ok.inj hk)).1] at hn
      cases hn
  obtain ⟨h1, h2, h3, h4, h5⟩ := key
  obtain ⟨r, hr1, r1, r2, r3, r4, r5, r6, r7, r8, r9, r10, _⟩ := keys_restore hP hd
  have hnx : s.nextGen = d.nextGen := by unfold GKeys.nextGen; rw [h1]
  refine ⟨r, hr1, r1.trans h1.symm, ?_, ?_, ?_, ?_, ?_, ?_, ?_, ?_⟩
  · rw [r3]; unfold GKeys.pendingConfig?; rw [h2]
  · rw [r4]; unfold GKeys.groupKeys; rw [h1, h2, h3]
  · rw [r5]; unfold GKeys.groupEncKey; rw [h1, h2, h3]
  · rw [r6]; unfold GKeys.size; rw [h1, h2]
  · intro a; rw [r8]; unfold GKeys.needsRekey; rw [h1]
  · intro e ids
    rw [r9]
    unfold GKeys.rekey
    rw [hnx]
    cases e.groupSk with
    | none => rfl
    | some sk =>
      dsimp only
      cases P.xpk e.groupPk with
      | none => rfl
      | some gx =>
        dsimp only
        cases d.nextGen with
        | ok g =>
          rw [Out.bind_ok, Out.bind_ok]
          cases sessionIdPks ids with
          | ok pks =>
            rw [Out.bind_ok, Out.bind_ok]
            cases rekeyMsg P sk gx (rekeyHash P sk ids g) g pks <;> rfl
          | _ => rfl
        | _ => rfl
  · intro e ids
    rw [r10]; unfold GKeys.supplement; rw [h1]
  · intro x
    rw [h5, r7, r1]
    exact Iff.rfl

/-- The hypotheses are met, with a hash lost: an admin has dumped, then the key it holds arrives under another hash. -/
example : ∃ d s log l, KReach toyG d log ∧ KeysRun toyG d.dump.1 s l ∧ s.needsDump = false ∧ s.isCurrentHash [2] ∧
    ¬ d.isCurrentHash [2] := by
  obtain ⟨data, hd⟩ := message_exists toyG_good gAdmin_own (k := ⟨0, 10, gKeyA⟩) (by decide +kernel) (by decide)
  refine ⟨afterKeys [([1], ⟨0, 10, gKeyA⟩)],
    ((afterKeys [([1], ⟨0, 10, gKeyA⟩)]).dump.1.apply true [2] ⟨[⟨0, 10, gKeyA⟩], none⟩).1,
    logOf [([1], ⟨0, 10, gKeyA⟩)], [] ++ [([2], ⟨[⟨0, 10, gKeyA⟩], none⟩)],
    reach_after toyG_good gAdmin_own _ (by decide +kernel), .load (e := gAdmin) (data := data) (ts := 10) (b := true) .none hd ?_,
    by decide +kernel, ?_, ?_⟩
  · unfold GKeys.load
    rw [hd, Out.bind_ok]
    rfl
  · refine ⟨(0, [[1], [2]]), by decide +kernel, by decide⟩
  · rintro ⟨e, he, hx⟩
    have : ∀ e ∈ (afterKeys [([1], ⟨0, 10, gKeyA⟩)]).active, ([2] : Bytes) ∉ e.2 := by decide +kernel
    exact this e he hx

end Verif
