import Verif.CBase
import Verif.Props.CMem
import Verif.Props.CErr
import Verif.Props.CCrypt
import Verif.Props.ClientHash
import Verif.Props.ClientNet
import Verif.Props.ClientDump
import Verif.Props.ClientKeys

/-!
# Config objects through the C interface (C128)
-/

namespace Verif

/-- The objects a C program can come by: made by `…_init`, without a dump or with one made on the way, and used by any of the C functions
with any arguments.  What the setters of the several kinds of config do is any change of the contents.  As in `Reach`, messages given to
`config_merge` are `Fair` and their hashes do not collide. -/
inductive CReach (S : Sys) : Client → Prop
  | init {secret error what : Bytes} {c : Client} : cInit S secret none 0 error what = .ok (.inl c) → CReach S c
  | restart {secret error what more d : Bytes} {c c' : Client} {ord : List Bytes} {m0 : Bool} : CReach S c →
      ord.Perm (if S.env.readonly then [] else c.old) → (c.cDump S m0 ord).2.ptr = some d →
      cInit S secret (some (d ++ more)) (c.cDump S m0 ord).2.len error what = .ok (.inl c') → CReach S c'
  | edit {c : Client} {d : Dict} : CReach S c → typedD d = true → (c.edit S d).2.safe = true → CReach S (c.edit S d).1
  | merge {A : Alloc} {c : Client} {msgs : List (Bytes × Bytes × Nat)} {l : List (Bytes × Bytes)} : CReach S c → cArgs msgs = .ok l →
      (∀ p ∈ gather S c.keys l, Fair S.env p.2) → NoCollision S.env ((c.allConfs S.env (gather S c.keys l)).map (·.2)) →
      (c.merge S l).2.safe = true → CReach S (c.cMerge S A msgs).1
  | push {A : Alloc} {c : Client} : CReach S c → CReach S (c.cPush S A).1
  | confirm {c : Client} {s : Int} {h : Bytes} : CReach S c → CReach S (c.cConfirm s h)
  | dump {c : Client} {m0 : Bool} {ord : List Bytes} : CReach S c → CReach S (c.cDump S m0 ord).1
  | addKey {c : Client} {k : Bytes} {high : Bool} : CReach S c → CReach S (c.cAddKey S k high).1
  | clearKeys {c : Client} : CReach S c → CReach S (c.cClearKeys S).1
  | removeKey {c : Client} {k : Bytes} : CReach S c → CReach S (c.cRemoveKey S k).1

/-- All message hashes the object holds can be handed out as C strings. -/
def Client.NoNul (c : Client) : Prop := (0 : UInt8) ∉ c.curr ∧ ∀ x ∈ c.old, (0 : UInt8) ∉ x

theorem cArgs_nul : ∀ {msgs : List (Bytes × Bytes × Nat)} {l : List (Bytes × Bytes)}, cArgs msgs = .ok l → ∀ p ∈ l, (0 : UInt8) ∉ p.1
  | [], l, h, p, hp => by cases h; cases hp
  | (a, d, n) :: t, l, h, p, hp => by
    obtain ⟨x, _, h⟩ := Out.bind_eq_ok.1 h
    obtain ⟨r, hr, h⟩ := Out.bind_eq_ok.1 h
    cases h
    rcases List.mem_cons.1 hp with rfl | hp
    · exact cStr_no_nul a
    · exact cArgs_nul hr p hp

theorem setState_noNul {c : Client} (h : c.NoNul) (s : CState) : (c.setState s).NoNul := by
  unfold Client.setState Client.NoNul
  split
  · refine ⟨by simp, fun x hx => ?_⟩
    have hx : x ∈ hinsert c.curr c.old := hx
    unfold hinsert at hx
    split at hx
    · exact h.2 x hx
    · rcases List.mem_append.1 hx with hx | hx
      · exact h.2 x hx
      · rw [List.mem_singleton.1 hx]; exact h.1
  · exact h

theorem dirty_noNul {S : Sys} {c : Client} (h : c.NoNul) : (c.dirty S).1.NoNul := by
  unfold Client.dirty
  split
  · split <;> exact h
  · split
    · exact h
    · split
      · exact h
      · exact setState_noNul h .dirty

theorem removeKey_noNul {S : Sys} {c : Client} (h : c.NoNul) (k : Bytes) (n : Nat) : (c.removeKey S k n false).1.NoNul := by
  unfold Client.removeKey
  split
  · exact h
  · split
    · exact h
    · exact h

theorem addKey_noNul {S : Sys} {c : Client} (h : c.NoNul) (k : Bytes) (hi : Bool) : (c.addKey S k hi false).1.NoNul := by
  unfold Client.addKey
  split
  · exact h
  · split
    · exact h
    · split
      · exact h
      · cases hi with
        | true => exact removeKey_noNul h k 1
        | false => exact h

theorem addKey_false_safe {S : Sys} (c : Client) (k : Bytes) (hi : Bool) : (c.addKey S k hi false).2.safe = true := by
  unfold Client.addKey
  repeat' split
  all_goals rfl

theorem merge_curr {S : Sys} (c : Client) (l : List (Bytes × Bytes)) :
    (c.merge S l).1.curr = c.curr ∨ (c.merge S l).1.curr = [] ∨ ∃ p ∈ l, (c.merge S l).1.curr = p.1 := by
  unfold Client.merge
  split
  · exact .inl rfl
  unfold Client.mergeCore
  dsimp only
  split
  · unfold Client.absorb
    dsimp only
    split
    · exact .inl rfl
    · split
      · split
        · exact .inl rfl
        · dsimp only
          have hcur : ∀ x : Client, (x.setState .dirty).curr = x.curr ∨ (x.setState .dirty).curr = [] := by
            intro x
            unfold Client.setState
            split
            · exact .inr rfl
            · exact .inl rfl
          rcases hcur _ with h | h
          · exact .inl h
          · exact .inr (.inl h)
      · split
        · exact .inl rfl
        · split
          · rename_i h b hb
            dsimp only
            rcases allConfs_mem hb with ⟨_, _, e, _⟩ | hin
            · exact .inl e
            · right; right
              unfold gather at hin
              obtain ⟨p, hp, he⟩ := List.mem_filterMap.1 hin
              cases hr : receive S c.keys p.2 with
              | none => rw [hr] at he; cases he
              | some m => rw [hr] at he; cases he; exact ⟨p, hp, rfl⟩
          · exact .inl rfl
  · exact .inl rfl
  · exact .inl rfl
  · exact .inl rfl

theorem CReach.inv {S : Sys} (hS : S.Good) {c : Client} (h : CReach S c) : Reach S c ∧ c.NoNul := by
  induction h with
  | init h =>
    obtain ⟨sk, h1, h⟩ := Out.bind_eq_ok.1 h
    dsimp only [Out.bind] at h
    have hn : (Client.new S).NoNul := ⟨by simp [Client.new], fun x hx => by cases hx⟩
    have hs := addKey_false_safe (S := S) (Client.new S) (sk.take 32) true
    have hnn := addKey_noNul (S := S) hn (sk.take 32) true
    have hr : Reach S (Client.new S) := .new
    have hr' := Reach.step hr (.addKey (Client.new S) (sk.take 32) true false hs)
    rcases ha : (Client.new S).addKey S (sk.take 32) true false with ⟨c', o⟩
    rw [ha] at h hnn hr'
    cases o with
    | ok u => cases h; exact ⟨hr', hnn⟩
    | err e => obtain ⟨x, _, h⟩ := Out.bind_eq_ok.1 h; cases h
    | hang => cases h
    | ub => cases h
  | @restart secret error what more d c c' ord m0 hc ho hd hi ih =>
    have hlen : (c.cDump S m0 ord).2.len = (c.dumpBytes S ord).length := rfl
    have hne : c.dumpBytes S ord ≠ [] := by unfold Client.dumpBytes; simp
    have hd : d = c.dumpBytes S ord := by
      unfold Client.cDump toCBuf at hd
      dsimp only at hd
      rw [if_neg (fun h => hne h.1)] at hd
      exact (Option.some.inj hd).symm
    subst hd
    obtain ⟨sk, h1, h⟩ := Out.bind_eq_ok.1 hi
    dsimp only at h
    rw [hlen, if_neg (by simpa using hne), readN_append] at h
    dsimp only [Out.bind] at h
    have hnd : ord.Nodup := by
      rw [ho.nodup_iff]; split
      · exact List.nodup_nil
      · exact (ih.1.inv hS).old
    cases hr : Client.restore S (c.dumpBytes S ord) with
    | ok x =>
      rw [hr] at h
      dsimp only at h
      have hx : Reach S x := .restore ih.1 ho hr
      have hxn : x.NoNul := by
        rw [restore_eq S c hnd] at hr
        obtain ⟨cf, _, hr⟩ := Out.bind_eq_ok.1 hr
        cases hr
        refine ⟨ih.2.1, fun y hy => ?_⟩
        have hy := ho.mem_iff.1 hy
        split at hy
        · cases hy
        · exact ih.2.2 y hy
      have hs := addKey_false_safe (S := S) x (sk.take 32) true
      have hnn := addKey_noNul (S := S) hxn (sk.take 32) true
      have hr' := Reach.step hx (.addKey x (sk.take 32) true false hs)
      rcases ha : x.addKey S (sk.take 32) true false with ⟨c', o⟩
      rw [ha] at h hnn hr'
      cases o with
      | ok u => cases h; exact ⟨hr', hnn⟩
      | err e => obtain ⟨x, _, h⟩ := Out.bind_eq_ok.1 h; cases h
      | hang => cases h
      | ub => cases h
    | err e => rw [hr] at h; obtain ⟨x, _, h⟩ := Out.bind_eq_ok.1 h; cases h
    | hang => rw [hr] at h; cases h
    | ub => rw [hr] at h; cases h
  | @edit c d hc ht hs ih =>
    refine ⟨.step ih.1 (.edit _ _ ht hs), ?_⟩
    by_cases hk : (c.dirty S).2 = .ok ()
    · rw [edit_eq_ok hk]; exact dirty_noNul ih.2
    · rw [edit_eq_err hk]; exact dirty_noNul ih.2
  | @merge A c msgs l hc ha hf hn hs ih =>
    have e : (c.cMerge S A msgs).1 = (c.merge S l).1 := by
      unfold Client.cMerge
      rw [ha]
      dsimp only
      rcases hm : c.merge S l with ⟨c', o⟩
      cases o <;> rfl
    rw [e]
    refine ⟨.step ih.1 (.merge c l hf hn hs), ?_, fun x hx => ?_⟩
    · rcases merge_curr (S := S) c l with h | h | ⟨p, hp, h⟩
      · rw [h]; exact ih.2.1
      · rw [h]; simp
      · rw [h]; exact cArgs_nul ha p hp
    · rcases merge_obsolete hS ih.1 hf hn hs hx with h | h | h
      · exact ih.2.2 x h
      · rw [h]; exact ih.2.1
      · obtain ⟨p, hp, rfl⟩ := List.mem_map.1 h
        exact cArgs_nul ha p (List.mem_filter.1 hp).1
  | @push A c hc ih =>
    have e : (c.cPush S A).1 = (c.push S).1 := by
      unfold Client.cPush
      rcases hm : c.push S with ⟨c', o⟩
      cases o <;> rfl
    rw [e]
    refine ⟨.step ih.1 (.push c), ?_⟩
    unfold Client.push
    repeat' split
    all_goals first
      | exact ih.2
      | exact ⟨(setState_noNul (c := c.touched) ih.2 .waiting).1, fun x hx => by cases hx⟩
      | exact ⟨ih.2.1, fun x hx => by cases hx⟩
  | @confirm c s h hc ih =>
    refine ⟨.step ih.1 (.confirm _ _ _), ?_⟩
    unfold Client.cConfirm Client.confirm
    split
    · exact ⟨cStr_no_nul h, (setState_noNul ih.2 .clean).2⟩
    · exact ih.2
  | @dump c m0 ord hc ih =>
    refine ⟨.step ih.1 (.dump _), ih.2.1, fun x hx => ?_⟩
    unfold Client.cDump Client.dumped at hx
    dsimp only at hx
    split at hx
    · cases hx
    · exact ih.2.2 x hx
  | @addKey c k high hc ih =>
    unfold Client.cAddKey
    split
    · exact ⟨.step ih.1 (.addKey _ _ _ _ (addKey_false_safe _ _ _)), addKey_noNul ih.2 _ _⟩
    · exact ih
  | @clearKeys c hc ih =>
    refine ⟨.step ih.1 (.clearKeys _ false (by simp [Client.clearKeys, Out.safe])), ?_⟩
    show (c.clearKeys S false).1.NoNul
    unfold Client.clearKeys
    simp only [Bool.false_and, Bool.false_eq_true, if_false]
    exact ih.2
  | @removeKey c k hc ih =>
    unfold Client.cRemoveKey
    split
    · refine ⟨.step ih.1 (.removeKey _ _ _ _ ?_), removeKey_noNul ih.2 _ _⟩
      unfold Client.removeKey
      repeat' split
      all_goals first | rfl | simp_all
    · exact ih

/-! ### What a C program reads -/

theorem upToNul_eq {x : Bytes} (h : (0 : UInt8) ∉ x) : upToNul x = x := by
  unfold upToNul
  induction x with
  | nil => rfl
  | cons a t ih =>
    rw [List.mem_cons, not_or] at h
    rw [List.takeWhile_cons_of_pos (by simpa using fun e => h.1 e.symm), ih h.2]

theorem map_upToNul {l : List Bytes} (h : ∀ x ∈ l, (0 : UInt8) ∉ x) : l.map upToNul = l := by
  conv_rhs => rw [← List.map_id l]
  exact List.map_congr_left fun x hx => upToNul_eq (h x hx)

theorem cList_reads {A : Alloc} (hA : A.Good) {l : List Bytes} (h : ∀ x ∈ l, (0 : UInt8) ∉ x) :
    A (listSize l) = none ∨ ∃ b, cList A l = .ok b ∧ readList b = .ok l := by
  unfold cList
  cases hb : A (listSize l) with
  | none => exact .inl rfl
  | some b =>
    obtain ⟨h1, h2⟩ := hA _ _ hb
    obtain ⟨b', e1, _, e2⟩ := make_string_list_ok l b h1 (by omega)
    exact .inr ⟨b', e1, by rw [e2, map_upToNul h]⟩

theorem cArgs_ok : ∀ {msgs : List (Bytes × Bytes × Nat)}, (∀ m ∈ msgs, m.2.2 ≤ m.2.1.length) →
    cArgs msgs = .ok (msgs.map fun m => (cStr m.1, m.2.1.take m.2.2))
  | [], _ => rfl
  | (h, d, n) :: t, hl => by
    have h1 : n ≤ d.length := hl (h, d, n) List.mem_cons_self
    unfold cArgs
    rw [readN_exact h1, cArgs_ok fun m hm => hl m (List.mem_cons_of_mem _ hm)]
    rfl

/-- **C128.** `config_merge`, for any number of messages in buffers of at least the given lengths: the object becomes what `merge` makes
of it; if that throws, so does `config_merge`; otherwise, unless `malloc` fails, a C program reads in the returned list exactly the
hashes it gave for the messages that were accepted, complete and in order. -/
theorem c_merge_reads {S : Sys} (hS : S.Good) {c : Client} (hc : CReach S c) {A : Alloc} (hA : A.Good) {msgs : List (Bytes × Bytes × Nat)}
    (hl : ∀ m ∈ msgs, m.2.2 ≤ m.2.1.length) (l : List (Bytes × Bytes)) (hd : l = msgs.map fun m => (cStr m.1, m.2.1.take m.2.2))
    (hf : ∀ p ∈ gather S c.keys l, Fair S.env p.2) (hn : NoCollision S.env ((c.allConfs S.env (gather S c.keys l)).map (·.2))) :
    (c.cMerge S A msgs).1 = (c.merge S l).1 ∧ (∀ e, (c.merge S l).2 = .err e → (c.cMerge S A msgs).2 = .err e) ∧
    (∀ hs, (c.merge S l).2 = .ok hs → hs = (l.filter fun p => accepts S c.keys p.2).map (·.1) ∧
      (A (listSize hs) = none ∨ ∃ b, (c.cMerge S A msgs).2 = .ok b ∧ readList b = .ok hs)) := by
  subst hd
  have ha := cArgs_ok hl
  generalize (msgs.map fun m => (cStr m.1, m.2.1.take m.2.2)) = l at *
  unfold Client.cMerge
  rw [ha]
  dsimp only
  rcases hm : c.merge S l with ⟨c', o⟩
  cases o with
  | ok hs =>
    refine ⟨rfl, (fun e he => by cases he), fun hs' h => ?_⟩
    cases h
    have hacc := merge_returns_accepted hS (hc.inv hS).1 hf hn (by rw [hm])
    refine ⟨hacc, ?_⟩
    have hnn : ∀ x ∈ hs, (0 : UInt8) ∉ x := by
      intro x hx
      rw [hacc] at hx
      obtain ⟨p, hp, rfl⟩ := List.mem_map.1 hx
      exact cArgs_nul ha p (List.mem_filter.1 hp).1
    exact cList_reads hA hnn
  | err e => exact ⟨rfl, (fun e' he => by cases he; rfl), (fun hs h => by cases h)⟩
  | hang => exact ⟨rfl, (fun e' he => by cases he), (fun hs h => by cases h)⟩
  | ub => exact ⟨rfl, (fun e' he => by cases he), (fun hs h => by cases h)⟩

theorem u64_lt (i : Int) : u64 i < 2 ^ 64 := by
  unfold u64
  omega

theorem i64_u64 {i : Int} (h : int64Ok i = true) : i64 (u64 i) = i := by
  simp only [int64Ok, Bool.and_eq_true, decide_eq_true_eq] at h
  unfold i64 u64
  rw [Int.toNat_of_nonneg (by omega)]
  unfold Int.bmod
  dsimp only
  push_cast
  split <;> omega

theorem push_obs_nul {S : Sys} {c : Client} (hn : c.NoNul) {s : Int} {m : Bytes} {obs : List Bytes}
    (h : (c.push S).2 = .ok (s, m, obs)) : ∀ x ∈ obs, (0 : UInt8) ∉ x := by
  obtain ⟨_, _, ho, _⟩ := push_eq h
  intro x hx
  rw [ho] at hx
  split at hx
  · cases hx
  · split at hx
    · exact (setState_noNul (c := c.touched) hn .waiting).2 x hx
    · exact hn.2 x hx

/-- **C128.** `config_push`: if `push` throws, so does it; otherwise, unless `malloc` fails, a C program reads in the returned struct
the sequence number, the message and the hashes to delete, complete. -/
theorem c_push_reads {S : Sys} (hS : S.Good) {c : Client} (hc : CReach S c) {A : Alloc} (hA : A.Good) :
    (c.cPush S A).1 = (c.push S).1 ∧ (∀ e, (c.push S).2 = .err e → (c.cPush S A).2 = .err e) ∧
    (∀ s m obs, (c.push S).2 = .ok (s, m, obs) →
      A (pushSize m obs) = none ∨ ∃ b n, (c.cPush S A).2 = .ok b ∧ readPush b = .ok (n, m, obs) ∧ i64 n = s) := by
  have hn := (hc.inv hS).2
  unfold Client.cPush
  rcases hm : c.push S with ⟨c', o⟩
  cases o with
  | ok r =>
    obtain ⟨s, m, obs⟩ := r
    refine ⟨rfl, (fun e he => by cases he), fun s' m' obs' h => ?_⟩
    cases h
    have hs : s = c.seqno := (push_eq (by rw [hm])).1
    cases hb : A (pushSize m obs) with
    | none => exact .inl rfl
    | some b =>
      obtain ⟨h1, h2⟩ := hA _ _ hb
      obtain ⟨b', e1, _, e2⟩ := config_push_ok (u64 s) m obs b (u64_lt s) h1 (by omega)
      refine .inr ⟨b', u64 s, ?_, ?_, i64_u64 (by rw [hs]; exact ((hc.inv hS).1.inv hS).wf.seq)⟩
      · dsimp only
        rw [hb]
        exact e1
      · rw [e2, map_upToNul (push_obs_nul hn (by rw [hm]))]
  | err e => exact ⟨rfl, (fun e' he => by cases he; rfl), (fun s m obs h => by cases h)⟩
  | hang => exact ⟨rfl, (fun e' he => by cases he), (fun s m obs h => by cases h)⟩
  | ub => exact ⟨rfl, (fun e' he => by cases he), (fun s m obs h => by cases h)⟩

/-- **C128.** `config_current_hashes` -/
theorem c_hashes_reads {S : Sys} (hS : S.Good) {c : Client} (hc : CReach S c) {A : Alloc} (hA : A.Good) :
    A (listSize c.currentHashes) = none ∨ ∃ b, c.cHashes A = .ok b ∧ readList b = .ok c.currentHashes := by
  refine cList_reads hA fun x hx => ?_
  unfold Client.currentHashes at hx
  split at hx
  · cases hx
  · rw [List.mem_singleton.1 hx]; exact (hc.inv hS).2.1

theorem addKey_eq {S : Sys} {c : Client} {k : Bytes} (hk : k.length = 32) (hi : Bool) :
    (c.addKey S k hi false).2 = .ok () ∧ ∃ ks, (c.addKey S k hi false).1 = { c with keys := ks } := by
  unfold Client.addKey
  rw [if_neg (by omega)]
  split
  · exact ⟨rfl, c.keys, rfl⟩
  · split
    · exact ⟨rfl, c.keys, rfl⟩
    · cases hi with
      | false => exact ⟨rfl, c.keys ++ [k], rfl⟩
      | true =>
        refine ⟨rfl, k :: (c.removeKey S k 1 false).1.keys, ?_⟩
        show ({ (c.removeKey S k 1 false).1 with keys := _ } : Client) = _
        unfold Client.removeKey
        split
        · rfl
        · split
          · rfl
          · rfl

/-- **C128.** Keys: `config_get_keys` gives them all, 32 bytes each, in order (null if there is none); `config_key` and `config_has_key`
agree with it; after `config_add_key` that key is the first and the others keep their order, after `config_add_key_low_prio` it is the
last unless it was there, after `config_remove_key` exactly that key is gone (and the answer is whether it was there), after
`config_clear_keys` there is none. -/
theorem c_keys_read {S : Sys} (hS : S.Good) {c : Client} (hc : CReach S c) {A : Alloc} (hA : A.Good) :
    (c.keys = [] ∧ c.cGetKeys A = .ok (none, 0) ∨ c.keys ≠ [] ∧ (A (32 * c.keys.length) = none ∨
      c.cGetKeys A = .ok (some c.keys.flatten, c.keys.length))) ∧
    (∀ i k, c.cKey i = .ok k ↔ c.keys[i]? = some k) ∧
    (∀ k more, k.length = 32 → c.cHasKey (k ++ more) = .ok (decide (k ∈ c.keys))) ∧
    (∀ k more, k.length = 32 → (c.cAddKey S (k ++ more) true).2 = .ok () ∧
      (c.cAddKey S (k ++ more) true).1.keys = k :: c.keys.filter (· ≠ k)) ∧
    (∀ k more, k.length = 32 → (c.cAddKey S (k ++ more) false).2 = .ok () ∧
      (c.cAddKey S (k ++ more) false).1.keys = if k ∈ c.keys then c.keys else c.keys ++ [k]) ∧
    (∀ k more, k.length = 32 → (c.cRemoveKey S (k ++ more)).1.keys = c.keys.filter (· ≠ k) ∧
      (c.cRemoveKey S (k ++ more)).2 = .ok (decide (k ∈ c.keys))) ∧
    (c.cClearKeys S).1.keys = [] := by
  obtain ⟨hnd, hlen⟩ := keys_wellformed hS (hc.inv hS).1
  have hread : ∀ (k more : Bytes), k.length = 32 → readN (k ++ more) 32 = .ok k := fun k more h => by
    rw [← h]; exact readN_append k more
  refine ⟨?_, fun i k => ?_, fun k more h => ?_, fun k more h => ?_, fun k more h => ?_, fun k more h => ?_, ?_⟩
  · unfold Client.cGetKeys
    by_cases he : c.keys = []
    · rw [if_pos he]; exact .inl ⟨he, rfl⟩
    · rw [if_neg he]
      refine .inr ⟨he, ?_⟩
      cases hb : A (32 * c.keys.length) with
      | none => exact .inl rfl
      | some b =>
        dsimp only
        rw [config_get_keys_ok hlen b (hA _ _ hb).1]
        exact .inr rfl
  · unfold Client.cKey
    cases hk : c.keys[i]? with
    | none => simp
    | some x =>
      have hx : x.length = 32 := hlen x (List.mem_of_getElem? hk)
      dsimp only
      rw [readN_exact (by omega), ← hx, List.take_length]
      simp
  · unfold Client.cHasKey
    rw [hread k more h]; rfl
  · unfold Client.cAddKey
    rw [hread k more h]
    exact ⟨(addKey_eq h true).1, add_key_front hnd h false⟩
  · unfold Client.cAddKey
    rw [hread k more h]
    exact ⟨(addKey_eq h false).1, add_key_back h false⟩
  · unfold Client.cRemoveKey
    rw [hread k more h]
    obtain ⟨h1, h2⟩ := remove_key_removes (S := S) (c := c) k
    exact ⟨by dsimp only; rw [h1], h2⟩
  · show (c.clearKeys S false).1.keys = []
    unfold Client.clearKeys
    simp

/-- **C128.** And the numbers: `config_key_count` is the number of keys, and `config_clear_keys` returns how many there were. -/
theorem c_keys_count {S : Sys} {c : Client} (h : c.keys.length < 2 ^ 31) :
    c.cKeyCount = c.keys.length ∧ (c.cClearKeys S).2 = c.keys.length := by
  have hi : int32Ok (c.keys.length : Int) = true := by
    simp only [int32Ok, Bool.and_eq_true, decide_eq_true_eq]
    omega
  have ht := toInt32_of_ok hi
  unfold Client.cKeyCount Client.cClearKeys
  dsimp only
  exact ⟨ht, ht⟩

/-- **C128.** Through `config_dump` and `…_init` with what it gave, whatever follows it in memory: unless the seqno is at the end of its
range, the new object has the same contents, the same need for a push, the same hashes, and the key of its owner as the only one. -/
theorem c_restart {S : Sys} (hS : S.Good) {c : Client} (hc : CReach S c) (m0 : Bool) {ord : List Bytes}
    (ho : ord.Perm (if S.env.readonly then [] else c.old)) (hov : int64Ok (c.seqno + S.env.lag) = true)
    {secret more error what : Bytes} (hsk : 64 ≤ secret.length) :
    ∃ d c', (c.cDump S m0 ord).2.ptr = some d ∧
      cInit S secret (some (d ++ more)) (c.cDump S m0 ord).2.len error what = .ok (.inl c') ∧ CReach S c' ∧
      c'.content = c.content ∧ c'.needsPush = c.needsPush ∧ c'.currentHashes = c.currentHashes ∧ c'.old = ord ∧
      c'.needsDump = false ∧ c'.keys = [secret.take 32] := by
  obtain ⟨hr, hn⟩ := hc.inv hS
  obtain ⟨x, hx, h1, h2, h3, h4, h5, h6, _⟩ := dump_roundtrip hS hr ho hov
  have hne : c.dumpBytes S ord ≠ [] := by unfold Client.dumpBytes; simp
  have hd : (c.cDump S m0 ord).2.ptr = some (c.dumpBytes S ord) := by
    unfold Client.cDump toCBuf
    dsimp only
    rw [if_neg (fun h => hne h.1)]
  have hlen : (c.cDump S m0 ord).2.len = (c.dumpBytes S ord).length := rfl
  have hk : ((secret.take 64).take 32).length = 32 := by simp; omega
  have ek : (secret.take 64).take 32 = secret.take 32 := by rw [List.take_take]; rfl
  obtain ⟨a1, ks, a2⟩ := addKey_eq (S := S) (c := x) hk true
  have hxk : x.keys = [] := by
    have hnd : ord.Nodup := by
      rw [ho.nodup_iff]; split
      · exact List.nodup_nil
      · exact (hr.inv hS).old
    rw [restore_eq S c hnd] at hx
    obtain ⟨cf, _, hx⟩ := Out.bind_eq_ok.1 hx
    cases hx; rfl
  have a3 := add_key_front (S := S) (c := x) (by rw [hxk]; exact List.nodup_nil) hk false
  rw [a2] at a3
  have a3 : ks = secret.take 32 :: x.keys.filter (· ≠ secret.take 32) := by rw [ek] at a3; exact a3
  rw [hxk] at a3
  have hi : cInit S secret (some (c.dumpBytes S ord ++ more)) (c.cDump S m0 ord).2.len error what =
      .ok (.inl { x with keys := ks }) := by
    unfold cInit
    rw [readN_exact hsk, hlen]
    dsimp only [Out.bind]
    rw [if_neg (by simpa using hne), readN_append]
    dsimp only [Out.bind]
    rw [hx]
    dsimp only
    rcases hadd : x.addKey S ((secret.take 64).take 32) true false with ⟨c', o⟩
    rw [hadd] at a1 a2
    cases a1; cases a2
    rfl
  refine ⟨_, _, hd, hi, .restart hc ho hd hi, h1, h3, h4, h5, h6, a3⟩

/-- **C128.** `…_init` without a dump makes an object with no contents and nothing to push, with the first 32 bytes of the secret key
as its only key; with any dump, if it does not make an object it puts the error into the caller's 256 bytes, as a C string, and touches
nothing after them. -/
theorem c_init {S : Sys} {secret error what : Bytes} (hsk : 64 ≤ secret.length) :
    (∃ c, cInit S secret none 0 error what = .ok (.inl c) ∧ CReach S c ∧ c.content = [] ∧ c.needsPush = false ∧
      c.currentHashes = [] ∧ c.keys = [secret.take 32]) ∧
    ∀ dump n e, cInit S secret dump n error what = .ok (.inr e) → initError error what = .ok e := by
  have hk : ((secret.take 64).take 32).length = 32 := by simp; omega
  have ek : (secret.take 64).take 32 = secret.take 32 := by rw [List.take_take]; rfl
  constructor
  · have hi : cInit S secret none 0 error what = .ok (.inl { Client.new S with keys := [secret.take 32] }) := by
      unfold cInit
      rw [readN_exact hsk]
      dsimp only [Out.bind]
      rw [ek] at hk ⊢
      obtain ⟨a1, ks, a2⟩ := addKey_eq (S := S) (c := Client.new S) hk true
      have a3 := add_key_front (S := S) (c := Client.new S) List.nodup_nil hk false
      rw [a2] at a3
      have a3 : ks = [secret.take 32] := a3
      subst a3
      rcases hadd : (Client.new S).addKey S (secret.take 32) true false with ⟨c', o⟩
      rw [hadd] at a1 a2
      cases a1; cases a2
      rfl
    exact ⟨_, hi, .init hi, rfl, rfl, rfl, rfl⟩
  · intro dump n e h
    have hw : ∀ {o : Out Bytes}, (o.bind fun e => .ok (Sum.inr (α := Client) e)) = .ok (.inr e) → o = .ok e := by
      intro o ho
      obtain ⟨x, hx, ho⟩ := Out.bind_eq_ok.1 ho
      cases ho; exact hx
    obtain ⟨sk, _, h⟩ := Out.bind_eq_ok.1 h
    obtain ⟨d, _, h⟩ := Out.bind_eq_ok.1 h
    have hadd : ∀ c : Client, (match c.addKey S (sk.take 32) true false with
        | (c', .ok _) => (Out.ok (Sum.inl c') : Out (Client ⊕ Bytes))
        | (_, .err _) => (initError error what).bind fun e => .ok (.inr e)
        | (_, .hang) => .hang
        | (_, .ub) => .ub) = .ok (.inr e) → initError error what = .ok e := by
      intro c h
      rcases ha : c.addKey S (sk.take 32) true false with ⟨c', o⟩
      rw [ha] at h
      cases o with
      | ok u => cases h
      | err _ => exact hw h
      | hang => cases h
      | ub => cases h
    cases d with
    | none => exact hadd _ h
    | some d =>
      dsimp only at h
      cases hr : Client.restore S d with
      | ok c => rw [hr] at h; exact hadd _ h
      | err _ => rw [hr] at h; exact hw h
      | hang => rw [hr] at h; cases h
      | ub => rw [hr] at h; cases h

theorem pushed_content {S : Sys} {c : Client} {s : Int} {m : Bytes} {obs : List Bytes}
    (h : (c.push S).2 = .ok (s, m, obs)) : (c.push S).1.content = c.content := by
  obtain ⟨_, _, e, _⟩ := push_state h
  unfold Client.content
  rw [e]
  unfold Conf.refresh
  split
  · rfl
  · exact pruneD_of_pruned _ (pruneD_pruned _)

/-- **C128.** From one C program to another: what `config_push` gave the first is stored under a hash; the second gives it to `config_merge`,
from a buffer that may be longer.  The second then shows what the first showed, has nothing to push, and gets that hash back; the first,
told so with `config_confirm_pushed`, has nothing to push either, and both have that hash as the current one. -/
theorem c_sync {S : Sys} (hS : S.Good) {sg : Option (Bytes → Bytes)} (hS' : (S.as sg).Good) {c c1 r : Client} (hc : CReach S c)
    (hr : CReach (S.as sg) r) {A B : Alloc} (hA : A.Good) (hB : B.Good) {b : Blk} (hp : c.cPush S A = (c1, .ok b))
    (hpend : c.needsPush = true) (hk : r.keys.head? = c.keys.head?) (hst : r.st ≠ .dirty)
    (hknown : r.seqno = 0 ∨ ∀ M, parseMsg S.env false (c.plain S) = .ok M → Supersedes (S.as sg) M r)
    (hnc : S.env.H (c.plain S) = S.env.H (r.plain (S.as sg)) → c.plain S = r.plain (S.as sg))
    (hov : int64Ok (c.seqno + S.env.lag) = true) (hash : Bytes) (hne : cStr hash ≠ []) (more : Bytes) :
    ∃ n m obs r1 o, readPush b = .ok (n, m, obs) ∧ r.cMerge (S.as sg) B [(hash, m ++ more, m.length)] = (r1, o) ∧
      r1.content = c.content ∧ r1.needsPush = false ∧ r1.currentHashes = [cStr hash] ∧
      (B (listSize [cStr hash]) = none ∨ ∃ b2, o = .ok b2 ∧ readList b2 = .ok [cStr hash]) ∧
      (c1.cConfirm (i64 n) hash).needsPush = false ∧ (c1.cConfirm (i64 n) hash).currentHashes = [cStr hash] ∧
      (c1.cConfirm (i64 n) hash).content = c.content := by
  have hcr := (hc.inv hS).1
  have hrr := (hr.inv hS').1
  obtain ⟨q1, q2, q3⟩ := c_push_reads hS hc hA
  rw [hp] at q1 q2 q3
  dsimp only at q1 q2 q3
  rcases hpush : (c.push S).2 with ⟨s, m, obs⟩ | e | _ | _
  · obtain hnone | ⟨b', n, e1, e2, e3⟩ := q3 s m obs hpush
    · exfalso
      unfold Client.cPush at hp
      rcases hm : c.push S with ⟨c', o⟩
      rw [hm] at hpush hp
      dsimp only at hpush
      subst hpush
      dsimp only at hp
      rw [hnone] at hp
      cases hp
    · cases e1
      have hs : s = c.seqno := (push_eq hpush).1
      have hpos := hcr.pending_pos hS (needsPush_iff.1 hpend)
      obtain ⟨d1, d2, d3, d4, d5⟩ := delivery hS hS' hcr hrr hpush (by omega) hk hst hknown hnc (by rw [hs]; exact hov) (cStr hash)
      obtain ⟨f1, f2, f3, f4⟩ := confirm_after_push hpush hpend hne
      have ha : cArgs [(hash, m ++ more, m.length)] = .ok [(cStr hash, m)] := by
        unfold cArgs cArgs
        rw [readN_append]; rfl
      have hmg : r.cMerge (S.as sg) B [(hash, m ++ more, m.length)] = ((r.merge (S.as sg) [(cStr hash, m)]).1, cList B [cStr hash]) := by
        unfold Client.cMerge
        rw [ha]
        dsimp only
        rcases hm : r.merge (S.as sg) [(cStr hash, m)] with ⟨c', o⟩
        rw [hm] at d1
        cases d1
        rfl
      refine ⟨n, m, obs, _, _, e2, hmg, d2, d4, ?_, ?_, ?_, ?_, ?_⟩
      · unfold Client.currentHashes; rw [d5, if_neg hne]
      · exact cList_reads hB fun x hx => by rw [List.mem_singleton.1 hx]; exact cStr_no_nul hash
      · rw [e3, q1]; exact f1
      · rw [e3, q1]; exact f2
      · rw [e3, q1]; exact f3.trans (pushed_content hpush)
  all_goals
    exfalso
    unfold Client.cPush at hp
    rcases hm : c.push S with ⟨c', o⟩
    rw [hm] at hpush hp
    dsimp only at hpush
    subst hpush
    cases hp

/-! ### Instances -/

theorem exC0_creach : CReach exSys exC0 := by
  refine .init (secret := exKey ++ exKey) (error := []) (what := []) ?_
  have h : ∀ (S : Sys) (k : Bytes), k.length = 32 → cInit S (k ++ k) none 0 [] [] = .ok (.inl ((Client.new S).addKey S k true false).1) := by
    intro S k hk
    have e : readN (k ++ k) 64 = .ok (k ++ k) := by
      have : (k ++ k).length = 64 := by simp [hk]
      rw [readN_exact (by omega), ← this, List.take_length]
    have e2 : (k ++ k).take 32 = k := by rw [← hk]; exact List.take_left
    unfold cInit
    rw [e]
    dsimp only [Out.bind]
    rw [e2]
    have a1 := (addKey_eq (S := S) (c := Client.new S) hk true).1
    rcases hadd : (Client.new S).addKey S k true false with ⟨c', o⟩
    rw [hadd] at a1
    cases a1
    rfl
  exact h exSys exKey (by decide +kernel)

theorem exC1_creach : CReach exSys exC1 := .edit exC0_creach (by decide +kernel) (by decide +kernel)

/-- A `malloc` for examples: blocks full of ones at address 4096, up to a megabyte -/
def exAlloc : Alloc := fun n => if n ≤ 2 ^ 20 then some ⟨4096, List.replicate n 1⟩ else none

theorem exAlloc_good : exAlloc.Good := by
  intro n b h
  unfold exAlloc at h
  split at h
  · cases h
    exact ⟨List.length_replicate .., by show 4096 + n < 2 ^ 64; omega⟩
  · cases h

/-- `c_sync` between two objects made by the C interface: the push gives a block, so there is the whole of the conclusion -/
example : (exC1.cPush exSys exAlloc).2.isOk = true ∧ exC1.needsPush = true ∧ exC0.keys.head? = exC1.keys.head? ∧ exC0.st ≠ .dirty ∧
    exC0.seqno = 0 ∧ int64Ok (exC1.seqno + exSys.env.lag) = true ∧ cStr [104, 0, 1] ≠ [] := by decide +kernel

/-- and what the receiving program reads -/
example : ((exC1.cPush exSys exAlloc).2.bind fun b => (readPush b).bind fun p =>
      (exC0.cMerge exSys exAlloc [([104, 0], p.2.1 ++ [1, 2], p.2.1.length), ([120, 0], [1, 2, 3], 3)]).2.bind readList) = .ok [[104]] := by
  decide +kernel

/-- `c_restart` -/
example : exC1.old = [] ∧ int64Ok (exC1.seqno + exSys.env.lag) = true ∧ 64 ≤ (exKey ++ exKey).length ∧ exC1.needsPush = true := by
  decide +kernel

end Verif
