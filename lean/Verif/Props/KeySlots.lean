import Verif.KeySlots
import Verif.Props.ClientKeys

/-!
# Keys named by views of the object's own keys
-/

namespace Verif

/-! ## C151 -/

/-- A vector: no more elements than slots. -/
def Slots.Ok (s : Slots) : Prop := s.n ≤ s.mem.length

theorem getD_mid {α : Type} (a : List α) (x : α) (b : List α) (d : α) : (a ++ x :: b).getD a.length d = x := by
  rw [List.getD_eq_getElem?_getD, List.getElem?_append_right (le_refl _)]; simp

theorem set_mid {α : Type} (a : List α) (x y : α) (b : List α) : (a ++ x :: b).set a.length y = a ++ y :: b := by
  rw [List.set_append_right _ _ (le_refl _)]; simp

/-- The removal loop with a key stored elsewhere. -/
theorem removeLoop_copy (k : Bytes) : ∀ (rest done gap tail : List Bytes),
    ∃ gap', removeLoop (.copy k) (done ++ (gap ++ (rest ++ tail))) done.length (done.length + gap.length) rest.length =
      ((done ++ rest.filter (· ≠ k)) ++ (gap' ++ tail), (done ++ rest.filter (· ≠ k)).length) ∧
      gap'.length = gap.length + rest.length - (rest.filter (· ≠ k)).length
  | [], done, gap, tail => ⟨gap, by simp [removeLoop]⟩
  | r :: rest, done, gap, tail => by
    have hget : (done ++ (gap ++ (r :: rest ++ tail))).getD (done.length + gap.length) [] = r := by
      have := getD_mid (done ++ gap) r (rest ++ tail) []
      simp only [List.append_assoc, List.length_append] at this
      exact this
    have hle := List.length_filter_le (fun x => decide (x ≠ k)) rest
    unfold removeLoop
    rw [List.length_cons]
    simp only [hget]
    by_cases hk : k = r
    · rw [if_pos (show KeyArg.read _ (.copy k) = r from hk)]
      obtain ⟨gap', h1, h2⟩ := removeLoop_copy k rest done (gap ++ [r]) tail
      refine ⟨gap', ?_, ?_⟩
      · rw [show (r :: rest).filter (· ≠ k) = rest.filter (· ≠ k) by simp [hk]]
        rw [← h1]
        simp [Nat.add_assoc]
      · rw [h2]; simp [hk]; omega
    · rw [if_neg (show ¬ KeyArg.read _ (.copy k) = r from hk)]
      obtain ⟨x, y, hxy⟩ : ∃ x y, gap ++ [r] = x :: y := by
        cases gap with
        | nil => exact ⟨_, _, rfl⟩
        | cons x y => exact ⟨_, _, rfl⟩
      have hmem : done ++ (gap ++ (r :: rest ++ tail)) = done ++ x :: (y ++ (rest ++ tail)) := by
        rw [show gap ++ (r :: rest ++ tail) = (gap ++ [r]) ++ (rest ++ tail) by simp, hxy]; simp
      have hlen : y.length = gap.length := by
        have := congrArg List.length hxy
        simp at this; omega
      rw [hmem, set_mid]
      obtain ⟨gap', h1, h2⟩ := removeLoop_copy k rest (done ++ [r]) y tail
      refine ⟨gap', ?_, ?_⟩
      · have hf : (r :: rest).filter (· ≠ k) = r :: rest.filter (· ≠ k) := by
          rw [List.filter_cons_of_pos (by simpa using fun h => hk h.symm)]
        rw [hf]
        have e1 : done ++ r :: (y ++ (rest ++ tail)) = done ++ [r] ++ (y ++ (rest ++ tail)) := by simp
        have e2 : done.length + 1 = (done ++ [r]).length := by simp
        have e3 : done.length + gap.length + 1 = (done ++ [r]).length + y.length := by simp [hlen]; omega
        rw [e1, e2, e3, h1]
        simp
      · have hf : (r :: rest).filter (· ≠ k) = r :: rest.filter (· ≠ k) := by
          rw [List.filter_cons_of_pos (by simpa using fun h => hk h.symm)]
        rw [h2, hf, hlen, List.length_cons]; omega

theorem slots_split {s : Slots} (h : s.Ok) : s.mem = s.keys ++ s.mem.drop s.n ∧ s.keys.length = s.n := by
  unfold Slots.keys
  exact ⟨(List.take_append_drop _ _).symm, by rw [List.length_take]; exact min_eq_left h⟩

/-- C151.  A key given as bytes stored elsewhere is removed from the list in memory as from the list of Client.lean. -/
theorem remove_copy {s : Slots} (h : s.Ok) (k : Bytes) (start : Nat) :
    (s.removeKey (.copy k) start).Ok ∧ (s.removeKey (.copy k) start).mem.length = s.mem.length ∧
    (s.removeKey (.copy k) start).keys =
      if s.n ≤ start then s.keys else s.keys.take start ++ (s.keys.drop start).filter (· ≠ k) := by
  obtain ⟨h1, h2⟩ := slots_split h
  unfold Slots.removeKey
  by_cases hn : s.n ≤ start
  · rw [if_pos hn, if_pos hn]; exact ⟨h, rfl, rfl⟩
  rw [if_neg hn, if_neg hn]
  obtain ⟨gap', e1, e2⟩ := removeLoop_copy k (s.keys.drop start) (s.keys.take start) [] (s.mem.drop s.n)
  have hl1 : (s.keys.take start).length = start := by rw [List.length_take]; omega
  have hl2 : (s.keys.drop start).length = s.n - start := by rw [List.length_drop]; omega
  have hm : s.keys.take start ++ ([] ++ (s.keys.drop start ++ s.mem.drop s.n)) = s.mem := by
    rw [List.nil_append, ← List.append_assoc, List.take_append_drop, ← h1]
  rw [hm, hl1, hl2, List.length_nil, Nat.add_zero] at e1
  dsimp only
  rw [e1]
  have hle := List.length_filter_le (fun x => decide (x ≠ k)) (s.keys.drop start)
  refine ⟨?_, ?_, ?_⟩
  · unfold Slots.Ok; simp
  · have : s.mem.length = s.n + (s.mem.drop s.n).length := by
      rw [List.length_drop]; unfold Slots.Ok at h; omega
    simp only [List.length_append, List.length_nil] at e2 ⊢
    rw [e2, this, hl1]
    omega
  · unfold Slots.keys
    dsimp only
    rw [List.take_left']
    rfl

/-- The removal loop with a view: elements before the one viewed are left where they are. -/
theorem removeLoop_pre {j : Nat} {x : Bytes} : ∀ (pre done rest : List Bytes) (f : Nat), done.length + pre.length = j → x ∉ pre →
    removeLoop (.slot j) (done ++ (pre ++ x :: rest)) done.length done.length (pre.length + f) =
      removeLoop (.slot j) (done ++ (pre ++ x :: rest)) j j f
  | [], done, rest, f, hj, _ => by
    have : done.length = j := by simpa using hj
    rw [this]; simp
  | p :: pre, done, rest, f, hj, hx => by
    have hr : KeyArg.read (done ++ (p :: pre ++ x :: rest)) (.slot j) = x := by
      have := getD_mid (done ++ p :: pre) x rest []
      rw [List.length_append, hj] at this
      simpa [KeyArg.read, List.append_assoc] using this
    have hp : (done ++ (p :: pre ++ x :: rest)).getD done.length [] = p := getD_mid done p (pre ++ x :: rest) []
    rw [show (p :: pre).length + f = (pre.length + f) + 1 by rw [List.length_cons]; omega]
    conv => lhs; unfold removeLoop
    rw [hr, hp, if_neg (show ¬ x = p from fun h => hx (by rw [h]; exact List.mem_cons_self ..))]
    rw [show (done ++ (p :: pre ++ x :: rest)).set done.length p = done ++ (p :: pre ++ x :: rest) from
      set_mid done p p (pre ++ x :: rest)]
    have := removeLoop_pre (j := j) (x := x) pre (done ++ [p]) rest f (by simp at hj ⊢; omega)
      (fun h => hx (List.mem_cons_of_mem _ h))
    simpa [List.append_assoc] using this

/-- After it, they move up by one place, whatever the view then shows. -/
theorem removeLoop_post {j : Nat} : ∀ (rest done tail : List Bytes) (g : Bytes), j ≤ done.length →
    ((done ++ g :: (rest ++ tail)).getD j [] :: rest).Nodup →
    ∃ g', removeLoop (.slot j) (done ++ g :: (rest ++ tail)) done.length (done.length + 1) rest.length =
      (done ++ rest ++ g' :: tail, (done ++ rest).length)
  | [], done, tail, g, _, _ => ⟨g, by simp [removeLoop]⟩
  | r :: rest, done, tail, g, hj, hn => by
    have hget : (done ++ g :: (r :: rest ++ tail)).getD (done.length + 1) [] = r := by
      simp
    rw [List.nodup_cons] at hn
    rw [List.length_cons]
    unfold removeLoop
    rw [hget, if_neg (fun h => hn.1 (by
      rw [show (done ++ g :: (r :: rest ++ tail)).getD j [] = r from h]; exact List.mem_cons_self ..)), set_mid]
    have hlt : (done ++ r :: (r :: rest ++ tail)) = (done ++ [r]) ++ r :: (rest ++ tail) := by simp
    rw [hlt]
    obtain ⟨g', hg'⟩ := removeLoop_post (j := j) rest (done ++ [r]) tail r (by simp; omega) (by
      by_cases he : j = done.length
      · subst he
        rw [← hlt, getD_mid]; exact hn.2
      · have h1 : ∀ z, (done ++ z).getD j [] = done.getD j [] := fun z => by
          rw [List.getD_eq_getElem?_getD, List.getElem?_append_left (by omega), ← List.getD_eq_getElem?_getD]
        rw [← hlt, h1]
        rw [h1] at hn
        rw [List.nodup_cons]
        exact ⟨fun h => hn.1 (List.mem_cons_of_mem _ h), (List.nodup_cons.1 hn.2).2⟩)
    refine ⟨g', ?_⟩
    have e : (done ++ [r]).length = done.length + 1 := by simp
    rw [e] at hg'
    rw [hg']; simp

/-- Both together. -/
theorem removeLoop_slot {pre rest tail : List Bytes} {x : Bytes} {st : Nat} (hst : st ≤ pre.length)
    (hn : (pre ++ x :: rest).Nodup) :
    ∃ g, removeLoop (.slot pre.length) (pre ++ x :: (rest ++ tail)) st st (pre.length + 1 + rest.length - st) =
      (pre ++ rest ++ g :: tail, (pre ++ rest).length) := by
  rw [List.nodup_append] at hn
  obtain ⟨_, hx, hd⟩ := hn
  have h1 := removeLoop_pre (j := pre.length) (x := x) (pre.drop st) (pre.take st) (rest ++ tail) (1 + rest.length)
    (by simp; omega) (fun h => hd x (List.mem_of_mem_drop h) x (List.mem_cons_self ..) rfl)
  have hl : (pre.take st).length = st := by simp; omega
  have hm : pre.take st ++ (pre.drop st ++ x :: (rest ++ tail)) = pre ++ x :: (rest ++ tail) := by
    rw [← List.append_assoc, List.take_append_drop]
  have hf : (pre.drop st).length + (1 + rest.length) = pre.length + 1 + rest.length - st := by simp; omega
  rw [hl, hm, hf] at h1
  rw [h1, Nat.add_comm 1]
  unfold removeLoop
  rw [if_pos (show KeyArg.read _ (.slot _) = List.getD _ _ _ from rfl)]
  exact removeLoop_post rest pre tail x (le_refl _) (by rw [getD_mid]; exact hx)

/-- A vector with distinct elements, split at element `i`. -/
theorem slots_at {s : Slots} (h : s.Ok) {i : Nat} (hi : i < s.n) : ∃ pre x rest tail, s.mem = pre ++ x :: (rest ++ tail) ∧
    s.keys = pre ++ x :: rest ∧ pre.length = i ∧ s.n = pre.length + 1 + rest.length ∧ s.keys[i]? = some x := by
  obtain ⟨h1, h2⟩ := slots_split h
  have hi' : i < s.keys.length := by omega
  have hk : s.keys = s.keys.take i ++ s.keys[i] :: s.keys.drop (i + 1) := by
    rw [List.getElem_cons_drop, List.take_append_drop]
  refine ⟨s.keys.take i, s.keys[i], s.keys.drop (i + 1), s.mem.drop s.n, ?_, hk, by simp; omega, by simp; omega,
    List.getElem?_eq_getElem hi'⟩
  have : (s.keys.take i ++ s.keys[i] :: s.keys.drop (i + 1)) ++ s.mem.drop s.n = s.mem := by rw [← hk, ← h1]
  exact this.symm.trans (by rw [List.append_assoc, List.cons_append])

/-- C151.  `remove_key(key(i))`, with a view of the list itself, removes just that key, as a copy of the key would: although the
bytes under the view change while the elements move, it does not matter as long as the keys are distinct (which they are,
C41). -/
theorem remove_own {s : Slots} (h : s.Ok) (hn : s.keys.Nodup) {i start : Nat} (hi : i < s.n) (hs : start ≤ i) :
    (s.removeKey (.slot i) start).Ok ∧ (s.removeKey (.slot i) start).keys = s.keys.eraseIdx i ∧
    ∀ k, s.keys[i]? = some k → (s.removeKey (.slot i) start).keys = (s.removeKey (.copy k) start).keys := by
  obtain ⟨pre, x, rest, tail, hm, hk, rfl, hnn, hx⟩ := slots_at h hi
  obtain ⟨g, hg⟩ := removeLoop_slot (tail := tail) hs (hk ▸ hn)
  have hr : s.removeKey (.slot pre.length) start = ⟨pre ++ rest ++ g :: tail, (pre ++ rest).length⟩ := by
    unfold Slots.removeKey
    rw [if_neg (by omega), hm, hnn, hg]
  have hkeys : (s.removeKey (.slot pre.length) start).keys = pre ++ rest := by
    rw [hr]; unfold Slots.keys; exact List.take_left' rfl
  refine ⟨by rw [hr]; unfold Slots.Ok; simp, ?_, fun k hk' => ?_⟩
  · rw [hkeys, hk, List.eraseIdx_append_of_length_le (le_refl _)]; simp
  · rw [hx] at hk'
    rw [hkeys, (remove_copy h k start).2.2, if_neg (by omega), hk, ← Option.some.inj hk']
    rw [hk, List.nodup_append] at hn
    obtain ⟨_, h2, h3⟩ := hn
    rw [List.nodup_cons] at h2
    have f1 : ∀ l : List Bytes, x ∉ l → l.filter (· ≠ x) = l := fun l hl => List.filter_eq_self.2 fun a ha => by
      simp; rintro rfl; exact hl ha
    rw [List.take_append_of_le_length hs, List.drop_append_of_le_length hs, List.filter_append,
      f1 _ (fun hh => h3 x (List.mem_of_mem_drop hh) x (List.mem_cons_self ..) rfl),
      List.filter_cons_of_neg (by simp), f1 _ h2.1, ← List.append_assoc, List.take_append_drop]

theorem emplace_room {s : Slots} (h : s.n < s.mem.length) (pos : Nat) : s.emplace pos =
    (⟨s.mem.take pos ++ zeroKey :: ((s.mem.drop pos).take (s.n - pos) ++ s.mem.drop (s.n + 1)), s.n + 1⟩, false) := by
  unfold Slots.emplace; rw [if_pos h]

/-- C151.  `add_key(key(i))` with a view of the list itself, for a key that is not the first, which is documented to move that key to
the front: the key is lost, and the key before it in the list is put at the front, a second time (with two keys: the key
used for encryption does not change at all).  For the first key, and with low priority, nothing happens, as documented. -/
theorem add_own {s : Slots} (h : s.Ok) (hn : s.keys.Nodup) (hl : ∀ k ∈ s.keys, k.length = 32) {i : Nat} (hi : i < s.n) :
    s.addKey (.slot i) false = .ok s ∧ (i = 0 → s.addKey (.slot i) true = .ok s) ∧
    (0 < i → ∃ s' k p, s.addKey (.slot i) true = .ok s' ∧ s.keys[i]? = some k ∧ s.keys[i - 1]? = some p ∧
      s'.keys = p :: s.keys.eraseIdx i ∧ k ∉ s'.keys) := by
  obtain ⟨pre, x, rest, tail, hm, hk, rfl, hnn, hx⟩ := slots_at h hi
  have hread : KeyArg.read s.mem (.slot pre.length) = x := by
    rw [hm]; exact getD_mid _ _ _ _
  have hxk : x ∈ s.keys := List.mem_of_getElem? hx
  refine ⟨?_, fun h0 => ?_, fun h0 => ?_⟩
  · unfold Slots.addKey
    dsimp only
    rw [hread, if_neg (by simp [hl x hxk])]
    split
    · rfl
    · rw [if_pos (by simp [hxk])]
  · unfold Slots.addKey
    dsimp only
    rw [hread, if_neg (by simp [hl x hxk]), if_pos]
    rw [List.length_eq_zero_iff.1 h0] at hk
    rw [hk]; rfl
  · obtain ⟨pre0, p, rfl⟩ : ∃ pre0 p, pre = pre0 ++ [p] := by
      rcases List.eq_nil_or_concat pre with h1 | ⟨a, b, h1⟩
      · rw [h1] at h0; cases h0
      · exact ⟨a, b, by rw [h1]; simp⟩
    obtain ⟨g, hg⟩ := removeLoop_slot (tail := tail) (show 1 ≤ (pre0 ++ [p]).length from h0) (hk ▸ hn)
    have hres : s.reserve = s := by
      unfold Slots.reserve
      rw [if_neg (by rw [hm]; simp)]
    have hr : s.removeKey (.slot (pre0 ++ [p]).length) 1 =
        ⟨pre0 ++ [p] ++ rest ++ g :: tail, (pre0 ++ [p] ++ rest).length⟩ := by
      unfold Slots.removeKey
      rw [if_neg (by omega), hm, hnn, hg]
    have hkn : x ∉ pre0 ++ [p] ++ rest := by
      rw [hk, List.nodup_append] at hn
      obtain ⟨_, h2, h3⟩ := hn
      rw [List.nodup_cons] at h2
      intro hin
      rcases List.mem_append.1 hin with hh | hh
      · exact h3 x hh x (List.mem_cons_self ..) rfl
      · exact h2.1 hh
    have herase : s.keys.eraseIdx (pre0 ++ [p]).length = pre0 ++ [p] ++ rest := by
      rw [hk, List.eraseIdx_append_of_length_le (le_refl _)]; simp
    refine ⟨⟨p :: (pre0 ++ [p] ++ rest ++ tail), (pre0 ++ [p] ++ rest).length + 1⟩, x, p, ?_, hx, ?_, ?_, ?_⟩
    · unfold Slots.addKey
      dsimp only
      rw [hread, if_neg (by simp [hl x hxk]), if_neg, if_neg (by simp)]
      · simp only [if_true]
        rw [hres, hr, emplace_room (by simp)]
        have e1 : (pre0 ++ [p] ++ rest ++ g :: tail).take (pre0 ++ [p] ++ rest).length = pre0 ++ [p] ++ rest :=
          List.take_left' rfl
        have e2 : (pre0 ++ [p] ++ rest ++ g :: tail).drop ((pre0 ++ [p] ++ rest).length + 1) = tail := by
          rw [← List.drop_drop, List.drop_left' rfl]; rfl
        simp only [List.take_zero, List.drop_zero, Nat.sub_zero, e1, e2, List.nil_append]
        have e3 : KeyArg.read (zeroKey :: (pre0 ++ [p] ++ rest ++ tail)) (.slot (pre0 ++ [p]).length) = p := by
          have := getD_mid (zeroKey :: pre0) p (rest ++ tail) []
          simp only [KeyArg.read]
          rw [show zeroKey :: (pre0 ++ [p] ++ rest ++ tail) = (zeroKey :: pre0) ++ p :: (rest ++ tail) by simp,
            show (pre0 ++ [p]).length = (zeroKey :: pre0).length by simp]
          exact this
        rw [e3]; rfl
      · rw [hk]
        intro hh
        apply hkn
        cases pre0 with
        | nil =>
          simp only [List.nil_append, List.singleton_append, List.head?_cons, Option.some.injEq] at hh
          rw [hh]; simp
        | cons a t =>
          simp only [List.cons_append, List.head?_cons, Option.some.injEq] at hh
          rw [hh]; simp
    · rw [hk, List.length_append, List.length_singleton, Nat.add_sub_cancel]
      rw [List.append_assoc]
      simp
    · rw [herase]
      unfold Slots.keys
      dsimp only
      rw [List.take_succ_cons, List.take_left' rfl]
    · unfold Slots.keys
      dsimp only
      rw [List.take_succ_cons, List.take_left' rfl, List.mem_cons]
      rintro (hh | hh)
      · exact hkn (by rw [hh]; simp)
      · exact hkn hh

/-- Adding views of slots that no longer are elements: each becomes a zero key. -/
theorem addAll_own : ∀ (todo tail : List Bytes) (m : Nat), (∀ k ∈ todo, k.length = 32 ∧ k ≠ zeroKey) →
    ∃ s', Slots.addAll ⟨List.replicate m zeroKey ++ (todo ++ tail), m⟩ ((List.range' m todo.length).map .slot) = .ok s' ∧
      s'.keys = List.replicate (m + todo.length) zeroKey
  | [], tail, m, _ => ⟨_, rfl, by unfold Slots.keys; simp⟩
  | k :: todo, tail, m, h => by
    obtain ⟨hk1, hk2⟩ := h k (List.mem_cons_self ..)
    have hread : KeyArg.read (List.replicate m zeroKey ++ (k :: todo ++ tail)) (.slot m) = k := by
      have := getD_mid (List.replicate m zeroKey) k (todo ++ tail) []
      rw [List.length_replicate] at this; exact this
    have hkeys : Slots.keys ⟨List.replicate m zeroKey ++ (k :: todo ++ tail), m⟩ = List.replicate m zeroKey := by
      unfold Slots.keys; exact List.take_left' (List.length_replicate ..)
    have hadd : Slots.addKey ⟨List.replicate m zeroKey ++ (k :: todo ++ tail), m⟩ (.slot m) false =
        .ok ⟨List.replicate (m + 1) zeroKey ++ (todo ++ tail), m + 1⟩ := by
      have hnk : k ∉ List.replicate m zeroKey := fun hh => hk2 (List.eq_of_mem_replicate hh)
      have hres : Slots.reserve ⟨List.replicate m zeroKey ++ (k :: todo ++ tail), m⟩ =
          ⟨List.replicate m zeroKey ++ (k :: todo ++ tail), m⟩ := by
        unfold Slots.reserve; rw [if_neg (by simp)]
      have e1 : (List.replicate m zeroKey ++ (k :: todo ++ tail)).take m = List.replicate m zeroKey :=
        List.take_left' (List.length_replicate ..)
      have e2 : (List.replicate m zeroKey ++ (k :: todo ++ tail)).drop (m + 1) = todo ++ tail := by
        rw [← List.drop_drop, List.drop_left' (List.length_replicate ..)]; rfl
      have e3 : List.replicate m zeroKey ++ zeroKey :: (todo ++ tail) = List.replicate (m + 1) zeroKey ++ (todo ++ tail) := by
        rw [List.replicate_succ']; simp
      unfold Slots.addKey
      dsimp only
      rw [hread, hkeys, if_neg (by simp [hk1]), if_neg (show ¬ (List.replicate m zeroKey).head? = some k from fun hh => hnk (List.mem_of_mem_head? hh)), if_neg (by simpa using hnk)]
      simp only [Bool.false_eq_true, if_false, hres]
      rw [emplace_room (by simp)]
      simp only [e1, e2, Nat.sub_self, List.take_zero, List.nil_append]
      have e4 : KeyArg.read (List.replicate m zeroKey ++ zeroKey :: (todo ++ tail)) (.slot m) = zeroKey := by
        have := getD_mid (List.replicate m zeroKey) zeroKey (todo ++ tail) []
        rw [List.length_replicate] at this; exact this
      have e5 := set_mid (List.replicate m zeroKey) zeroKey zeroKey (todo ++ tail)
      rw [List.length_replicate] at e5
      rw [e4, e5, e3]
    rw [List.length_cons, List.range'_succ, List.map_cons]
    show ∃ s', (Slots.addKey _ _ _).bind _ = _ ∧ _
    rw [hadd]
    obtain ⟨s', h1, h2⟩ := addAll_own todo tail (m + 1) (fun k hk => h k (List.mem_cons_of_mem _ hk))
    exact ⟨s', h1, by rw [h2]; congr 1; omega⟩

/-- C151.  `replace_keys(get_keys())`, which should change nothing, replaces every key with 32 zero bytes, so that the next push is
encrypted with a key everybody knows. -/
theorem replace_own {s : Slots} (h : s.Ok) (h0 : 0 < s.n) (hl : ∀ k ∈ s.keys, k.length = 32 ∧ k ≠ zeroKey) :
    ∃ s', s.replaceKeys s.getKeys = .ok s' ∧ s'.keys = List.replicate s.n zeroKey := by
  obtain ⟨h1, h2⟩ := slots_split h
  obtain ⟨s', e1, e2⟩ := addAll_own s.keys (s.mem.drop s.n) 0 hl
  have hg : s.getKeys = (List.range' 0 s.keys.length).map .slot := by
    unfold Slots.getKeys; rw [h2, List.range_eq_range']
  refine ⟨s', ?_, by rw [e2, h2, Nat.zero_add]⟩
  rw [List.replicate_zero, List.nil_append, ← h1, ← hg] at e1
  unfold Slots.replaceKeys
  have hne : s.getKeys ≠ [] := by
    unfold Slots.getKeys; simp; omega
  split
  · rename_i he; exact absurd he hne
  · rw [if_neg, e1]
    rw [Bool.not_eq_true, List.any_eq_false]
    intro a ha
    unfold Slots.getKeys at ha
    obtain ⟨i, hi, rfl⟩ := List.mem_map.1 ha
    rw [List.mem_range] at hi
    obtain ⟨pre, x, rest, tail, hm, hk, rfl, hnn, hx⟩ := slots_at h hi
    have : KeyArg.read s.mem (.slot pre.length) = x := by
      rw [hm]; exact getD_mid _ _ _ _
    rw [this]
    simp [(hl x (List.mem_of_getElem? hx)).1]

theorem reserve_same {s : Slots} (h : s.Ok) : s.reserve.Ok ∧ s.reserve.keys = s.keys ∧ s.reserve.n = s.n := by
  unfold Slots.reserve
  split
  · rename_i he
    have hn : s.n = 0 := by unfold Slots.Ok at h; rw [he] at h; simpa using h
    refine ⟨by unfold Slots.Ok; simp, ?_, hn.symm⟩
    unfold Slots.keys; simp [he]
  · exact ⟨h, rfl, rfl⟩

theorem emplace_keys {s : Slots} (h : s.Ok) {pos : Nat} (hp : pos ≤ s.n) (k : Bytes) :
    (s.emplace pos).1.n = s.n + 1 ∧ s.n + 1 ≤ ((s.emplace pos).1.mem.set pos k).length ∧
    ((s.emplace pos).1.mem.set pos k).take (s.n + 1) = s.keys.take pos ++ k :: s.keys.drop pos := by
  unfold Slots.Ok at h
  have h1 : (s.mem.take pos).length = pos := by rw [List.length_take]; omega
  have h2 : ((s.mem.drop pos).take (s.n - pos)).length = s.n - pos := by
    rw [List.length_take, List.length_drop]; omega
  have hk1 : s.keys.take pos = s.mem.take pos := by unfold Slots.keys; rw [List.take_take, min_eq_left hp]
  have hk2 : s.keys.drop pos = (s.mem.drop pos).take (s.n - pos) := by unfold Slots.keys; rw [List.drop_take]
  have main : ∀ z : List Bytes,
      s.n + 1 ≤ ((s.mem.take pos ++ zeroKey :: ((s.mem.drop pos).take (s.n - pos) ++ z)).set pos k).length ∧
      ((s.mem.take pos ++ zeroKey :: ((s.mem.drop pos).take (s.n - pos) ++ z)).set pos k).take (s.n + 1) =
        s.keys.take pos ++ k :: s.keys.drop pos := fun z => by
    have := set_mid (s.mem.take pos) zeroKey k ((s.mem.drop pos).take (s.n - pos) ++ z)
    rw [h1] at this
    rw [this, hk1, hk2]
    have hlen : (s.mem.take pos ++ k :: (s.mem.drop pos).take (s.n - pos)).length = s.n + 1 := by
      rw [List.length_append, List.length_cons, h1, h2]; omega
    have e : s.mem.take pos ++ k :: ((s.mem.drop pos).take (s.n - pos) ++ z) =
      (s.mem.take pos ++ k :: (s.mem.drop pos).take (s.n - pos)) ++ z := by simp
    rw [e]
    exact ⟨by rw [List.length_append, hlen]; omega, List.take_left' hlen⟩
  unfold Slots.emplace
  split
  · exact ⟨rfl, main _⟩
  · exact ⟨rfl, main _⟩

/-- C151.  With keys stored elsewhere the memory does what the list of Client.lean does: `add_key`, whether or not the vector has to
grow. -/
theorem add_copy (S : Sys) {c : Client} {s : Slots} (h : s.Ok) (hc : c.keys = s.keys) (k : Bytes) (high : Bool) :
    (k.length ≠ 32 → s.addKey (.copy k) high = .err .foreign) ∧
    (k.length = 32 → ∃ s', s.addKey (.copy k) high = .ok s' ∧ s'.Ok ∧ (c.addKey S k high false).1.keys = s'.keys) := by
  refine ⟨fun hk => ?_, fun hk => ?_⟩
  · unfold Slots.addKey
    exact if_pos hk
  unfold Slots.addKey Client.addKey
  dsimp only
  rw [if_neg (show ¬ (KeyArg.read s.mem (.copy k)).length ≠ 32 from fun h => h hk),
    if_neg (show ¬ k.length ≠ 32 from fun h => h hk), show KeyArg.read s.mem (.copy k) = k from rfl, hc]
  by_cases h1 : s.keys.head? = some k
  · rw [if_pos h1, if_pos h1]; exact ⟨s, rfl, h, hc⟩
  rw [if_neg h1, if_neg h1]
  by_cases h2 : (!high && decide (k ∈ s.keys)) = true
  · rw [if_pos h2, if_pos h2]; exact ⟨s, rfl, h, hc⟩
  rw [if_neg h2, if_neg h2]
  simp only [Bool.false_and, Bool.false_eq_true, if_false]
  obtain ⟨r1, r2, r3⟩ := reserve_same h
  cases high with
  | false =>
    simp only [Bool.false_eq_true, if_false]
    obtain ⟨e1, e2, e3⟩ := emplace_keys r1 (le_refl s.reserve.n) k
    refine ⟨⟨(s.reserve.emplace s.reserve.n).1.mem.set s.reserve.n k, (s.reserve.emplace s.reserve.n).1.n⟩, ?_, ?_, ?_⟩
    · rfl
    · unfold Slots.Ok; rw [e1]; exact e2
    · unfold Slots.keys at e3 ⊢
      dsimp only
      rw [e1, e3]
      show c.keys ++ [k] = _
      have hl : s.reserve.keys.length = s.reserve.n := (slots_split r1).2
      show c.keys ++ [k] = s.reserve.keys.take s.reserve.n ++ k :: s.reserve.keys.drop s.reserve.n
      rw [hc, ← r2, List.take_of_length_le (by omega), List.drop_of_length_le (by omega)]
  | true =>
    simp only [if_true]
    obtain ⟨q1, _, q3⟩ := remove_copy r1 k 1
    obtain ⟨e1, e2, e3⟩ := emplace_keys q1 (Nat.zero_le _) k
    refine ⟨⟨((s.reserve.removeKey (.copy k) 1).emplace 0).1.mem.set 0 k, ((s.reserve.removeKey (.copy k) 1).emplace 0).1.n⟩, rfl, ?_, ?_⟩
    · unfold Slots.Ok; rw [e1]; exact e2
    · have hkk : (⟨((s.reserve.removeKey (.copy k) 1).emplace 0).1.mem.set 0 k,
          ((s.reserve.removeKey (.copy k) 1).emplace 0).1.n⟩ : Slots).keys = k :: (s.reserve.removeKey (.copy k) 1).keys := by
        show List.take _ _ = _
        rw [e1]; exact e3.trans (by simp)
      rw [hkk, q3]
      show k :: (c.removeKey S k 1 false).1.keys = _
      congr 1
      have hl := (slots_split h).2
      rw [r2, r3]
      unfold Client.removeKey
      rw [hc]
      cases hks : s.keys with
      | nil =>
        rw [hks] at hl
        rw [if_pos (by rw [← hl]; simp)]
        exact hc.trans hks
      | cons a t =>
        rw [hks] at hl
        dsimp only
        rw [hl]
        by_cases hn : s.n ≤ 1
        · rw [if_pos hn, if_pos hn]; exact hc.trans hks
        · rw [if_neg hn, if_neg hn]; simp

/-- ... and `remove_key`. -/
theorem remove_copy_eq (S : Sys) {c : Client} {s : Slots} (h : s.Ok) (hc : c.keys = s.keys) (k : Bytes) (start : Nat) :
    (c.removeKey S k start false).1.keys = (s.removeKey (.copy k) start).keys := by
  have hl := (slots_split h).2
  rw [(remove_copy h k start).2.2]
  unfold Client.removeKey
  rw [hc]
  cases hks : s.keys with
  | nil =>
    rw [hks] at hl
    rw [if_pos (by rw [← hl]; simp)]
    exact hc.trans hks
  | cons a t =>
    rw [hks] at hl
    dsimp only
    rw [hl]
    by_cases hn : s.n ≤ start
    · rw [if_pos hn, if_pos hn]; exact hc.trans hks
    · rw [if_neg hn, if_neg hn]; simp

/-- An object with three keys, and the calls `add_key(key(1))`, `add_key(key(2))`, `remove_key(key(0))`, `replace_keys(get_keys())`. -/
def exSlots : Slots := ⟨[List.replicate 32 1, List.replicate 32 2, List.replicate 32 3, List.replicate 32 219], 3⟩

example : exSlots.Ok ∧ exSlots.keys.Nodup ∧ (∀ k ∈ exSlots.keys, k.length = 32 ∧ k ≠ zeroKey) ∧
    (exSlots.addKey (.slot 1) true).toOption.map Slots.keys =
      some [List.replicate 32 1, List.replicate 32 1, List.replicate 32 3] ∧
    (exSlots.addKey (.slot 2) true).toOption.map Slots.keys =
      some [List.replicate 32 2, List.replicate 32 1, List.replicate 32 2] ∧
    (exSlots.addKey (.copy (List.replicate 32 2)) true).toOption.map Slots.keys =
      some [List.replicate 32 2, List.replicate 32 1, List.replicate 32 3] ∧
    (exSlots.removeKey (.slot 0) 0).keys = [List.replicate 32 2, List.replicate 32 3] ∧
    (exSlots.replaceKeys exSlots.getKeys).toOption.map Slots.keys = some [zeroKey, zeroKey, zeroKey] := by
  refine ⟨?_, ?_⟩
  · show 3 ≤ 4; omega
  · decide +kernel

end Verif
