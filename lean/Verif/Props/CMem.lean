import Verif.CMem

/-!
# The lists and records handed to C code read back
-/

namespace Verif

/-! ### What a C program does with them -/

/-- Reading the strings of an array of `n` pointers -/
def readStrings (b : Blk) (ptr : Nat) : Nat → Out (List Bytes)
  | 0 => .ok []
  | n + 1 => (b.peekWord ptr).bind fun a => (b.cstr a).bind fun s => (readStrings b (ptr + 8) n).bind fun t => .ok (s :: t)

/-- Reading a `config_string_list` -/
def readList (b : Blk) : Out (List Bytes) :=
  (b.peekWord b.base).bind fun value => (b.peekWord (b.base + 8)).bind fun len => readStrings b value len

/-- Reading a `config_push_data` -/
def readPush (b : Blk) : Out (Nat × Bytes × List Bytes) :=
  (b.peekWord b.base).bind fun seqno =>
  (b.peekWord (b.base + 8)).bind fun config =>
  (b.peekWord (b.base + 16)).bind fun len =>
  (b.peek config len).bind fun data =>
  (b.peekWord (b.base + 24)).bind fun obsolete =>
  (b.peekWord (b.base + 32)).bind fun n =>
  (readStrings b obsolete n).bind fun obs => .ok (seqno, data, obs)

/-! ### Blocks -/

/-- The bytes at an address of the block -/
def Blk.Holds (b : Blk) (addr : Nat) (bs : Bytes) : Prop :=
  b.base ≤ addr ∧ ∃ l r, b.mem = l ++ bs ++ r ∧ l.length = addr - b.base

theorem Blk.Holds.peek {b : Blk} {addr : Nat} {bs : Bytes} (h : b.Holds addr bs) : b.peek addr bs.length = .ok bs := by
  obtain ⟨h1, l, r, e, hl⟩ := h
  unfold Blk.peek
  rw [if_pos ⟨h1, by rw [e]; simp; omega⟩, e, ← hl, List.append_assoc, List.drop_left, List.take_left]

theorem Blk.Holds.peekWord {b : Blk} {addr v : Nat} (h : b.Holds addr (leBytes 8 v)) (hv : v < 2 ^ 64) : b.peekWord addr = .ok v := by
  have := h.peek
  rw [leBytes_length] at this
  unfold Blk.peekWord
  rw [this]
  show Out.ok _ = _
  rw [leNat_leBytes_of_lt (by norm_num; exact hv)]

theorem upToNul_append_nul (v r : Bytes) : upToNul (v ++ 0 :: r) = upToNul v := by
  unfold upToNul
  induction v with
  | nil => simp
  | cons a t ih =>
    by_cases ha : a = 0
    · simp [ha]
    · simp [ha]; simpa using ih

theorem Blk.Holds.cstr {b : Blk} {addr : Nat} {v : Bytes} (h : b.Holds addr (v ++ [0])) : b.cstr addr = .ok (upToNul v) := by
  obtain ⟨h1, l, r, e, hl⟩ := h
  have hd : b.mem.drop (addr - b.base) = v ++ 0 :: r := by
    rw [e, ← hl, List.append_assoc, List.drop_left]; simp
  unfold Blk.cstr
  rw [hd, if_pos ⟨h1, by rw [e]; simp; omega, by simp⟩, upToNul_append_nul]

theorem Blk.Holds.keep {b : Blk} {addr a : Nat} {bs x : Bytes} (h : b.Holds a x) (h1 : b.base ≤ addr)
    (hd : a + x.length ≤ addr ∨ addr + bs.length ≤ a) (hl : addr - b.base + bs.length ≤ b.mem.length) :
    Blk.Holds { b with mem := b.mem.take (addr - b.base) ++ bs ++ b.mem.drop (addr - b.base + bs.length) } a x := by
  obtain ⟨h2, l, r, e, hl2⟩ := h
  refine ⟨h2, ?_⟩
  rcases hd with hd | hd
  · refine ⟨l, r.take (addr - a - x.length) ++ bs ++ b.mem.drop (addr - b.base + bs.length), ?_, hl2⟩
    show b.mem.take _ ++ bs ++ _ = _
    have : b.mem.take (addr - b.base) = l ++ x ++ r.take (addr - a - x.length) := by
      have h3 : addr - b.base = (l ++ x).length + (addr - a - x.length) := by simp; omega
      rw [e, h3, List.take_length_add_append]
    rw [this]; simp
  · refine ⟨b.mem.take (addr - b.base) ++ bs ++ l.drop (addr - b.base + bs.length), r, ?_, ?_⟩
    · show b.mem.take _ ++ bs ++ _ = _
      have : b.mem.drop (addr - b.base + bs.length) = l.drop (addr - b.base + bs.length) ++ x ++ r := by
        rw [e, List.append_assoc, List.drop_append_of_le_length (by omega)]; simp
      rw [this]; simp
    · show _ = a - b.base
      simp
      omega

/-- A write inside the block -/
theorem Blk.poke_ok {b : Blk} {addr : Nat} {bs : Bytes} (h1 : b.base ≤ addr) (h2 : addr + bs.length ≤ b.base + b.mem.length) :
    ∃ b', b.poke addr bs = .ok b' ∧ b'.base = b.base ∧ b'.mem.length = b.mem.length ∧ b'.Holds addr bs ∧
      ∀ a x, (a + x.length ≤ addr ∨ addr + bs.length ≤ a) → b.Holds a x → b'.Holds a x := by
  refine ⟨_, if_pos ⟨h1, by omega⟩, rfl, ?_, ⟨h1, b.mem.take (addr - b.base), b.mem.drop (addr - b.base + bs.length), rfl, ?_⟩, ?_⟩
  · simp; omega
  · simp; omega
  · intro a x hd h
    exact h.keep h1 hd (by omega)

theorem fillList_ok : ∀ (vals : List Bytes) (p q : Nat) (b : Blk), b.base ≤ p → p + 8 * vals.length ≤ q →
    q + (vals.map fun v => v.length + 1).sum ≤ b.base + b.mem.length → b.base + b.mem.length ≤ 2 ^ 64 →
    ∃ b', fillList vals p q b = .ok b' ∧ b'.base = b.base ∧ b'.mem.length = b.mem.length ∧
      readStrings b' p vals.length = .ok (vals.map upToNul) ∧
      ∀ a x, (a + x.length ≤ p ∨ p + 8 * vals.length ≤ a ∧ a + x.length ≤ q) → b.Holds a x → b'.Holds a x
  | [], p, q, b, _, _, _, _ => ⟨b, rfl, rfl, rfl, rfl, fun _ _ _ h => h⟩
  | v :: vs, p, q, b, hb, hp, hq, hm => by
    simp only [List.map_cons, List.sum_cons, List.length_cons] at hp hq
    obtain ⟨b1, e1, s1, l1, w1, k1⟩ := Blk.poke_ok (b := b) (addr := p) (bs := leBytes 8 q) hb (by simp; omega)
    obtain ⟨b2, e2, s2, l2, w2, k2⟩ := Blk.poke_ok (b := b1) (addr := q) (bs := v ++ [0]) (by omega) (by simp; omega)
    obtain ⟨b3, e3, s3, l3, r3, k3⟩ := fillList_ok vs (p + 8) (q + (v.length + 1)) b2 (by omega) (by omega) (by omega) (by omega)
    refine ⟨b3, ?_, by omega, by omega, ?_, ?_⟩
    · show (b.poke p (leBytes 8 q)).bind _ = _
      rw [e1]
      show (b1.poke q (v ++ [0])).bind _ = _
      rw [e2]
      exact e3
    · have hw : b3.Holds p (leBytes 8 q) := k3 _ _ (by simp) (k2 _ _ (by simp; omega) w1)
      have hs : b3.Holds q (v ++ [0]) := k3 _ _ (by simp; omega) w2
      show (b3.peekWord p).bind _ = _
      rw [hw.peekWord (by omega)]
      show (b3.cstr q).bind _ = _
      rw [hs.cstr]
      show (readStrings b3 (p + 8) vs.length).bind _ = _
      rw [r3]
      rfl
    · intro a x h hx
      simp only [List.length_cons] at h
      exact k3 _ _ (by omega) (k2 _ _ (by simp; omega) (k1 _ _ (by simp; omega) hx))

/-- **C108, lists.** In a block of the size computed, at any address and whatever it contained, `make_string_list` stays
within the block, and a C program reading the list finds the strings (up to a NUL they may contain). -/
theorem make_string_list_ok (vals : List Bytes) (b : Blk) (hb : b.mem.length = listSize vals) (hm : b.base + b.mem.length < 2 ^ 64) :
    ∃ b', makeStringList vals b = .ok b' ∧ b'.base = b.base ∧ readList b' = .ok (vals.map upToNul) := by
  unfold listSize at hb
  obtain ⟨b1, e1, s1, l1, w1, k1⟩ := Blk.poke_ok (b := b) (addr := b.base + 8) (bs := leBytes 8 vals.length) (by omega) (by simp; omega)
  obtain ⟨b2, e2, s2, l2, w2, k2⟩ := Blk.poke_ok (b := b1) (addr := b1.base) (bs := leBytes 8 (b1.base + 16)) (by omega) (by simp; omega)
  obtain ⟨b3, e3, s3, l3, r3, k3⟩ := fillList_ok vals (b2.base + 16) (b2.base + 16 + 8 * vals.length) b2 (by omega) (by omega)
    (by omega) (by omega)
  refine ⟨b3, ?_, by omega, ?_⟩
  · show (b.poke (b.base + 8) (leBytes 8 vals.length)).bind _ = _
    rw [e1]
    show (b1.poke b1.base (leBytes 8 (b1.base + 16))).bind _ = _
    rw [e2]
    exact e3
  · have hw : b3.Holds b3.base (leBytes 8 (b1.base + 16)) := by
      rw [s3, s2]
      exact k3 _ _ (by simp; omega) w2
    have hl : b3.Holds (b3.base + 8) (leBytes 8 vals.length) := by
      rw [s3, s2, s1]
      exact k3 _ _ (by simp; omega) (k2 _ _ (by simp; omega) w1)
    show (b3.peekWord b3.base).bind _ = _
    rw [hw.peekWord (by omega)]
    show (b3.peekWord (b3.base + 8)).bind _ = _
    rw [hl.peekWord (by omega)]
    show readStrings b3 (b1.base + 16) vals.length = _
    rw [← s2]
    exact r3

theorem fillObs_ok : ∀ (obs : List Bytes) (p q : Nat) (b : Blk), b.base ≤ p → p + 8 * obs.length ≤ q →
    q + (obs.map (·.length)).sum + obs.length ≤ b.base + b.mem.length → b.base + b.mem.length ≤ 2 ^ 64 →
    ∃ b', fillObs obs p q b = .ok b' ∧ b'.base = b.base ∧ b'.mem.length = b.mem.length ∧
      readStrings b' p obs.length = .ok (obs.map upToNul) ∧
      ∀ a x, (a + x.length ≤ p ∨ p + 8 * obs.length ≤ a ∧ a + x.length ≤ q) → b.Holds a x → b'.Holds a x
  | [], p, q, b, _, _, _, _ => ⟨b, rfl, rfl, rfl, rfl, fun _ _ _ h => h⟩
  | v :: vs, p, q, b, hb, hp, hq, hm => by
    simp only [List.map_cons, List.sum_cons, List.length_cons] at hp hq
    obtain ⟨b1, e1, s1, l1, w1, k1⟩ := Blk.poke_ok (b := b) (addr := q) (bs := v ++ [0]) (by omega) (by simp; omega)
    obtain ⟨b2, e2, s2, l2, w2, k2⟩ := Blk.poke_ok (b := b1) (addr := p) (bs := leBytes 8 q) (by omega) (by simp; omega)
    obtain ⟨b3, e3, s3, l3, r3, k3⟩ := fillObs_ok vs (p + 8) (q + (v.length + 1)) b2 (by omega) (by omega) (by omega) (by omega)
    refine ⟨b3, ?_, by omega, by omega, ?_, ?_⟩
    · show (b.poke q (v ++ [0])).bind _ = _
      rw [e1]
      show (b1.poke p (leBytes 8 q)).bind _ = _
      rw [e2]
      exact e3
    · have hw : b3.Holds p (leBytes 8 q) := k3 _ _ (by simp) w2
      have hs : b3.Holds q (v ++ [0]) := k3 _ _ (by simp; omega) (k2 _ _ (by simp; omega) w1)
      show (b3.peekWord p).bind _ = _
      rw [hw.peekWord (by omega)]
      show (b3.cstr q).bind _ = _
      rw [hs.cstr]
      show (readStrings b3 (p + 8) vs.length).bind _ = _
      rw [r3]
      rfl
    · intro a x h hx
      simp only [List.length_cons] at h
      exact k3 _ _ (by omega) (k2 _ _ (by simp; omega) (k1 _ _ (by simp; omega) hx))

/-- **C108, pushes.** In a block of the size computed, `config_push` stays within the block, and a C program reading the
record finds the sequence number, the message and the obsolete hashes. -/
theorem config_push_ok (seqno : Nat) (data : Bytes) (obs : List Bytes) (b : Blk) (hq : seqno < 2 ^ 64)
    (hb : b.mem.length = pushSize data obs) (hm : b.base + b.mem.length < 2 ^ 64) :
    ∃ b', makePushData seqno data obs b = .ok b' ∧ b'.base = b.base ∧ readPush b' = .ok (seqno, data, obs.map upToNul) := by
  unfold pushSize at hb
  obtain ⟨b1, e1, s1, l1, w1, k1⟩ := Blk.poke_ok (b := b) (addr := b.base) (bs := leBytes 8 seqno) (by omega) (by simp; omega)
  obtain ⟨b2, e2, s2, l2, w2, k2⟩ := Blk.poke_ok (b := b1) (addr := b1.base + 24) (bs := leBytes 8 (b1.base + 40)) (by omega) (by simp; omega)
  obtain ⟨b3, e3, s3, l3, w3, k3⟩ := Blk.poke_ok (b := b2) (addr := b2.base + 32) (bs := leBytes 8 obs.length) (by omega) (by simp; omega)
  obtain ⟨b4, e4, s4, l4, w4, k4⟩ := Blk.poke_ok (b := b3) (addr := b3.base + 8) (bs := leBytes 8 (b3.base + 40 + 8 * obs.length)) (by omega) (by simp; omega)
  obtain ⟨b5, e5, s5, l5, w5, k5⟩ := Blk.poke_ok (b := b4) (addr := b4.base + 16) (bs := leBytes 8 data.length) (by omega) (by simp; omega)
  obtain ⟨b6, e6, s6, l6, w6, k6⟩ := Blk.poke_ok (b := b5) (addr := b5.base + 40 + 8 * obs.length) (bs := data) (by omega) (by omega)
  obtain ⟨b7, e7, s7, l7, r7, k7⟩ := fillObs_ok obs (b6.base + 40) (b6.base + 40 + 8 * obs.length + data.length) b6 (by omega) (by omega)
    (by omega) (by omega)
  refine ⟨b7, ?_, by omega, ?_⟩
  · show (b.poke b.base (leBytes 8 seqno)).bind _ = _
    rw [e1]
    show (b1.poke (b1.base + 24) (leBytes 8 (b1.base + 40))).bind _ = _
    rw [e2]
    show (b2.poke (b2.base + 32) (leBytes 8 obs.length)).bind _ = _
    rw [e3]
    show (b3.poke (b3.base + 8) (leBytes 8 (b3.base + 40 + 8 * obs.length))).bind _ = _
    rw [e4]
    show (b4.poke (b4.base + 16) (leBytes 8 data.length)).bind _ = _
    rw [e5]
    show (b5.poke (b5.base + 40 + 8 * obs.length) data).bind _ = _
    rw [e6]
    exact e7
  · have h1 : b7.Holds b7.base (leBytes 8 seqno) := by
      rw [show b7.base = b.base by omega]
      exact k7 _ _ (by simp; omega) (k6 _ _ (by simp; omega) (k5 _ _ (by simp; omega) (k4 _ _ (by simp; omega)
        (k3 _ _ (by simp; omega) (k2 _ _ (by simp; omega) w1)))))
    have h2 : b7.Holds (b7.base + 24) (leBytes 8 (b1.base + 40)) := by
      rw [show b7.base = b1.base by omega]
      exact k7 _ _ (by simp; omega) (k6 _ _ (by simp; omega) (k5 _ _ (by simp; omega) (k4 _ _ (by simp; omega)
        (k3 _ _ (by simp; omega) w2))))
    have h3 : b7.Holds (b7.base + 32) (leBytes 8 obs.length) := by
      rw [show b7.base = b2.base by omega]
      exact k7 _ _ (by simp; omega) (k6 _ _ (by simp; omega) (k5 _ _ (by simp; omega) (k4 _ _ (by simp; omega) w3)))
    have h4 : b7.Holds (b7.base + 8) (leBytes 8 (b3.base + 40 + 8 * obs.length)) := by
      rw [show b7.base = b3.base by omega]
      exact k7 _ _ (by simp; omega) (k6 _ _ (by simp; omega) (k5 _ _ (by simp; omega) w4))
    have h5 : b7.Holds (b7.base + 16) (leBytes 8 data.length) := by
      rw [show b7.base = b4.base by omega]
      exact k7 _ _ (by simp; omega) (k6 _ _ (by simp; omega) w5)
    have h6 : b7.Holds (b3.base + 40 + 8 * obs.length) data := by
      rw [show b3.base = b5.base by omega]
      exact k7 _ _ (by omega) w6
    show (b7.peekWord b7.base).bind _ = _
    rw [h1.peekWord hq]
    show (b7.peekWord (b7.base + 8)).bind _ = _
    rw [h4.peekWord (by omega)]
    show (b7.peekWord (b7.base + 16)).bind _ = _
    rw [h5.peekWord (by omega)]
    show (b7.peek (b3.base + 40 + 8 * obs.length) data.length).bind _ = _
    rw [h6.peek]
    show (b7.peekWord (b7.base + 24)).bind _ = _
    rw [h2.peekWord (by omega)]
    show (b7.peekWord (b7.base + 32)).bind _ = _
    rw [h3.peekWord (by omega)]
    show (readStrings b7 (b1.base + 40) obs.length).bind _ = _
    rw [show b1.base = b6.base by omega, r7]
    rfl

theorem fillKeys_ok : ∀ (ks : List Bytes) (pre : Bytes) (b : Blk), (∀ k ∈ ks, k.length = 32) →
    b.mem.take pre.length = pre → b.mem.length = pre.length + 32 * ks.length →
    fillKeys ks (b.base + pre.length) b = .ok { b with mem := pre ++ ks.flatten }
  | [], pre, b, _, hp, hl => by
    have : b.mem = pre := by rw [← hp, List.take_of_length_le]; simpa using hl.le
    cases b
    simp_all [fillKeys]
  | k :: ks, pre, b, hk, hp, hl => by
    have h32 : k.length = 32 := hk k (by simp)
    simp only [List.length_cons] at hl
    have ht : k.take 32 = k := List.take_of_length_le (by omega)
    unfold fillKeys
    rw [if_neg (by omega), ht]
    unfold Blk.poke
    rw [if_pos ⟨by omega, by omega⟩]
    have e : b.base + pre.length - b.base = pre.length := by omega
    rw [e, hp]
    have := fillKeys_ok ks (pre ++ k) { b with mem := pre ++ k ++ b.mem.drop (pre.length + k.length) }
      (fun x hx => hk x (by simp [hx])) (List.take_left' rfl) (by simp; omega)
    rw [List.length_append, h32, ← Nat.add_assoc] at this
    rw [h32]
    refine this.trans ?_
    simp

/-- **C108, keys.** The buffer of `config_get_keys` is filled with the keys, 32 bytes each, in order. -/
theorem config_get_keys_ok {ks : List Bytes} (h : ∀ k ∈ ks, k.length = 32) (b : Blk) (hb : b.mem.length = 32 * ks.length) :
    fillKeys ks b.base b = .ok { b with mem := ks.flatten } := by
  have := fillKeys_ok ks [] b h rfl (by simpa using hb)
  simpa using this

/-! ### Instances -/

/-- A list of three strings, one empty and one with a NUL, in a block full of ones at address 4096 -/
example : ((makeStringList [[104, 105], [], [1, 0, 2]] ⟨4096, List.replicate 48 1⟩).bind readList) = .ok [[104, 105], [], [1]] := by
  decide +kernel

example : listSize [[104, 105], [], [1, 0, 2]] = 48 := by decide

/-- A push with two obsolete hashes -/
example : ((makePushData 7 [9, 0, 9] [[97], [98, 99]] ⟨4096, List.replicate (pushSize [9, 0, 9] [[97], [98, 99]]) 1⟩).bind readPush)
    = .ok (7, [9, 0, 9], [[97], [98, 99]]) := by
  decide +kernel

/-- One byte less and the last NUL is written outside -/
example : makeStringList [[104, 105]] ⟨4096, List.replicate 26 1⟩ = .ub := by rfl

end Verif
