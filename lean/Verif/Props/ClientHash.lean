import Verif.Props.ClientNet

/-!
# Message hashes: what a merge returns, the current hash, obsolete hashes
-/

namespace Verif

/-! ## C36 -/

/-- The given message is decryptable, unpacks, and is a valid config message. -/
def accepts (S : Sys) (keys : List Bytes) (raw : Bytes) : Bool :=
  match receive S keys raw with
  | some b => (parseMsg S.env false b).isOk
  | none => false

theorem gather_accepted (S : Sys) (keys : List Bytes) (configs : List (Bytes × Bytes)) :
    ((gather S keys configs).filter fun p => (parseMsg S.env false p.2).isOk).map (·.1) =
      (configs.filter fun p => accepts S keys p.2).map (·.1) := by
  unfold gather
  induction configs with
  | nil => rfl
  | cons a t ih =>
    rw [List.filterMap_cons]
    cases hr : receive S keys a.2 with
    | none =>
      simp only [Option.map_none]
      rw [ih, List.filter_cons]
      simp [accepts, hr]
    | some b =>
      simp only [Option.map_some]
      rw [List.filter_cons, List.filter_cons]
      have : accepts S keys a.2 = (parseMsg S.env false b).isOk := by simp [accepts, hr]
      rw [this]
      split <;> simp [ih]

/-- C36.  What a merge returns: exactly the hashes of the given messages that could be decrypted with
one of the object's keys and are valid config messages (signature included), in the order given. -/
theorem merge_returns_accepted {S : Sys} {c : Client} {configs : List (Bytes × Bytes)} {hs : List Bytes}
    (hS : S.Good) (hr : Reach S c) (hf : ∀ p ∈ gather S c.keys configs, Fair S.env p.2)
    (hc : NoCollision S.env ((c.allConfs S.env (gather S c.keys configs)).map (·.2)))
    (h : (c.merge S configs).2 = .ok hs) :
    hs = (configs.filter fun p => accepts S c.keys p.2).map (·.1) := by
  have hsafe : (c.merge S configs).2.safe = true := by rw [h]; rfl
  rcases merge_cases hsafe with ⟨e, he, _⟩ | ⟨R, bad, _, hR, h1⟩
  · rw [he] at h; cases h
  · rw [h1, (absorb_cases hS (hr.inv hS) hf hc hR).1] at h
    rw [← Out.ok.inj h, goodHashes_eq hR, gather_accepted]

/-- C36.  Messages that cannot be decrypted or unpacked have no influence at all. -/
theorem junk_ignored (S : Sys) (c : Client) (configs : List (Bytes × Bytes)) :
    c.merge S configs = c.merge S (configs.filter fun p => (receive S c.keys p.2).isSome) := by
  have : gather S c.keys configs = gather S c.keys (configs.filter fun p => (receive S c.keys p.2).isSome) := by
    unfold gather
    induction configs with
    | nil => rfl
    | cons a t ih =>
      rw [List.filter_cons]
      cases hr : receive S c.keys a.2 with
      | none => simp [hr, ih]
      | some b => simp [hr, ih]
  unfold Client.merge
  rw [this]

example : accepts exSys exC0.keys exM1 = true ∧ accepts exSys exC0.keys [1, 2] = false ∧
    (exC0.merge exSys [([9], [1, 2]), ([104], exM1)]).2 = .ok [[104]] ∧
    (exC0.merge exSys [([9], [1, 2]), ([104], exM1)]).1.curr = [104] := by decide +kernel

/-- C36.  A merge in which nothing is usable, on an object that holds nothing yet, throws and leaves the
object unchanged. -/
theorem nothing_usable_throws {S : Sys} {c : Client} {configs : List (Bytes × Bytes)}
    (h0 : c.hasMine = false) (hn : ∀ p ∈ configs, receive S c.keys p.2 = none) :
    c.merge S configs = (c, .err .config) ∨ c.merge S configs = (c, .err .foreign) := by
  have hg : gather S c.keys configs = [] := by
    unfold gather
    rw [List.filterMap_eq_nil_iff]
    intro p hp
    rw [hn p hp]; rfl
  unfold Client.merge
  split
  · exact .inr rfl
  · left
    unfold Client.mergeCore
    dsimp only
    rw [hg]
    have : c.allConfs S.env [] = [] := by unfold Client.allConfs; rw [h0]; rfl
    rw [this]
    have hm : mergeMsgs S.env (List.map (fun x : Bytes × Bytes => x.2) []) = .err .config := by
      rfl
    rw [hm, h0]
    rfl

/-! ## C37: obsolete hashes -/

theorem setState_old_mem {c : Client} {s : CState} {x : Bytes} (h : x ∈ (c.setState s).old) :
    x ∈ c.old ∨ (x = c.curr ∧ c.st = .clean ∧ x ≠ []) := by
  unfold Client.setState at h
  dsimp only at h
  split at h
  · rename_i hc
    rcases mem_hinsert.1 h with rfl | h
    · exact .inr ⟨rfl, hc⟩
    · exact .inl h
  · exact .inl h

theorem mem_stale {all : List (Bytes × Bytes)} {u : Int} {bad : List Nat} {x : Bytes} :
    x ∈ staleHashes all u bad ↔
      ∃ (i : Nat) (b : Bytes), all[i]? = some (x, b) ∧ (i : Int) ≠ u ∧ i ∉ bad ∧ x ≠ [] := by
  unfold staleHashes
  simp only [List.mem_map, List.mem_filter, Bool.and_eq_true, decide_eq_true_eq, Bool.not_eq_true',
    List.contains_eq_mem, decide_eq_false_iff_not]
  constructor
  · rintro ⟨⟨⟨y, b⟩, i⟩, ⟨h1, ⟨h2, h3⟩, h4⟩, rfl⟩
    rw [List.mem_zipIdx_iff_getElem?] at h1
    exact ⟨i, b, h1, h2, h3, h4⟩
  · rintro ⟨i, b, h1, h2, h3, h4⟩
    exact ⟨((x, b), i), ⟨by rw [List.mem_zipIdx_iff_getElem?]; exact h1, ⟨h2, h3⟩, h4⟩, rfl⟩

theorem allConfs_mem {S : Sys} {c : Client} {inc : List (Bytes × Bytes)} {i : Nat} {x b : Bytes}
    (h : (c.allConfs S.env inc)[i]? = some (x, b)) :
    (c.hasMine = true ∧ i = 0 ∧ x = c.curr ∧ b = c.plain S) ∨ (x, b) ∈ inc := by
  unfold Client.allConfs at h
  cases hm : c.hasMine with
  | false =>
    rw [hm] at h
    simp only [Bool.false_eq_true, if_false, List.nil_append] at h
    exact .inr (List.mem_of_getElem? h)
  | true =>
    rw [hm] at h
    simp only [if_true, List.singleton_append] at h
    cases i with
    | zero =>
      simp only [List.getElem?_cons_zero, Option.some.injEq, Prod.mk.injEq] at h
      exact .inl ⟨rfl, rfl, h.1.symm, h.2.symm⟩
    | succ i =>
      rw [List.getElem?_cons_succ] at h
      exact .inr (List.mem_of_getElem? h)

/-- C37.  A merge makes obsolete only hashes it has been told about: those already obsolete, the
current hash of the config it held, and hashes of accepted incoming messages - never the hash of a
message that could not be decrypted or is invalid. -/
theorem merge_obsolete {S : Sys} (hS : S.Good) {c : Client} (hr : Reach S c)
    {configs : List (Bytes × Bytes)} (hf : ∀ p ∈ gather S c.keys configs, Fair S.env p.2)
    (hc : NoCollision S.env ((c.allConfs S.env (gather S c.keys configs)).map (·.2)))
    (hs : (c.merge S configs).2.safe = true) {x : Bytes} (hx : x ∈ (c.merge S configs).1.old) :
    x ∈ c.old ∨ x = c.curr ∨ x ∈ (configs.filter fun p => accepts S c.keys p.2).map (·.1) := by
  rcases merge_cases hs with ⟨e, he, h1 | h1⟩ | ⟨R, bad, _, hR, h1⟩
  · rw [h1] at hx; exact .inl hx
  · rw [h1] at hx; exact .inl hx
  · have hnoted : x ∈ (c.noted (c.allConfs S.env (gather S c.keys configs)) R bad).old →
        x ∈ c.old ∨ x = c.curr ∨ x ∈ (configs.filter fun p => accepts S c.keys p.2).map (·.1) := by
      intro hn
      unfold Client.noted at hn
      dsimp only at hn
      rw [mem_hinsertAll] at hn
      rcases hn with hn | hn
      · obtain ⟨i, b, hi, hu, hb, hne⟩ := mem_stale.1 hn
        rcases allConfs_mem hi with ⟨_, _, rfl, _⟩ | hin
        · exact .inr (.inl rfl)
        · right; right
          rw [← gather_accepted, List.mem_map]
          refine ⟨(x, b), List.mem_filter.2 ⟨hin, ?_⟩, rfl⟩
          cases hp : (parseMsg S.env false b).isOk with
          | true => rfl
          | false =>
            exfalso
            exact hb ((mergeMsgs_bad hR i).2 ⟨b, by rw [List.getElem?_map, hi]; rfl, hp⟩)
      · exact .inl hn
    have hset : ∀ (cc : Client) (s : CState), cc.old = (c.noted (c.allConfs S.env (gather S c.keys configs)) R bad).old →
        cc.curr = c.curr → x ∈ (cc.setState s).old →
        x ∈ c.old ∨ x = c.curr ∨ x ∈ (configs.filter fun p => accepts S c.keys p.2).map (·.1) := by
      intro cc s h1 h2 h3
      rcases setState_old_mem h3 with h | ⟨h, _⟩
      · exact hnoted (h1 ▸ h)
      · exact .inr (.inl (h.trans h2))
    rw [h1] at hx
    obtain ⟨_, h2 | ⟨hu, hro, hlt, _, h2⟩ | ⟨top, i, y, z, hi, hmax, hcur, hRe, hne, hlt, hx', h2⟩⟩ :=
      absorb_cases hS (hr.inv hS) hf hc hR
    · rw [h2] at hx; exact hnoted hx
    · rw [h2] at hx
      exact hset { c.noted (c.allConfs S.env (gather S c.keys configs)) R bad with conf := c.mergedConf S R } .dirty rfl rfl hx
    · rw [h2] at hx
      exact hset (c.noted (c.allConfs S.env (gather S c.keys configs)) R bad) .clean rfl rfl hx

/-- C37 (partial).  If every decryptable message is a valid config message, and the hashes are
distinct, non-empty and not obsolete yet, then a merge that takes over a message makes the hash of
exactly that message current, and does not make it obsolete. -/
theorem adopted_hash_partial {S : Sys} (hS : S.Good) {c : Client} (hr : Reach S c)
    {configs : List (Bytes × Bytes)} (hf : ∀ p ∈ gather S c.keys configs, Fair S.env p.2)
    (hc : NoCollision S.env ((c.allConfs S.env (gather S c.keys configs)).map (·.2)))
    (hok : (c.merge S configs).2.isOk = true)
    (hvalid : ∀ p ∈ gather S c.keys configs, (parseMsg S.env false p.2).isOk = true)
    (hdist : ((gather S c.keys configs).map (·.1)).Nodup)
    (hfresh : ∀ p ∈ gather S c.keys configs, p.1 ∉ c.old ∧ p.1 ≠ c.curr ∧ p.1 ≠ [])
    (hclean : (c.merge S configs).1.st = .clean)
    (hch : (c.merge S configs).1.seqno ≠ c.seqno) :
    ∃ p ∈ gather S c.keys configs, (c.merge S configs).1.curr = p.1 ∧
      (∃ m, parseMsg S.env false p.2 = .ok m ∧ (c.merge S configs).1.content = m.data) ∧
      p.1 ∉ (c.merge S configs).1.old := by
  have hsafe : (c.merge S configs).2.safe = true := by
    cases hh : (c.merge S configs).2 with
    | ok _ => rfl
    | err _ => rfl
    | hang => rw [hh] at hok; cases hok
    | ub => rw [hh] at hok; cases hok
  rcases merge_cases hsafe with ⟨e, he, _⟩ | ⟨R, bad, _, hR, h1⟩
  · rw [he] at hok; cases hok
  · rw [h1] at hclean hch ⊢
    obtain ⟨_, h2 | ⟨hu, hro, hlt, _, h2⟩ | ⟨top, i, x, y, hi, hmax, hcur, hRe, hne, hlt, hx, h2⟩⟩ :=
      absorb_cases hS (hr.inv hS) hf hc hR
    · exfalso
      rw [h2] at hch
      exact hch (noted_conf (hr.inv hS).wf _ R bad S.env).1
    · rw [h2] at hclean; cases hclean
    · -- all inputs are valid, so positions agree
      have hall : ∀ (j : Nat) (b : Bytes), ((c.allConfs S.env (gather S c.keys configs)).map (·.2))[j]? = some b →
          ∃ m, parseMsg S.env false b = .ok m := by
        intro j b hj
        rw [List.getElem?_map] at hj
        cases hg : (c.allConfs S.env (gather S c.keys configs))[j]? with
        | none => rw [hg] at hj; cases hj
        | some p =>
          obtain ⟨p1, p2⟩ := p
          rw [hg] at hj
          have hb : p2 = b := by simpa using hj
          subst hb
          rcases allConfs_mem hg with ⟨hm, _, _, rfl⟩ | hin
          · exact ⟨_, (hr.inv hS).parse_own hS hm⟩
          · have := hvalid _ hin
            cases hp : parseMsg S.env false p2 with
            | ok m => exact ⟨m, rfl⟩
            | err e => rw [hp] at this; cases this
            | hang => rw [hp] at this; cases this
            | ub => rw [hp] at this; cases this
      have hpos : ∀ (l : List Bytes) (j : Nat), (∀ (j : Nat) (b : Bytes), l[j]? = some b → ∃ m, parseMsg S.env false b = .ok m) →
          ∀ m, (validOf S.env l)[j]? = some m → ∃ b, l[j]? = some b ∧ parseMsg S.env false b = .ok m := by
        intro l
        induction l with
        | nil => intro j _ m hj; simp [validOf] at hj
        | cons a t ih =>
          intro j hl m hj
          obtain ⟨ma, hma⟩ := hl 0 a rfl
          have hv : validOf S.env (a :: t) = ma :: validOf S.env t := by
            simp [validOf, hma, Out.toOption]
          rw [hv] at hj
          cases j with
          | zero =>
            simp only [List.getElem?_cons_zero, Option.some.injEq] at hj
            exact ⟨a, rfl, by rw [hma, hj]⟩
          | succ j =>
            rw [List.getElem?_cons_succ] at hj ⊢
            exact ih j (fun j b hb => hl (j + 1) b (by rw [List.getElem?_cons_succ]; exact hb)) m hj
      obtain ⟨b, hb, hpb⟩ := hpos _ i hall top hi
      rw [List.getElem?_map, hx] at hb
      have hyb : y = b := by simpa using hb
      subst hyb
      have hin : (x, y) ∈ gather S c.keys configs := by
        rcases allConfs_mem hx with ⟨hm, _, _, rfl⟩ | hin
        · exfalso
          rw [show parseMsg S.env false (c.plain S) = .ok (c.ownMsg S) from
            (hr.inv hS).parse_own hS hm] at hpb
          exact hne hm (Out.ok.inj hpb).symm
        · exact hin
      have hnew : (c.newConf S R).m.data = top.data := by
        unfold Client.newConf
        split
        · unfold mutFromMerge
          rw [if_neg (by rw [hRe]; show (i : Int) ≠ -1; omega), hRe]
          rfl
        · rw [hRe]
      refine ⟨(x, y), hin, by rw [h2], ⟨top, hpb, ?_⟩, ?_⟩
      · rw [h2]
        show pruneD (c.newConf S R).m.data = _
        rw [hnew]
        exact pruneD_of_wf (parseMsg_ok hpb).wf.data
      · obtain ⟨f1, f2, f3⟩ := hfresh _ hin
        rw [h2]
        intro hold
        rcases setState_old_mem (s := .clean) (c := c.noted (c.allConfs S.env (gather S c.keys configs)) R bad) hold with h | ⟨h, _⟩
        · unfold Client.noted at h
          dsimp only at h
          rw [mem_hinsertAll] at h
          rcases h with h | h
          · obtain ⟨j, b', hj, hju, _, _⟩ := mem_stale.1 h
            have hij : i = j := by
              have hnd : ((c.allConfs S.env (gather S c.keys configs)).map (·.1)).Nodup := by
                unfold Client.allConfs
                split
                · simp only [List.singleton_append, List.map_cons, List.nodup_cons]
                  refine ⟨?_, hdist⟩
                  rw [List.mem_map]
                  rintro ⟨p, hp, hpe⟩
                  exact (hfresh p hp).2.1 hpe
                · exact hdist
              have e1 : ((c.allConfs S.env (gather S c.keys configs)).map (·.1))[i]? = some x := by
                rw [List.getElem?_map, hx]; rfl
              have e2 : ((c.allConfs S.env (gather S c.keys configs)).map (·.1))[j]? = some x := by
                rw [List.getElem?_map, hj]; rfl
              have hlt : i < ((c.allConfs S.env (gather S c.keys configs)).map (·.1)).length := by
                by_contra hge
                rw [List.getElem?_eq_none (by omega)] at e1; cases e1
              exact (List.getElem?_inj hlt hnd).1 (e1.trans e2.symm)
            apply hju
            rw [hRe, hij]
          · exact f1 h
        · exact f2 h

/-- C37 is false as soon as a decryptable but invalid message comes first: its hash is taken for that
of the config just loaded, and the hash of that config is reported as obsolete, so that the application
deletes the live config from the server.  (Anybody with the encryption key can cause this.) -/
def exBadMsg : Bytes := match envelope exSys exKey 7 [100, 101] with
  | .ok m => m
  | _ => []
theorem live_hash_made_obsolete :
    let c := (exC0.merge exSys [([98], exBadMsg), ([104], exM1)]).1
    accepts exSys exC0.keys exBadMsg = false ∧ accepts exSys exC0.keys exM1 = true ∧
      c.st = .clean ∧ c.content = exC1.content ∧ c.currentHashes = [[98]] ∧ c.old = [[104]] ∧
      ((c.push exSys).2.toOption.map fun r => r.2.2) = some [[104]] := by decide +kernel

/-- C37: an object that reads its own pushed message before the confirmation arrives reports that
message as obsolete while it is the current one. -/
theorem own_copy_made_obsolete :
    let c := ((exC1.push exSys).1.merge exSys [([104], exM1)]).1
    let c' := c.confirm 1 [104]
    c.st = .waiting ∧ c.old = [[104]] ∧ c'.currentHashes = [[104]] ∧ c'.content = exC1.content ∧
      ((c'.push exSys).2.toOption.map fun r => (r.1, r.2.2)) = some (1, [[104]]) := by decide +kernel

example : let c := (exC2.merge exSys [([106], exM2)]).1
    (∀ p ∈ gather exSys exC2.keys [([106], exM2)], (parseMsg exSys.env false p.2).isOk = true) ∧
      c.st = .clean ∧ c.seqno ≠ exC2.seqno ∧ c.curr = [106] ∧ c.old = [] := by decide +kernel

/-- C35 is false for objects that cannot sign: two of them that read the same two messages, in
different orders, keep different contents. -/
theorem readonly_diverges :
    let r1 := ((exR0.merge exSysRO [([1], exM2)]).1.merge exSysRO [([2], exMP)]).1
    let r2 := ((exR0.merge exSysRO [([2], exMP)]).1.merge exSysRO [([1], exM2)]).1
    r1.seqno = r2.seqno ∧ r1.content ≠ r2.content ∧ r1.content = exQ.content ∧
      r2.content = exP.content := by decide +kernel

/-! ### Which messages are usable -/

/-- What is inside a decrypted message: leading NUL bytes are padding; after them comes the config message itself, or the
letter z and the compressed config message.  (The letter m announces a part of a larger message, which no version
supports.  A message of nothing but NUL bytes is taken as it is, and is no config message.) -/
inductive Inside (S : Sys) : Bytes → Bytes → Prop
  | plain (n : Nat) (x : UInt8) (t : Bytes) : x ≠ 0 → x ≠ 109 → x ≠ 122 →
      Inside S (List.replicate n 0 ++ x :: t) (x :: t)
  | zipped (n : Nat) (t b : Bytes) : S.unzip t = some b → b ≠ [] → Inside S (List.replicate n 0 ++ 122 :: t) b
  | blank (n : Nat) : Inside S (List.replicate (n + 1) 0) (List.replicate (n + 1) 0)

/-- What an object with these keys decrypts: the contents of the protobuf wrapper, if its kind has one and its first key
opens it; otherwise the message as it came. -/
inductive Unwrapped (S : Sys) (keys : List Bytes) (raw : Bytes) : Bytes → Prop
  | wrapped (w : Bytes → Bytes → Int → Out Bytes) (u : Bytes → Bytes → Option Bytes) (k : Bytes) (x : Bytes) :
      S.proto = some (w, u) → keys.head? = some k → u k raw = some x → Unwrapped S keys raw x
  | bare : (∀ w u k, S.proto = some (w, u) → keys.head? = some k → u k raw = none) → Unwrapped S keys raw raw

theorem unwrapped_iff {S : Sys} {keys : List Bytes} {raw x : Bytes} :
    Unwrapped S keys raw x ↔ unwrapOne S keys raw = x := by
  unfold unwrapOne
  constructor
  · rintro (⟨w, u, k, x, h1, h2, h3⟩ | h)
    · cases keys with
      | nil => cases h2
      | cons k' ks => rw [h1, Option.some.inj h2]; simp only [h3, Option.getD_some]
    · cases hp : S.proto with
      | none => rfl
      | some p =>
        obtain ⟨w, u⟩ := p
        cases keys with
        | nil => rfl
        | cons k ks => simp only [h w u k hp rfl, Option.getD_none]
  · intro h
    cases hp : S.proto with
    | none =>
      rw [hp] at h
      have h : raw = x := h
      subst h
      exact .bare fun w u k e => by rw [hp] at e; cases e
    | some p =>
      obtain ⟨w, u⟩ := p
      rw [hp] at h
      cases keys with
      | nil =>
        have h : raw = x := h
        subst h
        exact .bare fun w u k _ e => by cases e
      | cons k ks =>
        have h : (u k raw).getD raw = x := h
        cases hu : u k raw with
        | none =>
          rw [hu] at h
          have h : raw = x := h
          subst h
          refine .bare fun w' u' k' e1 e2 => ?_
          rw [hp] at e1
          cases e1
          rw [← Option.some.inj e2]; exact hu
        | some y =>
          rw [hu] at h
          have h : y = x := h
          subst h
          exact .wrapped w u k y hp rfl hu

theorem split_zeros : ∀ p : Bytes, ∃ n t, p = List.replicate n 0 ++ t ∧ p.dropWhile (· == 0) = t ∧ t.head? ≠ some 0
  | [] => ⟨0, [], rfl, rfl, by simp⟩
  | a :: p => by
    by_cases h : a = 0
    · subst h
      obtain ⟨n, t, h1, h2, h3⟩ := split_zeros p
      refine ⟨n + 1, t, ?_, ?_, h3⟩
      · rw [List.replicate_succ, List.cons_append, ← h1]
      · simpa using h2
    · refine ⟨0, a :: p, rfl, ?_, by simpa using h⟩
      rw [List.dropWhile_cons_of_neg (by simpa using h)]

theorem dropZeros (n : Nat) {x : UInt8} (hx : x ≠ 0) (t : Bytes) :
    (List.replicate n (0 : UInt8) ++ x :: t).dropWhile (· == 0) = x :: t := by
  rw [dropWhile_replicate_zero, List.dropWhile_cons_of_neg (by simpa using hx)]

theorem inside_iff {S : Sys} {p b : Bytes} : Inside S p b ↔ unpack S p = some b := by
  constructor
  · rintro (⟨n, x, t, h0, h1, h2⟩ | ⟨n, t, b, h1, h2⟩ | ⟨n⟩)
    · have hu : unpad (List.replicate n 0 ++ x :: t) = x :: t := by unfold unpad; rw [dropZeros n h0]
      unfold unpack
      rw [hu]
      simp [h1, h2]
    · have hu : unpad (List.replicate n 0 ++ 122 :: t) = 122 :: t := by unfold unpad; rw [dropZeros n (by decide)]
      unfold unpack
      rw [hu]
      cases b with
      | nil => exact absurd rfl h2
      | cons y r => simp [h1]
    · have hu : unpad (List.replicate (n + 1) 0) = 0 :: List.replicate n 0 := by
        have e := dropWhile_replicate_zero (n + 1) []
        rw [List.append_nil] at e
        unfold unpad; rw [e]; rfl
      unfold unpack
      rw [hu]
      simp [List.replicate_succ]
  · intro h
    obtain ⟨n, t, h1, h2, h3⟩ := split_zeros p
    unfold unpack at h
    cases t with
    | nil =>
      rw [List.append_nil] at h1
      have hu : unpad p = p := by unfold unpad; rw [h2]
      rw [hu] at h
      cases n with
      | zero => rw [h1] at h; cases h
      | succ n =>
        subst h1
        simp only [List.replicate_succ] at h
        have h : some (0 :: List.replicate n (0 : UInt8)) = some b := by simpa using h
        rw [← Option.some.inj h, ← List.replicate_succ]
        exact .blank n
    | cons x t =>
      have hx : x ≠ 0 := by simpa using h3
      have hu : unpad p = x :: t := by unfold unpad; rw [h2]
      rw [hu] at h
      dsimp only at h
      by_cases hm : x = 109
      · rw [if_pos hm] at h; cases h
      · rw [if_neg hm] at h
        by_cases hz : x = 122
        · rw [if_pos hz] at h
          subst hz
          subst h1
          split at h
          · rename_i y r hy
            rw [← Option.some.inj h]
            exact .zipped n t (y :: r) hy (by simp)
          · cases h
        · rw [if_neg hz] at h
          rw [← Option.some.inj h, h1]
          exact .plain n x t hx hm hz

theorem openWith_iff {S : Sys} {x p : Bytes} : ∀ {keys : List Bytes}, openWith S keys x = some p ↔
    ∃ pre k post, keys = pre ++ k :: post ∧ (∀ k' ∈ pre, ∀ m, decrypt S.P x k' S.domain ≠ .ok m) ∧
      decrypt S.P x k S.domain = .ok p
  | [] => by
    constructor
    · intro h; cases h
    · rintro ⟨pre, k, post, h, _⟩
      cases pre <;> cases h
  | k :: ks => by
    have ih := openWith_iff (S := S) (x := x) (p := p) (keys := ks)
    have hrest : (∀ m, decrypt S.P x k S.domain ≠ .ok m) → (openWith S (k :: ks) x = some p ↔
        ∃ pre k' post, k :: ks = pre ++ k' :: post ∧ (∀ k'' ∈ pre, ∀ m, decrypt S.P x k'' S.domain ≠ .ok m) ∧
          decrypt S.P x k' S.domain = .ok p) := by
      intro hno
      have e : openWith S (k :: ks) x = openWith S ks x := by
        rw [openWith]
        cases hd : decrypt S.P x k S.domain with
        | ok m => exact absurd hd (hno m)
        | decryptError => rfl
        | invalidArgument => rfl
      rw [e, ih]
      constructor
      · rintro ⟨pre, k', post, h1, h2, h3⟩
        refine ⟨k :: pre, k', post, by rw [h1]; rfl, ?_, h3⟩
        intro k'' hk
        rcases List.mem_cons.1 hk with rfl | hk
        · exact hno
        · exact h2 k'' hk
      · rintro ⟨pre, k', post, h1, h2, h3⟩
        cases pre with
        | nil =>
          obtain ⟨rfl, rfl⟩ := List.cons.inj h1
          exact absurd h3 (hno p)
        | cons a pre =>
          obtain ⟨rfl, h9⟩ := List.cons.inj h1
          exact ⟨pre, k', post, h9, fun k'' hk => h2 k'' (List.mem_cons_of_mem _ hk), h3⟩
    cases hd : decrypt S.P x k S.domain with
    | decryptError => exact hrest fun m => by rw [hd]; exact fun h => by cases h
    | invalidArgument => exact hrest fun m => by rw [hd]; exact fun h => by cases h
    | ok m =>
      rw [openWith, hd]
      constructor
      · intro h
        exact ⟨[], k, ks, rfl, by simp, by rw [hd, Option.some.inj h]⟩
      · rintro ⟨pre, k', post, h1, h2, h3⟩
        cases pre with
        | nil =>
          obtain ⟨rfl, rfl⟩ := List.cons.inj h1
          rw [hd] at h3
          cases h3; rfl
        | cons a pre =>
          obtain ⟨rfl, _⟩ := List.cons.inj h1
          exact absurd hd (h2 k (by simp) m)

/-- C36.  Which messages an object can use, and what for: those that, unwrapped, open under the first of its keys that
fits and contain a config message, plain or compressed. -/
theorem receive_iff {S : Sys} {keys : List Bytes} {raw b : Bytes} : receive S keys raw = some b ↔
    ∃ x pre k post p, Unwrapped S keys raw x ∧ keys = pre ++ k :: post ∧
      (∀ k' ∈ pre, ∀ m, decrypt S.P x k' S.domain ≠ .ok m) ∧ decrypt S.P x k S.domain = .ok p ∧ Inside S p b := by
  unfold receive
  rw [Option.bind_eq_some_iff]
  constructor
  · rintro ⟨p, h1, h2⟩
    obtain ⟨pre, k, post, h3, h4, h5⟩ := openWith_iff.1 h1
    exact ⟨_, pre, k, post, p, unwrapped_iff.2 rfl, h3, h4, h5, inside_iff.2 h2⟩
  · rintro ⟨x, pre, k, post, p, h0, h3, h4, h5, h2⟩
    rw [unwrapped_iff.1 h0]
    exact ⟨p, openWith_iff.2 ⟨pre, k, post, h3, h4, h5⟩, inside_iff.1 h2⟩

/-- C36.  The messages whose hashes merge returns: those of which the contents are accepted as a config message. -/
theorem accepts_iff {S : Sys} {keys : List Bytes} {raw : Bytes} : accepts S keys raw = true ↔
    ∃ b m, receive S keys raw = some b ∧ parseMsg S.env false b = .ok m := by
  unfold accepts
  cases hr : receive S keys raw with
  | none => simp
  | some b =>
    cases hp : parseMsg S.env false b with
    | ok m => simp [hp, Out.isOk]
    | err e => simp [hp, Out.isOk]
    | hang => simp [hp, Out.isOk]
    | ub => simp [hp, Out.isOk]

example : (receive exSys exC0.keys exM1).isSome = true ∧ accepts exSys exC0.keys exM1 = true ∧
    (receive exSys exC0.keys [1, 2, 3]) = none := by decide +kernel

end Verif
