import Verif.Props.Client

/-!
# Delivery of pushed configs to other objects, and convergence
-/

namespace Verif

theorem ser_head (env : Env) (m : Msg) (e : Bool) : ∃ t, m.ser env e = 100 :: t := by
  rw [ser_eq]; exact ⟨_, rfl⟩

theorem unpack_compress {S : Sys} (hz : ∀ b, S.unzip (S.zip b) = some b) (t : Bytes) :
    unpack S (padMessage (compress S (100 :: t)) 40) = some (100 :: t) := by
  unfold compress
  dsimp only
  split
  · unfold unpack
    rw [unpad_pad 122 _ 40 (by decide)]
    simp only [hz]
    rw [if_neg (by decide), if_pos trivial]
  · unfold unpack
    rw [unpad_pad 100 _ 40 (by decide)]
    simp only
    rw [if_neg (by decide), if_neg (by decide)]

/-- What `push` sends is opened by the same key. -/
theorem envelope_open {S : Sys} (hS : S.Good) {k : Bytes} (hk : k.length = 32) {s : Int} {t out : Bytes}
    (h : envelope S k s (100 :: t) = .ok out) :
    ∃ e, encrypt S.P (padMessage (compress S (100 :: t)) 40) k S.domain = .ok e ∧
      decrypt S.P e k S.domain = .ok (padMessage (compress S (100 :: t)) 40) ∧
      (∀ w u, S.proto = some (w, u) → w k e s = .ok out) ∧ (S.proto = none → out = e) := by
  obtain ⟨e, he, _, hd⟩ := decrypt_encrypt hS.prims (padMessage (compress S (100 :: t)) 40) k S.domain hk hS.dom
  unfold envelope at h
  rw [he] at h
  refine ⟨e, he, hd, fun w u hp => ?_, fun hp => ?_⟩
  · change (match S.proto with
      | some (wrap, _) => wrap k e s
      | none => .ok e) = .ok out at h
    rw [hp] at h; exact h
  · change (match S.proto with
      | some (wrap, _) => wrap k e s
      | none => .ok e) = .ok out at h
    rw [hp] at h; exact (Out.ok.inj h).symm

/-- With the sender's key in front the receiver gets the pushed config message. -/
theorem receive_head {S : Sys} (hS : S.Good) {k : Bytes} (hk : k.length = 32) {s : Int} {t out : Bytes}
    (h : envelope S k s (100 :: t) = .ok out) (ks : List Bytes) :
    receive S (k :: ks) out = some (100 :: t) := by
  obtain ⟨e, _, hd, h1, h2⟩ := envelope_open hS hk h
  have hu : unwrapOne S (k :: ks) out = e := by
    unfold unwrapOne
    cases hp : S.proto with
    | none => simp only; exact h2 hp
    | some wu =>
      obtain ⟨w, u⟩ := wu
      simp only
      rw [hS.proto w u hp _ _ _ _ hk (h1 w u hp)]; rfl
  unfold receive
  rw [hu]
  simp only [openWith, hd, Option.bind_some]
  exact unpack_compress hS.zip t

/-- Without the protobuf wrapper the key may be anywhere among the receiver's keys, as long as no
earlier key happens to open the message. -/
theorem receive_any {S : Sys} (hS : S.Good) (hproto : S.proto = none) {k : Bytes} (hk : k.length = 32)
    {s : Int} {t out : Bytes} (h : envelope S k s (100 :: t) = .ok out) (pre post : List Bytes)
    (hpre : ∀ k' ∈ pre, ∀ m, decrypt S.P out k' S.domain ≠ .ok m) :
    receive S (pre ++ k :: post) out = some (100 :: t) := by
  obtain ⟨e, _, hd, _, h2⟩ := envelope_open hS hk h
  have hu : unwrapOne S (pre ++ k :: post) out = out := by
    unfold unwrapOne; rw [hproto]
  unfold receive
  rw [hu]
  have : openWith S (pre ++ k :: post) out = some (padMessage (compress S (100 :: t)) 40) := by
    induction pre with
    | nil => simp only [List.nil_append, openWith]; rw [h2 hproto, hd]
    | cons a l ih =>
      have ha := hpre a List.mem_cons_self
      simp only [List.cons_append, openWith]
      cases hda : decrypt S.P out a S.domain with
      | ok m => exact absurd hda (ha m)
      | decryptError => exact ih (fun k' hk' => hpre k' (List.mem_cons_of_mem _ hk')) (by unfold unwrapOne; rw [hproto])
      | invalidArgument => exact ih (fun k' hk' => hpre k' (List.mem_cons_of_mem _ hk')) (by unfold unwrapOne; rw [hproto])
  rw [this]
  exact unpack_compress hS.zip t

theorem parseMsg_as (S : Sys) (sg : Option (Bytes → Bytes)) (t : Bool) (b : Bytes) :
    parseMsg (S.as sg).env t b = parseMsg S.env t b := rfl

theorem validOf_as (S : Sys) (sg : Option (Bytes → Bytes)) (l : List Bytes) :
    validOf (S.as sg).env l = validOf S.env l := rfl

/-- Merging one message that supersedes what the object holds. -/
theorem merge_adopts {S : Sys} (hS : S.Good) {r : Client} (hinv : CInv S r) (hst : r.st ≠ .dirty)
    {b : Bytes} {M : Msg} (hp : parseMsg S.env false b = .ok M) (hpos : 0 < M.seqno)
    (hknown : r.conf.m.seqno = 0 ∨ Supersedes S M r)
    (hnc : S.env.H b = S.env.H (r.plain S) → b = r.plain S)
    (hov : int64Ok (M.seqno + S.env.lag) = true) (h : Bytes) :
    ∃ i : Int, (r.mergeCore S [(h, b)]).1 =
        { (r.noted (r.allConfs S.env [(h, b)]) { M with unmerged := i } []).setState .clean with
          conf := ⟨{ M with unmerged := i }, none⟩, curr := h } ∧
      (r.mergeCore S [(h, b)]).2 = .ok [h] := by
  have hpo := parseMsg_ok hp
  -- own message, if any, is lower
  have hlow : r.hasMine = true → (r.ownMsg S).sh < M.sh ∧ r.conf.m.seqno < M.seqno ∧ Supersedes S M r := by
    intro hm
    have hn : r.conf.m.seqno ≠ 0 := by
      simp only [Client.hasMine, Bool.or_eq_true, decide_eq_true_eq] at hm
      exact hm.resolve_right hst
    have hsup := hknown.resolve_left hn
    have hlt : r.conf.m.seqno < M.seqno := by
      rcases hsup with ⟨p, hpm, hpe⟩ | hle
      · have := (hpo.window p hpm).2
        rw [hpe] at this; exact this
      · have := hS.lag1
        unfold Client.seqno at hle; omega
    exact ⟨sh_lt_of_seqno (by rw [ownMsg_seqno]; exact hlt), hlt, hsup⟩
  have hval : validOf S.env ((r.allConfs S.env [(h, b)]).map (·.2)) =
      (if r.hasMine then [r.ownMsg S] else []) ++ [M] := by
    rw [hinv.valid_all hS]; simp [validOf, hp, Out.toOption]
  have hncol : NoCollision S.env ((r.allConfs S.env [(h, b)]).map (·.2)) := by
    unfold NoCollision Client.allConfs
    unfold Client.plain at hnc
    cases r.hasMine <;> simp only [Bool.false_eq_true, if_false, if_true, List.nil_append,
      List.singleton_append, List.map_cons, List.map_nil, List.mem_cons, List.not_mem_nil, or_false]
    · rintro a rfl c rfl _; rfl
    · rintro a (rfl | rfl) c (rfl | rfl) hh
      · rfl
      · exact (hnc hh.symm).symm
      · exact hnc hh
      · rfl
  have htol : ∀ x ∈ (r.allConfs S.env [(h, b)]).map (·.2), Tolerable S.env x := by
    intro x hx
    unfold Client.allConfs at hx
    cases hm : r.hasMine with
    | false =>
      rw [hm] at hx
      simp only [Bool.false_eq_true, if_false, List.nil_append, List.map_cons, List.map_nil,
        List.mem_cons, List.not_mem_nil, or_false] at hx
      subst hx; exact .inl ⟨M, hp⟩
    | true =>
      rw [hm] at hx
      simp only [if_true, List.singleton_append, List.map_cons, List.map_nil,
        List.mem_cons, List.not_mem_nil, or_false] at hx
      rcases hx with rfl | rfl
      · exact .inl ⟨_, hinv.parse_own hS hm⟩
      · exact .inl ⟨M, hp⟩
  have hg := goodBatch_of hncol
  rw [hval] at hg
  have hov' : NoOverflow S.env.lag ((if r.hasMine then [r.ownMsg S] else []) ++ [M]) := by
    intro c hc
    rw [List.mem_append, List.mem_singleton] at hc
    rcases hc with hc | rfl
    · cases hm : r.hasMine with
      | false => rw [hm] at hc; cases hc
      | true =>
        rw [hm, if_pos rfl, List.mem_singleton] at hc
        subst hc
        have h1 := (hlow hm).2.1
        have h2 := hinv.seq
        have h3 := hS.lag1
        rw [ownMsg_seqno]
        simp only [int64Ok, Bool.and_eq_true, decide_eq_true_eq] at hov ⊢
        omega
    · exact hov
  obtain ⟨top, ht, hmax, hcase⟩ := mergeParsed_cases hS.lag1 (by simp) hg hov'
  have htop : top = M := by
    rw [List.mem_append, List.mem_singleton] at ht
    rcases ht with ht | ht
    · exfalso
      cases hm : r.hasMine with
      | false => rw [hm] at ht; cases ht
      | true =>
        rw [hm, if_pos rfl, List.mem_singleton] at ht
        subst ht
        exact absurd (hmax M (by simp)) (not_le.2 (hlow hm).1)
    · exact ht
  subst htop
  have hcur : ∀ c, Current S.env.lag ((if r.hasMine then [r.ownMsg S] else []) ++ [top]) c → c = top := by
    rintro c ⟨hc, h1, h2⟩
    rw [List.mem_append, List.mem_singleton] at hc
    rcases hc with hc | rfl
    · exfalso
      cases hm : r.hasMine with
      | false => rw [hm] at hc; cases hc
      | true =>
        rw [hm, if_pos rfl, List.mem_singleton] at hc
        subst hc
        rcases (hlow hm).2.2 with ⟨p, hpm, hpe⟩ | hle
        · refine h1 top (by simp) p hpm ?_
          rw [hpe]
          show _ = toLex ((r.ownMsg S).seqno, (r.ownMsg S).hash)
          rw [ownMsg_hash, ownMsg_seqno]; rfl
        · have := h2 top (by simp)
          rw [ownMsg_seqno] at this
          unfold Client.seqno at hle; omega
    · rfl
  rcases hcase with ⟨_, i, hi, hres⟩ | ⟨⟨_, c, hc, hne⟩, _⟩
  swap
  · exact absurd (hcur c hc) hne
  obtain ⟨bad, hm⟩ := mergeMsgs_ok_iff.2 ⟨htol, by rw [hval]; exact hres⟩
  have hbad : bad = [] := by
    rw [List.eq_nil_iff_forall_not_mem]
    intro j hj
    obtain ⟨x, hx, hx2⟩ := (mergeMsgs_bad hm j).1 hj
    have hxm := List.mem_of_getElem? hx
    unfold Client.allConfs at hxm
    cases hmi : r.hasMine with
    | false =>
      rw [hmi] at hxm
      simp only [Bool.false_eq_true, if_false, List.nil_append, List.map_cons, List.map_nil,
        List.mem_cons, List.not_mem_nil, or_false] at hxm
      subst hxm; rw [hp] at hx2; cases hx2
    | true =>
      rw [hmi] at hxm
      simp only [if_true, List.singleton_append, List.map_cons, List.map_nil,
        List.mem_cons, List.not_mem_nil, or_false] at hxm
      rcases hxm with rfl | rfl
      · rw [hinv.parse_own hS hmi] at hx2; cases hx2
      · rw [hp] at hx2; cases hx2
  subst hbad
  have hgood := goodHashes_eq hm
  have hidx : (r.allConfs S.env [(h, b)])[i]? = some (h, b) := by
    unfold Client.allConfs
    cases hmi : r.hasMine with
    | false =>
      rw [hmi] at hi
      simp only [Bool.false_eq_true, if_false, List.nil_append] at hi ⊢
      have : i = 0 := by
        by_contra h0
        rw [List.getElem?_eq_none (by simp; omega)] at hi; cases hi
      subst this; rfl
    | true =>
      rw [hmi] at hi
      simp only [if_true, List.singleton_append] at hi ⊢
      have : i = 1 := by
        match i, hi with
        | 0, hi =>
          exfalso
          simp only [List.getElem?_cons_zero, Option.some.injEq] at hi
          have := (hlow hmi).1
          rw [hi] at this; exact lt_irrefl _ this
        | 1, _ => rfl
        | n + 2, hi => simp at hi
      subst this; rfl
  refine ⟨(i : Int), ?_⟩
  unfold Client.mergeCore
  dsimp only
  rw [hm]
  dsimp only
  unfold Client.absorb
  dsimp only
  have hnew : r.newConf S { top with unmerged := i } = ⟨{ top with unmerged := (i : Int) }, none⟩ := by
    unfold Client.newConf; rw [if_neg hst]
  rw [hnew, hgood]
  have hgoodl : (List.map (fun x : Bytes × Bytes => x.1)
      (List.filter (fun p => (parseMsg S.env false p.2).isOk) [(h, b)])) = [h] := by
    simp [hp, Out.isOk]
  rw [hgoodl]
  rw [if_neg, if_neg, if_neg]
  · simp only [Int.toNat_natCast, hidx]
    trivial
  · rintro ⟨hd, _⟩; exact hst hd
  · show (i : Int) ≠ -1; omega
  · show top.seqno ≠ _
    cases hmi : r.hasMine with
    | false => rw [(hasMine_false hmi).1]; omega
    | true => have := (hlow hmi).2.1; omega

theorem gather_one {S : Sys} {keys : List Bytes} {h m b : Bytes} (hr : receive S keys m = some b) :
    gather S keys [(h, m)] = [(h, b)] := by
  simp [gather, hr]

/-- Delivery, with the data of the receiving object in addition. -/
theorem delivery_received {S : Sys} (hS : S.Good) {sg : Option (Bytes → Bytes)} (hS' : (S.as sg).Good)
    {c r : Client} (hc : Reach S c) (hr : Reach (S.as sg) r) {s : Int} {m : Bytes} {obs : List Bytes}
    (hp : (c.push S).2 = .ok (s, m, obs)) (hs : s ≠ 0)
    (hrec : receive (S.as sg) r.keys m = some (c.plain S))
    (hst : r.st ≠ .dirty)
    (hknown : r.seqno = 0 ∨
      ∀ M, parseMsg S.env false (c.plain S) = .ok M → Supersedes (S.as sg) M r)
    (hnc : S.env.H (c.plain S) = S.env.H (r.plain (S.as sg)) → c.plain S = r.plain (S.as sg))
    (hov : int64Ok (s + S.env.lag) = true) (h : Bytes) :
    (r.merge (S.as sg) [(h, m)]).2 = .ok [h] ∧
      (r.merge (S.as sg) [(h, m)]).1.conf.m.data = c.content ∧
      (r.merge (S.as sg) [(h, m)]).1.content = c.content ∧
      (r.merge (S.as sg) [(h, m)]).1.seqno = s ∧
      (r.merge (S.as sg) [(h, m)]).1.needsPush = false ∧
      (r.merge (S.as sg) [(h, m)]).1.curr = h := by
  have hinv := hc.inv hS
  obtain ⟨e1, _, _, _, _, _, k, ks, hkc, hm, _⟩ := push_state hp
  have hmine : c.hasMine = true := by
    unfold Client.hasMine
    rw [e1] at hs; unfold Client.seqno at hs
    simp [hs]
  have hparse := hinv.parse_own hS hmine
  have hkr : r.keys ≠ [] := by
    intro e
    rw [e] at hrec
    unfold receive at hrec
    cases hrec
  have hq : (c.ownMsg S).seqno = s := by rw [ownMsg_seqno, e1]; rfl
  have hs0 : 0 < (c.ownMsg S).seqno := by
    have := hinv.seq
    rw [ownMsg_seqno]
    rw [e1] at hs
    unfold Client.seqno at hs
    omega
  obtain ⟨i, hA, hB⟩ := merge_adopts hS' (hr.inv hS') hst (b := c.plain S) (M := c.ownMsg S) hparse hs0
    (hknown.imp id fun hh => hh _ hparse) hnc (by rw [hq]; exact hov) h
  have hmm : r.merge (S.as sg) [(h, m)] = r.mergeCore (S.as sg) [(h, c.plain S)] := by
    unfold Client.merge
    rw [if_neg hkr, gather_one (b := c.plain S) hrec]
  rw [hmm]
  refine ⟨hB, ?_, ?_, ?_, ?_, ?_⟩
  · rw [hA]
    show (c.ownMsg S).data = _
    rw [ownMsg_data hinv.wf]; rfl
  · rw [hA]
    show pruneD (c.ownMsg S).data = _
    rw [ownMsg_data hinv.wf]
    exact pruneD_of_wf (pruneD_wf hinv.wf.data)
  · rw [hA]; exact hq
  · rw [hA]; rfl
  · rw [hA]

/-- What was pushed is received by an object with the same first key ... -/
theorem push_received {S : Sys} (hS : S.Good) {sg : Option (Bytes → Bytes)} (hS' : (S.as sg).Good)
    {c : Client} (hc : Reach S c) {s : Int} {m : Bytes} {obs : List Bytes}
    (hp : (c.push S).2 = .ok (s, m, obs)) {keys : List Bytes} (hk : keys.head? = c.keys.head?) :
    receive (S.as sg) keys m = some (c.plain S) := by
  obtain ⟨e1, _, _, _, _, _, k, ks, hkc, hm, _⟩ := push_state hp
  obtain ⟨t, ht⟩ := ser_head S.env c.conf.refresh.m true
  have ht' : c.plain S = 100 :: t := ht
  rw [ht'] at hm
  have hk32 : k.length = 32 := (hc.inv hS).keyLen k (by rw [hkc]; simp)
  rw [hkc] at hk
  obtain ⟨ks', hkr⟩ : ∃ ks', keys = k :: ks' := by
    cases hh : keys with
    | nil => rw [hh] at hk; cases hk
    | cons a l => rw [hh] at hk; simp at hk; exact ⟨l, by rw [hk]⟩
  have hm' : envelope (S.as sg) k c.seqno (100 :: t) = .ok m := hm
  rw [hkr, receive_head hS' hk32 hm' ks', ht']

/-- ... and, where no protobuf is used, by one that has the key anywhere, if no key before it opens the
message. -/
theorem push_received_any {S : Sys} (hS : S.Good) {sg : Option (Bytes → Bytes)} (hS' : (S.as sg).Good)
    (hproto : S.proto = none) {c : Client} (hc : Reach S c) {s : Int} {m : Bytes} {obs : List Bytes}
    (hp : (c.push S).2 = .ok (s, m, obs)) {k : Bytes} (hk : c.keys.head? = some k) (pre post : List Bytes)
    (hpre : ∀ k' ∈ pre, ∀ x, decrypt S.P m k' S.domain ≠ .ok x) :
    receive (S.as sg) (pre ++ k :: post) m = some (c.plain S) := by
  obtain ⟨e1, _, _, _, _, _, k', ks, hkc, hm, _⟩ := push_state hp
  obtain ⟨t, ht⟩ := ser_head S.env c.conf.refresh.m true
  have ht' : c.plain S = 100 :: t := ht
  rw [ht'] at hm
  rw [hkc] at hk
  cases hk
  have hk32 : k.length = 32 := (hc.inv hS).keyLen k (by rw [hkc]; simp)
  have hm' : envelope (S.as sg) k c.seqno (100 :: t) = .ok m := hm
  rw [receive_any hS' hproto hk32 hm' pre post hpre, ht']

theorem delivery_full {S : Sys} (hS : S.Good) {sg : Option (Bytes → Bytes)} (hS' : (S.as sg).Good)
    {c r : Client} (hc : Reach S c) (hr : Reach (S.as sg) r) {s : Int} {m : Bytes} {obs : List Bytes}
    (hp : (c.push S).2 = .ok (s, m, obs)) (hs : s ≠ 0) (hk : r.keys.head? = c.keys.head?)
    (hst : r.st ≠ .dirty)
    (hknown : r.seqno = 0 ∨
      ∀ M, parseMsg S.env false (c.plain S) = .ok M → Supersedes (S.as sg) M r)
    (hnc : S.env.H (c.plain S) = S.env.H (r.plain (S.as sg)) → c.plain S = r.plain (S.as sg))
    (hov : int64Ok (s + S.env.lag) = true) (h : Bytes) :
    (r.merge (S.as sg) [(h, m)]).2 = .ok [h] ∧
      (r.merge (S.as sg) [(h, m)]).1.conf.m.data = c.content ∧
      (r.merge (S.as sg) [(h, m)]).1.content = c.content ∧
      (r.merge (S.as sg) [(h, m)]).1.seqno = s ∧
      (r.merge (S.as sg) [(h, m)]).1.needsPush = false ∧
      (r.merge (S.as sg) [(h, m)]).1.curr = h :=
  delivery_received hS hS' hc hr hp hs (push_received hS hS' hc hp hk) hst hknown hnc hov h

/-- C34.  Delivery: whatever an object pushes, another object - possibly without the signing key -
that has the same encryption key in front and that holds nothing yet, or a config that the pushed one
lists in its history (or is `lag` or more behind), takes over exactly: same content and seqno, nothing to
push, and the hash it was given as current hash; the hash is reported as merged. -/
theorem delivery {S : Sys} (hS : S.Good) {sg : Option (Bytes → Bytes)} (hS' : (S.as sg).Good)
    {c r : Client} (hc : Reach S c) (hr : Reach (S.as sg) r) {s : Int} {m : Bytes} {obs : List Bytes}
    (hp : (c.push S).2 = .ok (s, m, obs)) (hs : s ≠ 0) (hk : r.keys.head? = c.keys.head?)
    (hst : r.st ≠ .dirty)
    (hknown : r.seqno = 0 ∨
      ∀ M, parseMsg S.env false (c.plain S) = .ok M → Supersedes (S.as sg) M r)
    (hnc : S.env.H (c.plain S) = S.env.H (r.plain (S.as sg)) → c.plain S = r.plain (S.as sg))
    (hov : int64Ok (s + S.env.lag) = true) (h : Bytes) :
    (r.merge (S.as sg) [(h, m)]).2 = .ok [h] ∧
      (r.merge (S.as sg) [(h, m)]).1.content = c.content ∧
      (r.merge (S.as sg) [(h, m)]).1.seqno = s ∧
      (r.merge (S.as sg) [(h, m)]).1.needsPush = false ∧
      (r.merge (S.as sg) [(h, m)]).1.curr = h := by
  obtain ⟨h1, _, h2⟩ := delivery_full hS hS' hc hr hp hs hk hst hknown hnc hov h
  exact ⟨h1, h2⟩

/-- Concrete: `exC1` (see Props/Client) is pushed to a new object, also to a read-only one; then its
successor is delivered to the object holding it. -/
example : (exC1.push exSys).2.isOk = true ∧ exC0.seqno = 0 ∧ exC0.st ≠ .dirty ∧
    exC0.keys.head? = exC1.keys.head? ∧
    ((parseMsg exSys.env false (exD2.plain exSys)).toOption.map fun M =>
      decide (∃ p ∈ M.lagged, p.1 = toLex (exC2.seqno, exSys.env.H (exC2.plain exSys)))) = some true ∧
    exC2.st ≠ .dirty ∧ exD2.seqno = 2 := by decide +kernel

/-! ## C35: convergence -/

/-- The state after a merge, in terms of the result of the message merge, for an object that holds a
config, has no unpublished edits and can sign. -/
theorem absorb_result {S : Sys} (hS : S.Good) {c : Client} (h : CInv S c) (hnd : c.st ≠ .dirty)
    (hne0 : c.conf.m.seqno ≠ 0) (hro : S.env.readonly = false) {inc : List (Bytes × Bytes)}
    (hf : ∀ p ∈ inc, Fair S.env p.2)
    (hc : NoCollision S.env ((c.allConfs S.env inc).map (·.2))) {R : Msg} {bad : List Nat}
    (hR : mergeMsgs S.env ((c.allConfs S.env inc).map (·.2)) = .ok (R, bad)) :
    (c.absorb S (c.allConfs S.env inc) R bad).1.content = pruneD R.data ∧
      (c.absorb S (c.allConfs S.env inc) R bad).1.seqno = R.seqno ∧
      (R.unmerged ≠ -1 → (c.absorb S (c.allConfs S.env inc) R bad).1.st ≠ .dirty) ∧
      (R.unmerged = -1 → (c.absorb S (c.allConfs S.env inc) R bad).1.st = .dirty ∧
        (c.absorb S (c.allConfs S.env inc) R bad).1.conf = ⟨R, some []⟩) := by
  have hmine : c.hasMine = true := by unfold Client.hasMine; simp [hne0]
  have hnew : c.newConf S R = ⟨R, none⟩ := by unfold Client.newConf; rw [if_neg hnd]
  have hmem := own_mem hS h hmine inc
  have hgb := goodBatch_of hc
  rcases merge_outcome hS h hc hR with ⟨top, i, hi, hmax, hcur, hRe, hz⟩ | ⟨top, ht, hmax, _, hex, hu, hseq, _, _⟩
  · have hcur' := hcur.resolve_left (by rw [hro]; exact Bool.false_ne_true)
    have hune : R.unmerged ≠ -1 := by rw [hRe]; show (i : Int) ≠ -1; omega
    have hle : c.conf.m.seqno ≤ top.seqno := by
      have := sh_le_seqno (hmax _ hmem); rwa [ownMsg_seqno] at this
    by_cases he : R.seqno = c.conf.m.seqno
    · -- nothing new
      have hts : top.seqno = c.conf.m.seqno := by rw [hRe] at he; exact he
      have hown : c.ownMsg S = top := by
        refine hcur' _ ⟨hmem, fun c2 h2 p hp hpe => ?_, fun c2 h2 => ?_⟩
        · have w := hgb.window c2 h2 p hp
          rw [hpe] at w
          have w' : (c.ownMsg S).seqno < c2.seqno := w
          have := sh_le_seqno (hmax _ h2)
          rw [ownMsg_seqno] at w'; omega
        · have := sh_le_seqno (hmax _ h2)
          have := hS.lag1
          rw [ownMsg_seqno]; omega
      have hab : (c.absorb S (c.allConfs S.env inc) R bad).1 = c.noted (c.allConfs S.env inc) R bad := by
        unfold Client.absorb
        dsimp only
        rw [hnew, if_pos he]
      rw [hab]
      obtain ⟨a1, a2, a3⟩ := noted_conf h.wf (c.allConfs S.env inc) R bad S.env
      refine ⟨?_, a1.trans he.symm, fun _ => hnd, fun hh => absurd hh hune⟩
      refine a3.trans ?_
      rw [hRe]
      show _ = pruneD top.data
      rw [← hown, ownMsg_data h.wf]
      exact (pruneD_of_wf (pruneD_wf h.wf.data)).symm
    · have hlen : i < (c.allConfs S.env inc).length := by
        have h1 : i < (validOf S.env ((c.allConfs S.env inc).map (·.2))).length := by
          by_contra hge
          rw [List.getElem?_eq_none (by omega)] at hi; cases hi
        have h2 := validOf_length_le S.env ((c.allConfs S.env inc).map (·.2))
        rw [List.length_map] at h2; omega
      obtain ⟨⟨x, y⟩, hxy⟩ : ∃ a, (c.allConfs S.env inc)[i]? = some a :=
        ⟨_, List.getElem?_eq_getElem hlen⟩
      have huni : R.unmerged.toNat = i := by rw [hRe]; simp
      have hab : (c.absorb S (c.allConfs S.env inc) R bad).1 =
          { (c.noted (c.allConfs S.env inc) R bad).setState .clean with conf := ⟨R, none⟩, curr := x } := by
        unfold Client.absorb
        dsimp only
        rw [hnew, if_neg he, if_neg hune, if_neg (by rintro ⟨hd, _⟩; exact hnd hd), huni, hxy]
      rw [hab]
      exact ⟨rfl, rfl, fun _ hh => CState.noConfusion hh, fun hh => absurd hh hune⟩
  · have hle : c.conf.m.seqno ≤ top.seqno := by
      have := sh_le_seqno (hmax _ hmem); rwa [ownMsg_seqno] at this
    have hmc : c.mergedConf S R = ⟨R, some []⟩ := by
      unfold Client.mergedConf
      rw [if_neg hnd, hnew]; rfl
    have hab : (c.absorb S (c.allConfs S.env inc) R bad).1 =
        { c.noted (c.allConfs S.env inc) R bad with conf := ⟨R, some []⟩ }.setState .dirty := by
      unfold Client.absorb
      dsimp only
      rw [hnew, if_neg (by show R.seqno ≠ _; omega), if_pos hu, hro, hmc]
      rfl
    rw [hab]
    refine ⟨?_, ?_, fun hh => absurd hu hh, fun _ => ⟨rfl, ?_⟩⟩
    · show pruneD (Client.setState _ CState.dirty).conf.m.data = _
      rw [setState_conf]
    · show (Client.setState _ CState.dirty).conf.m.seqno = _
      rw [setState_conf]
    · rw [setState_conf]

/-- C35.  Convergence: two objects that each hold a published config (no unpublished edits) and that
have seen, between what they hold and what they are given, the same set of valid config messages, end
up with the same content and the same seqno after their merges - whatever the order, however often each
message is given, and whatever unusable messages are mixed in.  If a new version had to be created,
both create it and would publish the same bytes. -/
theorem convergence {S : Sys} (hS : S.Good) {a b : Client} (ha : Reach S a) (hb : Reach S b)
    (hro : S.env.readonly = false) (hna : a.st ≠ .dirty) (hnb : b.st ≠ .dirty)
    (ha0 : a.seqno ≠ 0) (hb0 : b.seqno ≠ 0) {xs ys : List (Bytes × Bytes)}
    (hfa : ∀ p ∈ gather S a.keys xs, Fair S.env p.2) (hfb : ∀ p ∈ gather S b.keys ys, Fair S.env p.2)
    (hca : NoCollision S.env ((a.allConfs S.env (gather S a.keys xs)).map (·.2)))
    (hcb : NoCollision S.env ((b.allConfs S.env (gather S b.keys ys)).map (·.2)))
    (hsame : ∀ M, (M ∈ validOf S.env (a.plain S :: (gather S a.keys xs).map (·.2)) ↔
      M ∈ validOf S.env (b.plain S :: (gather S b.keys ys).map (·.2))))
    (hoa : (a.merge S xs).2.isOk = true) (hob : (b.merge S ys).2.isOk = true) :
    (a.merge S xs).1.content = (b.merge S ys).1.content ∧
      (a.merge S xs).1.seqno = (b.merge S ys).1.seqno ∧
      ((a.merge S xs).1.st = .dirty ↔ (b.merge S ys).1.st = .dirty) ∧
      ((a.merge S xs).1.st = .dirty → (a.merge S xs).1.plain S = (b.merge S ys).1.plain S) := by
  have key : ∀ {c : Client} {zs : List (Bytes × Bytes)}, c.seqno ≠ 0 →
      (c.merge S zs).2.isOk = true → ∃ R bad,
        mergeMsgs S.env ((c.allConfs S.env (gather S c.keys zs)).map (·.2)) = .ok (R, bad) ∧
        c.merge S zs = c.absorb S (c.allConfs S.env (gather S c.keys zs)) R bad ∧
        (c.allConfs S.env (gather S c.keys zs)).map (·.2) = c.plain S :: (gather S c.keys zs).map (·.2) := by
    intro c zs h0 hok
    have hsafe : (c.merge S zs).2.safe = true := by
      cases hh : (c.merge S zs).2 with
      | ok _ => rfl
      | err _ => rfl
      | hang => rw [hh] at hok; cases hok
      | ub => rw [hh] at hok; cases hok
    rcases merge_cases hsafe with ⟨e, he, _⟩ | ⟨R, bad, _, h2, h3⟩
    · rw [he] at hok; cases hok
    · refine ⟨R, bad, h2, h3, ?_⟩
      have : c.hasMine = true := by
        unfold Client.hasMine; unfold Client.seqno at h0; simp [h0]
      unfold Client.allConfs
      rw [this]; rfl
  obtain ⟨Ra, bada, hRa, hma, hia⟩ := key ha0 hoa
  obtain ⟨Rb, badb, hRb, hmb, hib⟩ := key hb0 hob
  obtain ⟨a1, a2, a3, a4⟩ := absorb_result hS (ha.inv hS) hna ha0 hro hfa hca hRa
  obtain ⟨b1, b2, b3, b4⟩ := absorb_result hS (hb.inv hS) hnb hb0 hro hfb hcb hRb
  rw [← hma] at a1 a2 a3 a4
  rw [← hmb] at b1 b2 b3 b4
  have hpa := (mergeMsgs_ok_iff.1 ⟨bada, hRa⟩).2
  have hpb := (mergeMsgs_ok_iff.1 ⟨badb, hRb⟩).2
  obtain ⟨R', hR', hsr⟩ := mergeParsed_congr hS.lag1 (goodBatch_of hca)
    (cs' := validOf S.env ((b.allConfs S.env (gather S b.keys ys)).map (·.2)))
    (by intro M; rw [hia, hib]; exact hsame M) hpa
  rw [hpb] at hR'
  have := Out.ok.inj hR'
  subst this
  obtain ⟨s1, s2, s3, s4, s5, s6, s7, s8⟩ := hsr
  refine ⟨by rw [a1, b1, s1], by rw [a2, b2, s5], ?_, fun hd => ?_⟩
  · constructor
    · intro hd
      have hu : Ra.unmerged = -1 := by by_contra hu; exact a3 hu hd
      exact (b4 (s8.1 hu)).1
    · intro hd
      have hu : Rb.unmerged = -1 := by by_contra hu; exact b3 hu hd
      exact (a4 (s8.2 hu)).1
  · have hu : Ra.unmerged = -1 := by by_contra hu; exact a3 hu hd
    have hu' := s8.1 hu
    unfold Client.plain
    rw [(a4 hu).2, (b4 hu').2]
    have : Ra = Rb := by
      cases Ra; cases Rb
      simp only at s1 s2 s3 s4 s5 s6 s7 hu hu'
      subst s1 s2 s3 s4 s5 s6 s7 hu hu'
      rfl
    rw [this]

/-- Two objects holding the same config, both edited and pushed. -/
def exP : Client := ((exC3.edit exSys [([97], .scalar (.int 6))]).1.push exSys).1
def exQ : Client := (exD2.push exSys).1
def exMP : Bytes := match ((exC3.edit exSys [([97], .scalar (.int 6))]).1.push exSys).2 with
  | .ok (_, m, _) => m
  | _ => []

/-- C35: the two pushes cross; both objects merge the other's, and get the same new version. -/
example : exP.st = .waiting ∧ exQ.st = .waiting ∧ exP.seqno = 2 ∧ exQ.seqno = 2 ∧
    exP.plain exSys ≠ exQ.plain exSys ∧
    gather exSys exP.keys [([1], exM2)] = [([1], exQ.plain exSys)] ∧
    gather exSys exQ.keys [([2], exMP), ([3], [7])] = [([2], exP.plain exSys)] ∧
    (exP.merge exSys [([1], exM2)]).2 = .ok [[1]] ∧ (exQ.merge exSys [([2], exMP), ([3], [7])]).2 = .ok [[2]] ∧
    (exP.merge exSys [([1], exM2)]).1.st = .dirty ∧ (exP.merge exSys [([1], exM2)]).1.seqno = 3 ∧
    (exP.merge exSys [([1], exM2)]).1.content = [([97], .scalar (.int 6)), ([122], .scalar (.int 1))] ∧
    (exP.merge exSys [([1], exM2)]).1.plain exSys =
      (exQ.merge exSys [([2], exMP), ([3], [7])]).1.plain exSys := by decide +kernel

/-- C34.  A config kind that wraps its messages also takes messages without the wrapper, as versions that do not wrap
them send: whatever cannot be unwrapped is read as if the kind did not wrap at all. -/
theorem receive_unwrapped {S : Sys} {w : Bytes → Bytes → Int → Out Bytes} {u : Bytes → Bytes → Option Bytes}
    (hp : S.proto = some (w, u)) {keys : List Bytes} {raw : Bytes}
    (hu : ∀ k, keys.head? = some k → u k raw = none) :
    receive S keys raw = receive { S with proto := none } keys raw := by
  have h1 : unwrapOne S keys raw = raw := by
    unfold unwrapOne
    rw [hp]
    cases keys with
    | nil => rfl
    | cons k ks => simp only [hu k rfl, Option.getD_none]
  have h2 : ∀ (ks : List Bytes) (b : Bytes), openWith { S with proto := none } ks b = openWith S ks b := by
    intro ks b
    induction ks with
    | nil => rfl
    | cons k t ih => simp only [openWith, ih]
  unfold receive
  rw [h1, h2]
  rfl

theorem receive_unwrapped_sent {S : Sys} (hS : S.Good)
    {w : Bytes → Bytes → Int → Out Bytes} {u : Bytes → Bytes → Option Bytes}
    (hp : S.proto = some (w, u)) {k : Bytes} (hk : k.length = 32) {s : Int} {t out : Bytes}
    (h : envelope { S with proto := none } k s (100 :: t) = .ok out) (pre post : List Bytes)
    (hpre : ∀ k' ∈ pre, ∀ m, decrypt S.P out k' S.domain ≠ .ok m)
    (hu : ∀ k', (pre ++ k :: post).head? = some k' → u k' out = none) :
    receive S (pre ++ k :: post) out = some (100 :: t) := by
  rw [receive_unwrapped hp hu]
  exact receive_any (S := { S with proto := none }) { hS with proto := fun _ _ h => by cases h } rfl hk h pre post hpre

end Verif
