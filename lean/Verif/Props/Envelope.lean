import Verif.Props.Protos

/-!
# Envelopes made by other programs (C149)

`unwrap_config` takes any protobuf encoding of the documented messages: fields in any order, with further fields, and with any
amount of padding.
-/

namespace Verif

theorem pBytes_iff {n : Nat} {v : Bytes} {l : List (Nat × PVal)} : pBytes n l = some v ↔ LastLen n v l := by
  refine ⟨pBytes_some, ?_⟩
  rintro ⟨a, b, rfl, hb⟩
  induction a with
  | nil =>
    show (match pBytes n b with
      | some x => some x
      | none => if n = n then some v else none) = some v
    rw [pBytes_none.2 hb, if_pos rfl]
  | cons x a ih =>
    obtain ⟨k, y⟩ := x
    cases y with
    | len w =>
      show (match pBytes n (a ++ (n, .len v) :: b) with
        | some x => some x
        | none => if k = n then some w else none) = some v
      rw [ih]
    | int _ => exact ih
    | skipped => exact ih

theorem pInt_of_none {n : Nat} {ok : Nat → Bool} : ∀ {l : List (Nat × PVal)},
    (∀ w, ok w = true → (n, PVal.int w) ∉ l) → pInt n ok l = none
  | [], _ => rfl
  | (k, .int v) :: t, h => by
    have ht := pInt_of_none (l := t) fun w hw hm => h w hw (List.mem_cons_of_mem _ hm)
    show (match pInt n ok t with
      | some x => some x
      | none => if k = n ∧ ok v = true then some v else none) = none
    rw [ht]
    by_cases hk : k = n ∧ ok v = true
    · obtain ⟨rfl, hv⟩ := hk
      exact absurd (List.mem_cons_self ..) (h v hv)
    · exact if_neg hk
  | (k, .len v) :: t, h => pInt_of_none (l := t) fun w hw hm => h w hw (List.mem_cons_of_mem _ hm)
  | (k, .skipped) :: t, h => pInt_of_none (l := t) fun w hw hm => h w hw (List.mem_cons_of_mem _ hm)

theorem pInt_iff {n v : Nat} {ok : Nat → Bool} {l : List (Nat × PVal)} : pInt n ok l = some v ↔ LastInt n ok v l := by
  refine ⟨pInt_some, ?_⟩
  rintro ⟨a, b, rfl, hv, hb⟩
  induction a with
  | nil =>
    show (match pInt n ok b with
      | some x => some x
      | none => if n = n ∧ ok v = true then some v else none) = some v
    rw [pInt_of_none hb, if_pos ⟨rfl, hv⟩]
  | cons x a ih =>
    obtain ⟨k, y⟩ := x
    cases y with
    | int w =>
      show (match pInt n ok (a ++ (n, .int v) :: b) with
        | some x => some x
        | none => if k = n ∧ ok w = true then some w else none) = some v
      rw [ih]
    | len _ => exact ih
    | skipped => exact ih

/-- The value of an optional bytes field: the last one, empty if there is none -/
def OptLen (n : Nat) (v : Bytes) (l : List (Nat × PVal)) : Prop :=
  LastLen n v l ∨ (v = [] ∧ ∀ w, (n, PVal.len w) ∉ l)

theorem optLen_iff {n : Nat} {v : Bytes} {l : List (Nat × PVal)} : (pBytes n l).getD [] = v ↔ OptLen n v l := by
  unfold OptLen
  cases h : pBytes n l with
  | none =>
    have h1 := pBytes_none.1 h
    constructor
    · intro e; exact .inr ⟨e.symm, h1⟩
    · rintro (h2 | ⟨rfl, _⟩)
      · rw [pBytes_iff.2 h2] at h; cases h
      · rfl
  | some x =>
    constructor
    · intro e; exact .inl (pBytes_iff.1 (by rw [h]; exact congrArg some e))
    · rintro (h2 | ⟨_, h2⟩)
      · rw [pBytes_iff.2 h2] at h; exact (Option.some.inj h).symm
      · rw [pBytes_none.2 h2] at h; cases h

/-- These bytes are a `WebSocketMessage` of type REQUEST (field 1) whose request (field 2) has as body (field 3) an `Envelope` with
a known type (field 1), a timestamp (field 5) and this content (field 8); all other fields do not matter
(proto/WebSocketResources.proto:19-51, proto/SessionProtos.proto:9-24). -/
def EnvelopeIs (raw content : Bytes) : Prop :=
  ∃ fs req rs body es t, readFields raw = some fs ∧ readSubs (lenFields 2 fs) = some req ∧
    readSubs (lenFields 3 fs) = some rs ∧
    LastInt 1 (fun v => decide (v % 2 ^ 32 ≤ 2)) t fs ∧ t % 2 ^ 32 = 1 ∧
    OptLen 3 body req ∧ readFields body = some es ∧
    (∃ y, LastInt 1 (fun v => decide (v % 2 ^ 32 = 6 ∨ v % 2 ^ 32 = 7)) y es) ∧ (∃ y, LastInt 5 (fun _ => true) y es) ∧
    OptLen 8 content es

theorem getEnvelope_iff {raw content : Bytes} : getEnvelope raw = some content ↔ EnvelopeIs raw content := by
  constructor
  · intro h
    unfold getEnvelope at h
    cases hf : readFields raw with
    | none => rw [hf] at h; cases h
    | some fs =>
      rw [hf] at h
      dsimp only at h
      rw [pSubs_eq, pSubs_eq] at h
      cases h2 : readSubs (lenFields 2 fs) with
      | none => rw [h2] at h; cases h
      | some req =>
        cases h3 : readSubs (lenFields 3 fs) with
        | none => rw [h2, h3] at h; cases h
        | some rs =>
          rw [h2, h3] at h
          dsimp only at h
          by_cases ht : (pInt 1 (fun v => decide (v % 2 ^ 32 ≤ 2)) fs).map (· % 2 ^ 32) = some 1
          · rw [if_neg (not_not.2 ht)] at h
            obtain ⟨t, h1, ht⟩ := Option.map_eq_some_iff.1 ht
            cases he : readFields ((pBytes 3 req).getD []) with
            | none => rw [he] at h; cases h
            | some es =>
              rw [he] at h
              dsimp only at h
              split at h
              · rename_i y z hy hz
                exact ⟨fs, req, rs, _, es, t, hf, h2, h3, pInt_some h1, ht, optLen_iff.1 rfl, he, ⟨y, pInt_some hy⟩,
                  ⟨z, pInt_some hz⟩, optLen_iff.1 (Option.some.inj h)⟩
              · cases h
          · rw [if_pos ht] at h; cases h
  · rintro ⟨fs, req, rs, body, es, t, hf, h2, h3, ht, ht1, hb, he, ⟨y, hy⟩, ⟨z, hz⟩, hc⟩
    unfold getEnvelope
    rw [hf]
    dsimp only
    rw [pSubs_eq, pSubs_eq, h2, h3]
    dsimp only
    rw [if_neg (by rw [pInt_iff.2 ht]; exact fun hx => hx (congrArg some ht1)), optLen_iff.2 hb, he]
    dsimp only
    rw [pInt_iff.2 hy, pInt_iff.2 hz]
    dsimp only
    rw [optLen_iff.2 hc]

/-- The other messages in a `Content` (fields 1, 3 and 5 to 10, proto/SessionProtos.proto:53-63), where present, parse.  The parser
of those message types is a parameter. -/
def OthersParse (other : Nat → Bytes → Bool) (plain : Bytes) : Prop :=
  ∃ fs, readFields plain = some fs ∧ ∀ n v, (n, PVal.len v) ∈ fs → n ∈ [1, 3, 5, 6, 7, 8, 9, 10] → other n v = true

theorem getShared_iff {other : Nat → Bytes → Bool} {plain data : Bytes} {kind : Nat} :
    getShared other plain = some (kind, data) ↔ SharedConfig plain kind data ∧ OthersParse other plain := by
  have hall : ∀ fs : List (Nat × PVal), (fs.all fun x => match x with
        | (n, .len v) => !(n ∈ [1, 3, 5, 6, 7, 8, 9, 10]) || other n v
        | _ => true) = true ↔
      ∀ n v, (n, PVal.len v) ∈ fs → n ∈ [1, 3, 5, 6, 7, 8, 9, 10] → other n v = true := by
    intro fs
    rw [List.all_eq_true]
    constructor
    · intro h n v hm hn
      have h1 := h _ hm
      dsimp only at h1
      rw [decide_eq_true hn] at h1
      simpa using h1
    · intro h x hx
      obtain ⟨n, y⟩ := x
      cases y with
      | len v =>
        dsimp only
        by_cases hn : n ∈ [1, 3, 5, 6, 7, 8, 9, 10]
        · rw [h n v hx hn, Bool.or_true]
        · rw [decide_eq_false hn]; rfl
      | int _ => rfl
      | skipped => rfl
  constructor
  · intro h
    refine ⟨getShared_says h, ?_⟩
    unfold getShared at h
    cases hf : readFields plain with
    | none => rw [hf] at h; cases h
    | some fs =>
      rw [hf] at h
      dsimp only at h
      refine ⟨fs, hf, (hall fs).1 ?_⟩
      split at h
      · cases h
      · rename_i hx; exact Bool.eq_true_of_not_eq_false hx
  · rintro ⟨⟨fs, ss, k, hf, hne, hs, h1, rfl, ⟨s, h2⟩, h3⟩, fs', hf', ho⟩
    rw [hf] at hf'; cases hf'
    unfold getShared
    rw [hf]
    dsimp only
    rw [if_neg (fun hx => absurd (hx.symm.trans ((hall fs).2 ho)) (by simp)), pSubs_eq, if_neg hne, hs]
    dsimp only
    rw [pInt_iff.2 h1, pInt_iff.2 h2, pBytes_iff.2 h3]

/-- The values of the field with this number, in order -/
def allOf (n : Nat) (l : List (Nat × PVal)) : List PVal := (l.filter fun x => x.1 = n).map (·.2)

/-- The last of them -/
def lastOf (n : Nat) (l : List (Nat × PVal)) : Option PVal := (allOf n l).getLast?

theorem mem_allOf {n : Nat} {v : PVal} {l : List (Nat × PVal)} : v ∈ allOf n l ↔ (n, v) ∈ l := by
  unfold allOf
  simp

theorem lastOf_some {n : Nat} {v : PVal} : ∀ {l : List (Nat × PVal)}, lastOf n l = some v →
    ∃ a b, l = a ++ (n, v) :: b ∧ ∀ w, (n, w) ∉ b
  | [], h => by cases h
  | x :: l, h => by
    by_cases hl : allOf n l = []
    · by_cases hx : x.1 = n
      · have : allOf n (x :: l) = [x.2] := by
          unfold allOf at hl ⊢
          rw [List.filter_cons_of_pos (by simpa using hx), List.map_cons, hl]
        unfold lastOf at h
        rw [this] at h
        have hv : x.2 = v := Option.some.inj h
        refine ⟨[], l, ?_, fun w hw => ?_⟩
        · rw [← hx, ← hv]; rfl
        · have := mem_allOf.2 hw
          rw [hl] at this; cases this
      · have : allOf n (x :: l) = [] := by
          unfold allOf at hl ⊢
          rw [List.filter_cons_of_neg (by simpa using hx), hl]
        unfold lastOf at h
        rw [this] at h; cases h
    · have : lastOf n l = some v := by
        rw [← h]
        unfold lastOf
        by_cases hx : x.1 = n
        · have e : allOf n (x :: l) = x.2 :: allOf n l := by
            unfold allOf
            rw [List.filter_cons_of_pos (by simpa using hx), List.map_cons]
          rw [e, List.getLast?_cons]
          cases hg : (allOf n l).getLast? with
          | none => exact absurd (List.getLast?_eq_none_iff.1 hg) hl
          | some _ => rfl
        · have e : allOf n (x :: l) = allOf n l := by
            unfold allOf
            rw [List.filter_cons_of_neg (by simpa using hx)]
          rw [e]
      obtain ⟨a, b, e, hb⟩ := lastOf_some this
      exact ⟨x :: a, b, by rw [e]; rfl, hb⟩

theorem lenFields_allOf (n : Nat) (l : List (Nat × PVal)) :
    lenFields n l = (allOf n l).filterMap fun v => match v with
      | .len b => some b
      | _ => none := by
  unfold lenFields allOf
  induction l with
  | nil => rfl
  | cons x l ih =>
    obtain ⟨k, v⟩ := x
    by_cases hk : k = n
    · rw [List.filter_cons_of_pos (by simpa using hk), List.map_cons]
      cases v <;> simp [hk, ih]
    · rw [List.filter_cons_of_neg (by simpa using hk), ← ih]
      cases v <;> simp [hk]

section
variable {G : Type} [AddCommGroup G] [DecidableEq G] {C : ECurve G}

/-- C149.  `unwrap_config` returns `data` exactly if the input is an envelope whose content, decrypted, is a message of the owner to
himself that consists of a config message with `data` of that namespace and a byte 0x80 and any number of zeros.  Every
encoding of the protobuf messages will do. -/
theorem unwrap_iff (h : C.Good) (other : Nat → Bytes → Bool) {seed sk raw data : Bytes} {ns : Int} (hk : C.IsKey seed sk) :
    C.unwrapConfig other sk raw ns = .ok data ↔
      ∃ content plain n kind, EnvelopeIs raw content ∧
        C.decryptIncoming (C.edSk seed) content = .ok (plain ++ 128 :: List.replicate n 0, C.enc (C.pub seed)) ∧
        nsKind ns = some kind ∧ SharedConfig plain kind data ∧ OthersParse other plain := by
  unfold ECurve.unwrapConfig
  rw [hk.fullSk, Out.ok_bind, h.s.edSk_drop hk.1]
  constructor
  · intro hu
    cases hg : getEnvelope raw with
    | none => rw [hg] at hu; cases hu
    | some content =>
      rw [hg] at hu
      dsimp only at hu
      obtain ⟨⟨m, A⟩, hd, hu⟩ := Out.bind_eq_ok.1 hu
      dsimp only at hu
      by_cases hA : A = C.enc (C.pub seed)
      · rw [if_neg (not_not.2 hA)] at hu
        subst hA
        cases hp : unpadEnd m with
        | none => rw [hp] at hu; cases hu
        | some plain =>
          rw [hp] at hu
          dsimp only at hu
          cases hs : getShared other plain with
          | none => rw [hs] at hu; cases hu
          | some kd =>
            obtain ⟨kind, d⟩ := kd
            rw [hs] at hu
            dsimp only at hu
            by_cases hns : nsKind ns = some kind
            · rw [if_pos hns] at hu
              have := Out.ok.inj hu
              subst this
              obtain ⟨n, hm⟩ := unpadEnd_some hp
              subst hm
              exact ⟨content, plain, n, kind, getEnvelope_iff.1 hg, hd, hns, getShared_iff.1 hs⟩
            · rw [if_neg hns] at hu; cases hu
      · rw [if_pos hA] at hu; cases hu
  · rintro ⟨content, plain, n, kind, he, hd, hns, hs⟩
    rw [getEnvelope_iff.2 he]
    dsimp only
    rw [hd, Out.ok_bind]
    dsimp only
    rw [if_neg (by simp), unpadEnd_pad]
    dsimp only
    rw [getShared_iff.2 hs]
    dsimp only
    rw [if_pos hns]

/-- The encoding of a message with these fields, in this order (varint and length-delimited fields, numbers up to 15) -/
def FieldsAre (b : Bytes) (l : List (Nat × PVal)) : Prop := b = l.flatMap putField ∧ ∀ x ∈ l, fieldOk x

theorem FieldsAre.read {b : Bytes} {l : List (Nat × PVal)} (h : FieldsAre b l) : readFields b = some l := by
  rw [h.1]; exact readFields_put l h.2

theorem FieldsAre.subs {b : Bytes} {l : List (Nat × PVal)} (h : FieldsAre b l) : readSubs [b] = some l := by
  rw [h.1]; exact readSubs_put l h.2

/-- C149.  In particular the order of the fields and further fields do not matter, at each of the five levels: `inner` is the config
message with kind, sequence number and data, `outer` the content around it, `env` the envelope with type, timestamp and
content, `req` the request with the envelope as its body, and `ws` the message with type REQUEST and the request; each may
have any further fields at any place, and the padding may have any length. -/
theorem unwrap_any_encoding (h : C.Good) (other : Nat → Bytes → Bool) {seed sk raw data : Bytes} {ns : Int} {kind : Nat}
    (hk : C.IsKey seed sk) (hns : nsKind ns = some kind)
    {inner outer env req ws : List (Nat × PVal)} {b1 b2 b3 b4 content : Bytes} {n y : Nat}
    (h1 : FieldsAre b1 inner) (h2 : FieldsAre b2 outer) (h3 : FieldsAre b3 env) (h4 : FieldsAre b4 req) (h5 : FieldsAre raw ws)
    (hkind : lastOf 1 inner = some (.int kind)) (hseq : ∃ s, lastOf 2 inner = some (.int s))
    (hdata : lastOf 3 inner = some (.len data))
    (hshared : allOf 11 outer = [.len b1]) (hother : ∀ m ∈ [1, 3, 5, 6, 7, 8, 9, 10], allOf m outer = [])
    (hdec : C.decryptIncoming (C.edSk seed) content = .ok (b2 ++ 128 :: List.replicate n 0, C.enc (C.pub seed)))
    (htype : lastOf 1 env = some (.int y)) (hy : y = 6 ∨ y = 7) (htime : ∃ t, lastOf 5 env = some (.int t))
    (hcont : lastOf 8 env = some (.len content)) (hbody : lastOf 3 req = some (.len b3))
    (hreq : lastOf 1 ws = some (.int 1)) (hone : allOf 2 ws = [.len b4]) (hresp : allOf 3 ws = []) :
    C.unwrapConfig other sk raw ns = .ok data := by
  have hL : ∀ {m : Nat} {v : Bytes} {l : List (Nat × PVal)}, lastOf m l = some (.len v) → LastLen m v l := by
    intro m v l hl
    obtain ⟨a, b, e, hb⟩ := lastOf_some hl
    exact ⟨a, b, e, fun w hw => hb _ hw⟩
  have hI : ∀ {m v : Nat} {ok : Nat → Bool} {l : List (Nat × PVal)}, lastOf m l = some (.int v) → ok v = true →
      LastInt m ok v l := by
    intro m v ok l hl hv
    obtain ⟨a, b, e, hb⟩ := lastOf_some hl
    exact ⟨a, b, e, hv, fun w _ hw => hb _ hw⟩
  have hS : ∀ {m : Nat} {v : Bytes} {l : List (Nat × PVal)}, allOf m l = [.len v] → lenFields m l = [v] := by
    intro m v l hl
    rw [lenFields_allOf, hl]; rfl
  obtain ⟨k1, k2⟩ := nsKind_range hns
  obtain ⟨s, hs⟩ := hseq
  obtain ⟨t, ht⟩ := htime
  refine (unwrap_iff h other hk).2 ⟨content, b2, n, kind, ?_, hdec, hns, ?_, ?_⟩
  · refine ⟨ws, req, [], b3, env, 1, h5.read, by rw [hS hone]; exact h4.subs,
      by rw [lenFields_allOf, hresp]; rfl, hI hreq (by decide), by decide, .inl (hL hbody), h3.read,
      ⟨y, hI htype (by rcases hy with rfl | rfl <;> decide)⟩, ⟨t, hI ht rfl⟩, .inl (hL hcont)⟩
  · have e1 : kind % 2 ^ 32 = kind := Nat.mod_eq_of_lt (by omega)
    refine ⟨outer, inner, kind, h2.read, by rw [hS hshared]; simp, by rw [hS hshared]; exact h1.subs,
      hI hkind ?_, e1.symm, ⟨s, hI hs rfl⟩, hL hdata⟩
    rw [e1]; exact decide_eq_true ⟨k1, k2⟩
  · refine ⟨outer, h2.read, fun m v hm hmem => ?_⟩
    have := hother m hmem
    have hin : PVal.len v ∈ allOf m outer := mem_allOf.2 hm
    rw [this] at hin; cases hin

end

/-- An envelope of another program: further fields (verb, path, a request id first, source, a server timestamp, an expiration), other orders,
repeated fields of which the last counts, and three bytes of padding. -/
example : ∃ content, toyEK.encryptForDet (toyEK.edSk toySeed) ((toyEK.edToX ((toyEK.edSk toySeed).drop 32)).getD [])
      (([(12, .int 5), (11, .len ([(3, .len [9]), (2, .int 7), (3, .len [1, 2, 3]), (1, .int 2)].flatMap putField))]).flatMap putField ++
        [128, 0, 0]) = .ok content ∧
    toyEK.unwrapConfig (fun _ _ => false) toySeed
      ([(2, .len ([(4, .int 900), (2, .len [47]),
          (3, .len ([(10, .int 3), (8, .len content), (5, .int 1700000000000), (2, .len [48, 53]), (1, .int 7)].flatMap putField)),
          (1, .len [80, 85, 84])].flatMap putField)), (1, .int 0), (1, .int 1)].flatMap putField) 3 = .ok [1, 2, 3] := by
  refine ⟨(toyEK.encryptForDet (toyEK.edSk toySeed) ((toyEK.edToX ((toyEK.edSk toySeed).drop 32)).getD [])
      (([(12, .int 5), (11, .len ([(3, .len [9]), (2, .int 7), (3, .len [1, 2, 3]), (1, .int 2)].flatMap putField))]).flatMap putField ++
        [128, 0, 0])).casesOn (fun x => x) (fun _ => []) [] [], ?_, ?_⟩
  all_goals decide +kernel

/-! ### Parts of a message -/

/-- the bytes of these fields -/
def putFields (l : List (Nat × PVal)) : Bytes := l.flatMap putField

theorem readSubs_append (a b : List Bytes) : readSubs (a ++ b) = match readSubs a, readSubs b with
    | some x, some y => some (x ++ y)
    | _, _ => none := by
  induction a with
  | nil => rw [List.nil_append]; cases readSubs b <;> rfl
  | cons h t ih =>
    rw [List.cons_append, readSubs, readSubs, ih]
    cases readFields h <;> cases readSubs t <;> cases readSubs b <;> simp

theorem readSubs_part {l : List (Nat × PVal)} (h : ∀ x ∈ l, fieldOk x) (t : List Bytes) :
    readSubs (putFields l :: t) = (readSubs t).map (l ++ ·) := by
  rw [readSubs, putFields, readFields_put l h]
  cases readSubs t <;> rfl

theorem pInt_skip (n : Nat) (ok : Nat → Bool) (k : Nat) (v : Bytes) (a b : List (Nat × PVal)) :
    pInt n ok (a ++ (k, .len v) :: b) = pInt n ok (a ++ b) := by
  induction a with
  | nil => rfl
  | cons x t ih =>
    obtain ⟨j, y⟩ := x
    cases y <;> simp only [List.cons_append, pInt, ih]

theorem pSubs_append (n : Nat) (a b : List (Nat × PVal)) : pSubs n (a ++ b) = pSubs n a ++ pSubs n b := by
  rw [pSubs_eq, pSubs_eq, pSubs_eq]; exact List.filterMap_append

/-- A request that comes in two parts, wherever they stand among the other fields, is read as if its fields came in one. -/
theorem getEnvelope_parts {fs mid fs' r r' : List (Nat × PVal)} (h1 : ∀ x ∈ fs ++ mid ++ fs', fieldOk x)
    (h2 : ∀ x ∈ r ++ r', fieldOk x) (hl : (putFields (r ++ r')).length < 2 ^ 31 - 16) (hm : ∀ v, (2, PVal.len v) ∉ mid) :
    getEnvelope (putFields (fs ++ (2, .len (putFields r)) :: (mid ++ (2, .len (putFields r')) :: fs'))) =
      getEnvelope (putFields (fs ++ (2, .len (putFields (r ++ r'))) :: (mid ++ fs'))) := by
  have hr : ∀ x ∈ r, fieldOk x := fun x hx => h2 x (List.mem_append_left _ hx)
  have hr' : ∀ x ∈ r', fieldOk x := fun x hx => h2 x (List.mem_append_right _ hx)
  have hlen : (putFields (r ++ r')).length = (putFields r).length + (putFields r').length := by
    unfold putFields; rw [List.flatMap_append, List.length_append]
  have hok : ∀ n v, 1 ≤ n → n ≤ 15 → v.length < 2 ^ 31 - 16 → fieldOk (n, PVal.len v) := fun n v a b c => ⟨a, b, c⟩
  have k1 : ∀ x ∈ fs ++ (2, PVal.len (putFields r)) :: (mid ++ (2, PVal.len (putFields r')) :: fs'), fieldOk x := by
    intro x hx
    simp only [List.mem_append, List.mem_cons] at hx
    rcases hx with hx | hx | hx | hx | hx
    · exact h1 x (by simp [hx])
    · rw [hx]; exact hok _ _ (by decide) (by decide) (by omega)
    · exact h1 x (by simp [hx])
    · rw [hx]; exact hok _ _ (by decide) (by decide) (by omega)
    · exact h1 x (by simp [hx])
  have k2 : ∀ x ∈ fs ++ (2, PVal.len (putFields (r ++ r'))) :: (mid ++ fs'), fieldOk x := by
    intro x hx
    simp only [List.mem_append, List.mem_cons] at hx
    rcases hx with hx | hx | hx | hx
    · exact h1 x (by simp [hx])
    · rw [hx]; exact hok _ _ (by decide) (by decide) hl
    · exact h1 x (by simp [hx])
    · exact h1 x (by simp [hx])
  have e1 : ∀ ok, pInt 1 ok (fs ++ (2, PVal.len (putFields r)) :: (mid ++ (2, PVal.len (putFields r')) :: fs')) =
      pInt 1 ok (fs ++ (2, PVal.len (putFields (r ++ r'))) :: (mid ++ fs')) := by
    intro ok
    rw [pInt_skip, pInt_skip, ← List.append_assoc, pInt_skip, List.append_assoc]
  have hm2 : pSubs 2 mid = [] := by
    rw [pSubs_eq]
    refine List.filterMap_eq_nil_iff.2 fun x hx => ?_
    obtain ⟨n, v⟩ := x
    cases v with
    | len v => exact if_neg fun (hn : n = 2) => hm v (by rw [← hn]; exact hx)
    | int _ => rfl
    | skipped => rfl
  have c2 : ∀ v l, pSubs 2 ((2, PVal.len v) :: l) = v :: pSubs 2 l := fun v l => if_pos rfl
  have c3 : ∀ v l, pSubs 3 ((2, PVal.len v) :: l) = pSubs 3 l := fun v l => if_neg (by decide)
  have e2 : readSubs (pSubs 2 (fs ++ (2, PVal.len (putFields r)) :: (mid ++ (2, PVal.len (putFields r')) :: fs'))) =
      readSubs (pSubs 2 (fs ++ (2, PVal.len (putFields (r ++ r'))) :: (mid ++ fs'))) := by
    simp only [pSubs_append, c2, hm2, List.nil_append, readSubs_append, readSubs_part hr, readSubs_part hr', readSubs_part h2]
    cases readSubs (pSubs 2 fs) <;> cases readSubs (pSubs 2 fs') <;> simp
  have e3 : pSubs 3 (fs ++ (2, PVal.len (putFields r)) :: (mid ++ (2, PVal.len (putFields r')) :: fs')) =
      pSubs 3 (fs ++ (2, PVal.len (putFields (r ++ r'))) :: (mid ++ fs')) := by
    simp only [pSubs_append, c3]
  unfold getEnvelope
  rw [show readFields (putFields _) = _ from readFields_put _ k1, show readFields (putFields _) = _ from readFields_put _ k2]
  dsimp only
  rw [e1, e2, e3]

/-- C149.  A request that comes in two parts, wherever they stand among the other fields, is read as if its fields came in one. -/
theorem request_in_parts {G : Type} [AddCommGroup G] [DecidableEq G] {C : ECurve G} (other : Nat → Bytes → Bool) (sk : Bytes) (ns : Int) {fs mid fs' r r' : List (Nat × PVal)}
    (h1 : ∀ x ∈ fs ++ mid ++ fs', fieldOk x) (h2 : ∀ x ∈ r ++ r', fieldOk x) (hl : (putFields (r ++ r')).length < 2 ^ 31 - 16)
    (hm : ∀ v, (2, PVal.len v) ∉ mid) :
    C.unwrapConfig other sk (putFields (fs ++ (2, .len (putFields r)) :: (mid ++ (2, .len (putFields r')) :: fs'))) ns =
      C.unwrapConfig other sk (putFields (fs ++ (2, .len (putFields (r ++ r'))) :: (mid ++ fs'))) ns := by
  unfold ECurve.unwrapConfig
  rw [getEnvelope_parts h1 h2 hl hm]

/-- Verb and path of the request before the type, its body after it -/
example : ∃ content, toyEK.encryptForDet (toyEK.edSk toySeed) ((toyEK.edToX ((toyEK.edSk toySeed).drop 32)).getD [])
      (putContent 2 7 [1, 2, 3] ++ [128]) = .ok content ∧
    toyEK.unwrapConfig (fun _ _ => false) toySeed
      (putFields ([] ++ (2, .len (putFields [(1, .len [80]), (2, .len [47])])) :: ([(1, .int 1)] ++
        (2, .len (putFields [(3, .len (putFields [(1, .int 7), (5, .int 9), (8, .len content)]))])) :: []))) 3 = .ok [1, 2, 3] := by
  refine ⟨(toyEK.encryptForDet (toyEK.edSk toySeed) ((toyEK.edToX ((toyEK.edSk toySeed).drop 32)).getD [])
      (putContent 2 7 [1, 2, 3] ++ [128])).casesOn (fun x => x) (fun _ => []) [] [], ?_, ?_⟩
  all_goals decide +kernel

end Verif
