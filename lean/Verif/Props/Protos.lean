import Verif.Protos
import Verif.Props.SessionEncrypt
import Verif.Props.Client

/-!
# C99: the protobuf envelope around config messages
-/

namespace Verif

/-! ### The wire format reads back what it writes -/

theorem readVarint_varintF : ∀ (g f n : Nat) (r : Bytes), n < 128 ^ (g + 1) → n < 128 ^ (f + 1) →
    readVarint (g + 1) (varintF (f + 1) n ++ r) = some (n, r) := by
  intro g
  induction g with
  | zero =>
    intro f n r hg _
    have hn : n < 128 := by simpa using hg
    unfold varintF
    rw [if_pos hn]
    have h1 : (UInt8.ofNat n).toNat = n := by rw [UInt8.toNat_ofNat']; omega
    simp only [List.cons_append, List.nil_append, readVarint]
    rw [if_pos (by rw [UInt8.lt_iff_toNat_lt, h1]; exact hn), h1]
  | succ g ih =>
    intro f n r hg hf
    unfold varintF
    by_cases hn : n < 128
    · rw [if_pos hn]
      have h1 : (UInt8.ofNat n).toNat = n := by rw [UInt8.toNat_ofNat']; omega
      simp only [List.cons_append, List.nil_append, readVarint]
      rw [if_pos (by rw [UInt8.lt_iff_toNat_lt, h1]; exact hn), h1]
    · rw [if_neg hn]
      have h1 : (UInt8.ofNat (n % 128 + 128)).toNat = n % 128 + 128 := by rw [UInt8.toNat_ofNat']; omega
      cases f with
      | zero => exact absurd hf (by simpa using hn)
      | succ f =>
        have hg' : n / 128 < 128 ^ (g + 1) := by
          rw [Nat.div_lt_iff_lt_mul (by decide), ← Nat.pow_succ]; exact hg
        have hf' : n / 128 < 128 ^ (f + 1) := by
          rw [Nat.div_lt_iff_lt_mul (by decide), ← Nat.pow_succ]; exact hf
        rw [List.cons_append, readVarint, if_neg (by rw [UInt8.lt_iff_toNat_lt, h1]; simp), ih f _ r hg' hf']
        simp only [h1]
        congr 2
        omega

/-- A field in writing -/
def putField : Nat × PVal → Bytes
  | (n, .int v) => fInt n v
  | (n, .len b) => fLen n b
  | (_, .skipped) => []

/-- Fields as they are written here -/
def fieldOk : Nat × PVal → Prop
  | (n, .int v) => 1 ≤ n ∧ n ≤ 15 ∧ v < 2 ^ 64
  | (n, .len b) => 1 ≤ n ∧ n ≤ 15 ∧ b.length < 2 ^ 31 - 16
  | (_, .skipped) => False

theorem readTag {t : Nat} (ht : t < 128) (r : Bytes) : readVarint 5 (UInt8.ofNat t :: r) = some (t, r) := by
  have h1 : (UInt8.ofNat t).toNat = t := by rw [UInt8.toNat_ofNat']; omega
  rw [readVarint, if_pos (by rw [UInt8.lt_iff_toNat_lt, h1]; exact ht), h1]

theorem readField_put (x : Nat × PVal) (h : fieldOk x) (r : Bytes) :
    readField (putField x ++ r) = some (x, r) := by
  obtain ⟨n, v⟩ := x
  cases v with
  | skipped => exact h.elim
  | int v =>
    obtain ⟨h1, h2, h3⟩ := h
    simp only [putField, fInt, List.cons_append, readField]
    rw [readTag (by omega)]
    have e1 : 8 * n % 2 ^ 32 / 8 = n := by omega
    have e2 : 8 * n % 8 = 0 := by omega
    simp only [e1, e2]
    rw [if_neg (by omega)]
    rw [show varint v ++ r = varintF (9 + 1) v ++ r from rfl]
    have hb : v < 128 ^ (9 + 1) := lt_trans h3 (by norm_num)
    rw [readVarint_varintF 9 9 v r hb hb]
    simp only [Nat.mod_eq_of_lt h3]
  | len b =>
    obtain ⟨h1, h2, h3⟩ := h
    simp only [putField, fLen, List.cons_append, readField, readSize]
    rw [readTag (by omega)]
    have e1 : (8 * n + 2) % 2 ^ 32 / 8 = n := by omega
    have e2 : (8 * n + 2) % 8 = 2 := by omega
    simp only [e1, e2]
    rw [if_neg (by omega)]
    have hb : b.length < 128 ^ (9 + 1) := lt_trans h3 (by norm_num)
    have hb' : b.length < 128 ^ (4 + 1) := lt_trans h3 (by norm_num)
    rw [show varint b.length ++ b ++ r = varintF (9 + 1) b.length ++ (b ++ r) by
      rw [List.append_assoc]; rfl, readVarint_varintF 4 9 _ _ hb' hb]
    simp only [h3, if_true]
    rw [if_pos (by simp)]
    simp

theorem putField_pos (x : Nat × PVal) (h : fieldOk x) : 1 ≤ (putField x).length := by
  obtain ⟨n, v⟩ := x
  cases v with
  | skipped => exact h.elim
  | int v => simp [putField, fInt]
  | len b => simp [putField, fLen]

theorem readFieldsF_put : ∀ (l : List (Nat × PVal)) (f : Nat), (∀ x ∈ l, fieldOk x) → l.length ≤ f →
    readFieldsF f (l.flatMap putField) = some l
  | [], f, _, _ => by cases f <;> rfl
  | x :: l, 0, _, hf => by simp at hf
  | x :: l, f + 1, h, hf => by
    have hx := h x (List.mem_cons_self ..)
    have hp := putField_pos x hx
    rw [List.flatMap_cons]
    have ih := readFieldsF_put l f (fun y hy => h y (List.mem_cons_of_mem _ hy)) (by simpa using hf)
    have hrf := readField_put x hx (l.flatMap putField)
    cases hb : putField x ++ l.flatMap putField with
    | nil => rw [List.append_eq_nil_iff] at hb; rw [hb.1] at hp; simp at hp
    | cons b t =>
      rw [hb] at hrf
      unfold readFieldsF
      rw [hrf]
      simp only [ih]

theorem flatMap_put_length : ∀ (l : List (Nat × PVal)), (∀ x ∈ l, fieldOk x) → l.length ≤ (l.flatMap putField).length
  | [], _ => by simp
  | x :: l, h => by
    have hp := putField_pos x (h x (List.mem_cons_self ..))
    have ih := flatMap_put_length l (fun y hy => h y (List.mem_cons_of_mem _ hy))
    rw [List.flatMap_cons, List.length_append, List.length_cons]
    omega

theorem readFields_put (l : List (Nat × PVal)) (h : ∀ x ∈ l, fieldOk x) :
    readFields (l.flatMap putField) = some l :=
  readFieldsF_put l _ h (flatMap_put_length l h)

theorem readSubs_put (l : List (Nat × PVal)) (h : ∀ x ∈ l, fieldOk x) :
    readSubs [l.flatMap putField] = some l := by
  simp only [readSubs, readFields_put l h, List.append_nil]

theorem varintF_length : ∀ (f n : Nat), (varintF f n).length ≤ f
  | 0, _ => by simp [varintF]
  | f + 1, n => by
    unfold varintF
    split
    · simp
    · have := varintF_length f (n / 128)
      simp only [List.length_cons]; omega

theorem fInt_length (n v : Nat) : (fInt n v).length ≤ 11 := by
  have := varintF_length 10 v
  simp only [fInt, varint, List.length_cons]; omega

theorem fLen_length (n : Nat) (b : Bytes) : (fLen n b).length ≤ b.length + 11 := by
  have := varintF_length 10 b.length
  simp only [fLen, varint, List.length_cons, List.length_append]; omega

theorem int64Bits_lt (i : Int) : int64Bits i < 2 ^ 64 := by
  unfold int64Bits
  have h1 := Int.emod_lt_of_pos i (b := 2 ^ 64) (by norm_num)
  have h2 := Int.emod_nonneg i (b := 2 ^ 64) (by norm_num)
  omega

theorem nsKind_range {ns : Int} {k : Nat} (h : nsKind ns = some k) : 1 ≤ k ∧ k ≤ 4 := by
  unfold nsKind at h
  repeat' split at h
  all_goals cases h
  all_goals decide

/-- The config message written into a `Content` is read back from it. -/
theorem getShared_put (other : Nat → Bytes → Bool) {ns : Int} {kind : Nat} (hk : nsKind ns = some kind)
    (seqno : Int) {data : Bytes} (hd : data.length < 2 ^ 30) :
    getShared other (putContent kind seqno data) = some (kind, data) := by
  obtain ⟨k1, k2⟩ := nsKind_range hk
  have hs := int64Bits_lt seqno
  set inner : List (Nat × PVal) := [(1, .int kind), (2, .int (int64Bits seqno)), (3, .len data)] with hin
  have hiok : ∀ x ∈ inner, fieldOk x := by
    intro x hx
    simp only [hin, List.mem_cons, List.not_mem_nil, or_false] at hx
    rcases hx with rfl | rfl | rfl
    · exact ⟨by omega, by omega, by omega⟩
    · exact ⟨by omega, by omega, hs⟩
    · exact ⟨by omega, by omega, by omega⟩
  have hput : inner.flatMap putField = fInt 1 kind ++ fInt 2 (int64Bits seqno) ++ fLen 3 data := by
    simp [hin, putField]
  have hlen : (inner.flatMap putField).length < 2 ^ 31 - 16 := by
    rw [hput]
    have a := fInt_length 1 kind
    have b := fInt_length 2 (int64Bits seqno)
    have c := fLen_length 3 data
    simp only [List.length_append]; omega
  set outer : List (Nat × PVal) := [(11, .len (inner.flatMap putField))] with hout
  have hook : ∀ x ∈ outer, fieldOk x := by
    intro x hx
    simp only [hout, List.mem_cons, List.not_mem_nil, or_false] at hx
    subst hx
    exact ⟨by omega, by omega, hlen⟩
  have hc : putContent kind seqno data = outer.flatMap putField := by
    simp only [hout, List.flatMap_cons, List.flatMap_nil, List.append_nil, putField, hput, putContent]
  have hsub := readSubs_put inner hiok
  have e1 : kind % 2 ^ 32 = kind := Nat.mod_eq_of_lt (by omega)
  have i1 : pInt 1 (fun v => decide (1 ≤ v % 2 ^ 32 ∧ v % 2 ^ 32 ≤ 4)) inner = some kind := by
    simp only [hin, pInt, e1]; simp [k1, k2]
  have i2 : pInt 2 (fun _ => true) inner = some (int64Bits seqno) := by simp [hin, pInt]
  have i3 : pBytes 3 inner = some data := by simp [hin, pBytes]
  unfold getShared
  rw [hc, readFields_put outer hook]
  rw [hout]
  generalize inner.flatMap putField = B at hsub
  simp only [pSubs, if_true, hsub, i1, i2, i3, e1]
  simp

/-- The content written into an envelope is read back from it. -/
theorem getEnvelope_put {content : Bytes} (hd : content.length < 2 ^ 31 - 200) :
    getEnvelope (putEnvelope content) = some content := by
  set env : List (Nat × PVal) := [(1, .int 6), (5, .int 1), (8, .len content)] with henv
  have hev : ∀ x ∈ env, fieldOk x := by
    intro x hx
    simp only [henv, List.mem_cons, List.not_mem_nil, or_false] at hx
    rcases hx with rfl | rfl | rfl
    · exact ⟨by omega, by omega, by omega⟩
    · exact ⟨by omega, by omega, by omega⟩
    · exact ⟨by omega, by omega, by omega⟩
  have hepu : env.flatMap putField = fInt 1 6 ++ fInt 5 1 ++ fLen 8 content := by
    simp [henv, putField]
  have hel : (env.flatMap putField).length ≤ content.length + 33 := by
    rw [hepu]
    have a := fInt_length 1 6
    have b := fInt_length 5 1
    have c := fLen_length 8 content
    simp only [List.length_append]; omega
  set req : List (Nat × PVal) := [(1, .len []), (2, .len []), (3, .len (env.flatMap putField)), (4, .int 0)] with hreq
  have hrv : ∀ x ∈ req, fieldOk x := by
    intro x hx
    simp only [hreq, List.mem_cons, List.not_mem_nil, or_false] at hx
    rcases hx with rfl | rfl | rfl | rfl
    · exact ⟨by omega, by omega, by simp⟩
    · exact ⟨by omega, by omega, by simp⟩
    · exact ⟨by omega, by omega, by omega⟩
    · exact ⟨by omega, by omega, by omega⟩
  have hrpu : req.flatMap putField = fLen 1 [] ++ fLen 2 [] ++ fLen 3 (env.flatMap putField) ++ fInt 4 0 := by
    simp [hreq, putField]
  have hrl : (req.flatMap putField).length ≤ content.length + 77 := by
    rw [hrpu]
    have a := fLen_length 1 []
    have b := fLen_length 2 []
    have c := fLen_length 3 (env.flatMap putField)
    have d := fInt_length 4 0
    simp only [List.length_append, List.length_nil] at *; omega
  set ws : List (Nat × PVal) := [(1, .int 1), (2, .len (req.flatMap putField))] with hws
  have hwv : ∀ x ∈ ws, fieldOk x := by
    intro x hx
    simp only [hws, List.mem_cons, List.not_mem_nil, or_false] at hx
    rcases hx with rfl | rfl
    · exact ⟨by omega, by omega, by omega⟩
    · exact ⟨by omega, by omega, by omega⟩
  have hput : putEnvelope content = ws.flatMap putField := by
    simp only [hws, List.flatMap_cons, List.flatMap_nil, List.append_nil, putField, hrpu, hepu, putEnvelope]
  have hsub := readSubs_put req hrv
  have henvR := readFields_put env hev
  have i1 : pInt 1 (fun v => decide (v % 2 ^ 32 = 6 ∨ v % 2 ^ 32 = 7)) env = some 6 := by
    simp [henv, pInt]
  have i2 : pInt 5 (fun _ => true) env = some 1 := by simp [henv, pInt]
  have i3 : pBytes 8 env = some content := by simp [henv, pBytes]
  unfold getEnvelope
  rw [hput, readFields_put ws hwv, hws]
  generalize req.flatMap putField = B at hsub
  have i4 : pBytes 3 req = some (env.flatMap putField) := by
    rw [hreq]
    generalize env.flatMap putField = E
    simp [pBytes]
  have hnil : readSubs [] = some [] := rfl
  have i5 : (pInt 1 (fun v => decide (v % 2 ^ 32 ≤ 2)) [(1, .int 1), (2, .len B)]).map (· % 2 ^ 32) = some 1 := by
    simp [pInt]
  simp only [pSubs, if_true, show ((2 : Nat) = 3) = False by simp, if_false, hsub, hnil, i5, i4,
    Option.getD_some, henvR, i1, i2, i3]
  simp

/-- The padding is removed. -/
theorem unpadEnd_pad (b : Bytes) (n : Nat) : unpadEnd (b ++ 128 :: List.replicate n 0) = some b := by
  unfold unpadEnd
  have h : ((b ++ 128 :: List.replicate n 0).reverse).dropWhile (· == 0) = 128 :: b.reverse := by
    rw [List.reverse_append, List.reverse_cons, List.reverse_replicate, List.append_assoc]
    rw [List.dropWhile_append_of_pos (by simp)]
    simp
  rw [h]
  simp


theorem unpadEnd_some {b t : Bytes} (h : unpadEnd b = some t) : ∃ n, b = t ++ 128 :: List.replicate n 0 := by
  unfold unpadEnd at h
  split at h
  · rename_i r hr
    have hr' := List.takeWhile_append_dropWhile (p := (· == (0 : UInt8))) (l := b.reverse)
    rw [hr] at hr'
    have := Option.some.inj h
    subst this
    have hz : b.reverse.takeWhile (· == (0 : UInt8)) =
        List.replicate (b.reverse.takeWhile (· == (0 : UInt8))).length 0 := by
      rw [List.eq_replicate_iff]
      refine ⟨rfl, fun x hx => ?_⟩
      have h1 := List.all_takeWhile (p := (· == (0 : UInt8))) (l := b.reverse)
      rw [List.all_eq_true] at h1
      simpa using h1 x hx
    refine ⟨(b.reverse.takeWhile (· == (0 : UInt8))).length, ?_⟩
    rw [← List.reverse_reverse b, ← hr']
    rw [hz]
    simp
  · cases h

/-! ### C99 -/

section
variable {G : Type} [AddCommGroup G] [DecidableEq G] {C : ECurve G}

/-- A sealed box, if it can be made, is opened by the recipient. -/
theorem ECurve.Good.sealTo_open (h : C.Good) {esk x msg c : Bytes} (he : esk.length = 32) (hx : x.length = 32)
    (hs : C.sealTo esk (C.xBase x) msg = .ok c) :
    c.length = msg.length + 48 ∧ C.sealOpenBox (C.xBase x) x c = some msg := by
  unfold ECurve.sealTo ECurve.boxSeal at hs
  cases hk : C.x25519 esk (C.xBase x) with
  | none => rw [hk] at hs; cases hs
  | some k =>
    rw [hk] at hs
    have hs := Out.ok.inj hs
    subst hs
    have hk' : C.x25519 x (C.xBase esk) = some k := by rw [h.dh x esk hx he]; exact hk
    have hl := Curve.xBase_length (C := C.toCurve) esk
    refine ⟨by rw [List.length_append, hl, h.boxLen]; omega, ?_⟩
    unfold ECurve.sealOpenBox
    have ht : (C.xBase esk ++ C.box k (C.sealNonce (C.xBase esk) (C.xBase x)) msg).take 32 = C.xBase esk := by
      rw [List.take_append_of_le_length (by rw [hl]), List.take_of_length_le (by rw [hl])]
    rw [if_neg (by rw [List.length_append, hl, h.boxLen]; omega), ht, hk', List.drop_left' hl]
    exact h.openBox _ _ _

theorem putContent_length (kind : Nat) (seqno : Int) (data : Bytes) :
    (putContent kind seqno data).length ≤ data.length + 44 := by
  unfold putContent
  have a := fInt_length 1 kind
  have b := fInt_length 2 (int64Bits seqno)
  have c := fLen_length 3 data
  have d := fLen_length 11 (fInt 1 kind ++ fInt 2 (int64Bits seqno) ++ fLen 3 data)
  simp only [List.length_append] at d ⊢; omega

/-- What a successful `wrap_config` has put into the envelope. -/
theorem wrap_inside (h : C.Good) {seed sk sk' X data w : Bytes} {seqno ns : Int}
    (hk : C.IsKey seed sk) (hk' : C.IsKey seed sk') (hX : C.edToX (C.enc (C.pub seed)) = some X)
    (hn : ∀ kind, nsKind ns = some kind → leNat (C.recipientNonce seed X (putContent kind seqno data ++ [128])) ≠ 0)
    (hw : C.wrapConfig sk data seqno ns = .ok w) :
    ∃ kind e, nsKind ns = some kind ∧ data.length < 2 ^ 30 ∧ w = putEnvelope e ∧
      e.length = (putContent kind seqno data).length + 145 ∧
      C.decryptIncoming sk' e = .ok (putContent kind seqno data ++ [128], C.enc (C.pub seed)) := by
  unfold ECurve.wrapConfig at hw
  rw [hk.fullSk, Out.ok_bind, h.s.edSk_drop hk.1, hX] at hw
  dsimp only at hw
  cases hns : nsKind ns with
  | none => rw [hns] at hw; cases hw
  | some kind =>
    rw [hns] at hw
    dsimp only at hw
    by_cases hl : data.length < 2 ^ 30
    · rw [if_pos hl] at hw
      obtain ⟨e, he, hw⟩ := Out.bind_eq_ok.1 hw
      have hw := Out.ok.inj hw
      refine ⟨kind, e, rfl, hl, hw.symm, ?_⟩
      set msg := putContent kind seqno data ++ [128] with hmsg
      unfold ECurve.encryptForDet at he
      have hXl := Curve.edToX_length hX
      rw [h.signFor_eq ⟨hk.1, .inr rfl⟩ hXl (.inl rfl), Out.ok_bind, recipientKey_of hXl (.inl rfl), Out.ok_bind] at he
      have hxb := h.xBase_scalar hX
      have hxl := h.s.edScalar_length seed
      obtain ⟨P, hr0, ee, -⟩ := h.s.c.edToX_some hX
      rw [← h.s.c.enc_inj ee] at hr0
      have hdl : (C.detKey (C.edSk seed) X msg).length = 32 := h.s.shaTake _
      have hsl := Curve.edSign_length (C := C.toCurve) (C.edSk seed) (msg ++ C.enc (C.pub seed) ++ X)
      obtain ⟨hc2, hc3⟩ := h.sealTo_open hdl hxl (by rw [hxb]; exact he)
      refine ⟨?_, ?_⟩
      · rw [hc2, List.length_append, List.length_append, hsl, Curve.enc_length, hmsg, List.length_append]; rfl
      · unfold ECurve.decryptIncoming
        rw [hk'.fullSk, Out.ok_bind, h.s.edScalar_edSk hk'.1]
        refine h.incoming_of_open hxl (by simp) hsl (by rw [hc2]) hc3 ?_
        rw [hxb]
        exact h.s.edSign_verifies hk.1 hr0 (hn kind hns)
    · rw [if_neg hl] at hw; cases hw

/-- What `unwrap_config` makes of it -/
theorem unwrap_of_wrap (h : C.Good) (other : Nat → Bytes → Bool) {seed sk sk' X data w : Bytes} {seqno ns : Int} (ns' : Int)
    (hk : C.IsKey seed sk) (hk' : C.IsKey seed sk') (hX : C.edToX (C.enc (C.pub seed)) = some X)
    (hn : ∀ kind, nsKind ns = some kind → leNat (C.recipientNonce seed X (putContent kind seqno data ++ [128])) ≠ 0)
    (hw : C.wrapConfig sk data seqno ns = .ok w) :
    C.unwrapConfig other sk' w ns' = if nsKind ns' = nsKind ns then .ok data else .err .foreign := by
  obtain ⟨kind, e, hns, hl, rfl, hel, hd⟩ := wrap_inside h hk (sk' := C.edSk seed) ⟨hk.1, .inr rfl⟩ hX hn hw
  have hpl := putContent_length kind seqno data
  unfold ECurve.unwrapConfig
  rw [hk'.fullSk, Out.ok_bind, getEnvelope_put (by omega)]
  dsimp only
  rw [hd, Out.ok_bind, h.s.edSk_drop hk.1]
  dsimp only
  rw [if_neg (by simp), show putContent kind seqno data ++ [128] = putContent kind seqno data ++ 128 :: List.replicate 0 0 from rfl,
    unpadEnd_pad]
  dsimp only
  rw [getShared_put other hns seqno hl]
  dsimp only
  rw [hns]

/-- C99.  What `wrap_config` makes of any config message for any of the four namespaces,
`unwrap_config` turns back into that message, with the same account key (each time given as seed or as
secret key) and for the same namespace. -/
theorem unwrap_wrap (h : C.Good) (other : Nat → Bytes → Bool) {seed sk sk' X data w : Bytes} {seqno ns : Int}
    (hk : C.IsKey seed sk) (hk' : C.IsKey seed sk') (hX : C.edToX (C.enc (C.pub seed)) = some X)
    (hn : ∀ kind, nsKind ns = some kind → leNat (C.recipientNonce seed X (putContent kind seqno data ++ [128])) ≠ 0)
    (hw : C.wrapConfig sk data seqno ns = .ok w) :
    C.unwrapConfig other sk' w ns = .ok data := by
  rw [unwrap_of_wrap h other ns hk hk' hX hn hw, if_pos rfl]

theorem nsKind_inj {a b : Int} {k : Nat} (ha : nsKind a = some k) (hb : nsKind b = some k) : a = b := by
  unfold nsKind at ha hb
  repeat' split at ha
  all_goals repeat' split at hb
  all_goals cases ha
  all_goals cases hb
  all_goals omega

/-- C99.  For another namespace it is refused. -/
theorem unwrap_other_namespace (h : C.Good) (other : Nat → Bytes → Bool) {seed sk sk' X data w : Bytes} {seqno ns ns' : Int}
    (hk : C.IsKey seed sk) (hk' : C.IsKey seed sk') (hX : C.edToX (C.enc (C.pub seed)) = some X)
    (hn : ∀ kind, nsKind ns = some kind → leNat (C.recipientNonce seed X (putContent kind seqno data ++ [128])) ≠ 0)
    (hw : C.wrapConfig sk data seqno ns = .ok w) (hne : ns' ≠ ns) :
    C.unwrapConfig other sk' w ns' = .err .foreign := by
  rw [unwrap_of_wrap h other ns' hk hk' hX hn hw, if_neg]
  intro e
  obtain ⟨kind, _, hns, _⟩ := wrap_inside h hk hk hX hn hw
  exact hne (nsKind_inj (by rw [e, hns]) hns)

/-- C99.  `wrap_config` succeeds for every message of less than 1 GiB in one of the four namespaces. -/
theorem wrap_ok (h : C.Good) {seed sk X data : Bytes} {seqno ns : Int} {kind : Nat}
    (hk : C.IsKey seed sk) (hX : C.edToX (C.enc (C.pub seed)) = some X) (hns : nsKind ns = some kind)
    (hl : data.length < 2 ^ 30)
    (he0 : leNat (clampSc (C.detKey seed X (putContent kind seqno data ++ [128]))) • C.B ≠ 0)
    (hn : leNat (C.recipientNonce seed X (putContent kind seqno data ++ [128])) ≠ 0) :
    ∃ w, C.wrapConfig sk data seqno ns = .ok w ∧ w.length ≤ data.length + 400 := by
  obtain ⟨c, h1, h2, -, -⟩ := recipient_deterministic h (rsk := seed) hk.1 ⟨hk.1, .inl rfl⟩ hX hX he0 hn
  refine ⟨putEnvelope c, ?_, ?_⟩
  · unfold ECurve.wrapConfig
    rw [hk.fullSk, Out.ok_bind, h.s.edSk_drop hk.1, hX]
    dsimp only
    rw [hns]
    dsimp only
    rw [if_pos hl, h1 _ _ ⟨hk.1, .inr rfl⟩ (.inl rfl), Out.ok_bind]
  · have hpl := putContent_length kind seqno data
    have a := fInt_length 1 6
    have b := fInt_length 5 1
    have d := fLen_length 8 c
    have e := fLen_length 3 (fInt 1 6 ++ fInt 5 1 ++ fLen 8 c)
    have f := fLen_length 1 []
    have g := fLen_length 2 []
    have i := fInt_length 4 0
    have j := fLen_length 2 (fLen 1 [] ++ fLen 2 [] ++ fLen 3 (fInt 1 6 ++ fInt 5 1 ++ fLen 8 c) ++ fInt 4 0)
    have k := fInt_length 1 1
    unfold putEnvelope
    simp only [List.length_append, List.length_nil, List.length_singleton] at *
    omega

/-- The last value of a bytes field of a message -/
def LastLen (n : Nat) (v : Bytes) (l : List (Nat × PVal)) : Prop :=
  ∃ a b, l = a ++ (n, .len v) :: b ∧ ∀ w, (n, PVal.len w) ∉ b

/-- The last value of an integer field of a message, among the values that are allowed -/
def LastInt (n : Nat) (ok : Nat → Bool) (v : Nat) (l : List (Nat × PVal)) : Prop :=
  ∃ a b, l = a ++ (n, .int v) :: b ∧ ok v = true ∧ ∀ w, ok w = true → (n, PVal.int w) ∉ b

theorem pBytes_none {n : Nat} : ∀ {l : List (Nat × PVal)}, pBytes n l = none ↔ ∀ w, (n, PVal.len w) ∉ l
  | [] => by simp [pBytes]
  | (k, .len v) :: t => by
    unfold pBytes
    cases h : pBytes n t with
    | some x =>
      simp only [reduceCtorEq, false_iff, not_forall, not_not]
      have hn : ¬ ∀ w, (n, PVal.len w) ∉ t := fun hh => by rw [pBytes_none.2 hh] at h; cases h
      obtain ⟨w, hw⟩ := not_forall.1 hn
      exact ⟨w, List.mem_cons_of_mem _ (not_not.1 hw)⟩
    | none =>
      have ht := pBytes_none.1 h
      by_cases hk : k = n
      · subst hk
        simp only [if_true, reduceCtorEq, false_iff, not_forall, not_not]
        exact ⟨v, List.mem_cons_self⟩
      · simp only [hk, if_false, true_iff]
        intro w hm
        rcases List.mem_cons.1 hm with e | hm
        · cases e; exact hk rfl
        · exact ht w hm
  | (k, .int v) :: t => by
    show pBytes n t = none ↔ _
    rw [pBytes_none]
    simp
  | (k, .skipped) :: t => by
    show pBytes n t = none ↔ _
    rw [pBytes_none]
    simp

theorem pBytes_some {n : Nat} {v : Bytes} : ∀ {l : List (Nat × PVal)}, pBytes n l = some v → LastLen n v l
  | [], h => by cases h
  | (k, .len u) :: t, h => by
    unfold pBytes at h
    cases ht : pBytes n t with
    | some x =>
      rw [ht] at h; cases h
      obtain ⟨a, b, e, hb⟩ := pBytes_some ht
      exact ⟨(k, .len u) :: a, b, by rw [e]; rfl, hb⟩
    | none =>
      rw [ht] at h
      have h : (if k = n then some u else none) = some v := h
      split at h
      · rename_i hk; cases h; subst hk; exact ⟨[], t, rfl, pBytes_none.1 ht⟩
      · cases h
  | (k, .int u) :: t, h => by
    obtain ⟨a, b, e, hb⟩ := pBytes_some (l := t) h
    exact ⟨(k, .int u) :: a, b, by rw [e]; rfl, hb⟩
  | (k, .skipped) :: t, h => by
    obtain ⟨a, b, e, hb⟩ := pBytes_some (l := t) h
    exact ⟨(k, .skipped) :: a, b, by rw [e]; rfl, hb⟩

theorem pInt_none {n : Nat} {ok : Nat → Bool} : ∀ {l : List (Nat × PVal)}, pInt n ok l = none →
    ∀ w, ok w = true → (n, PVal.int w) ∉ l
  | [], _ => by simp
  | (k, .int v) :: t, h => by
    unfold pInt at h
    cases ht : pInt n ok t with
    | some x => rw [ht] at h; cases h
    | none =>
      rw [ht] at h
      have h : (if k = n ∧ ok v = true then some v else none) = none := h
      split at h
      · cases h
      · rename_i hk
        intro w hw hm
        rcases List.mem_cons.1 hm with e | hm
        · cases e; exact hk ⟨rfl, hw⟩
        · exact pInt_none ht w hw hm
  | (k, .len v) :: t, h => fun w hw hm => by
    rcases List.mem_cons.1 hm with e | hm
    · cases e
    · exact pInt_none (l := t) h w hw hm
  | (k, .skipped) :: t, h => fun w hw hm => by
    rcases List.mem_cons.1 hm with e | hm
    · cases e
    · exact pInt_none (l := t) h w hw hm

theorem pInt_some {n v : Nat} {ok : Nat → Bool} : ∀ {l : List (Nat × PVal)}, pInt n ok l = some v → LastInt n ok v l
  | [], h => by cases h
  | (k, .int u) :: t, h => by
    unfold pInt at h
    cases ht : pInt n ok t with
    | some x =>
      rw [ht] at h; cases h
      obtain ⟨a, b, e, hb⟩ := pInt_some ht
      exact ⟨(k, .int u) :: a, b, by rw [e]; rfl, hb⟩
    | none =>
      rw [ht] at h
      have h : (if k = n ∧ ok u = true then some u else none) = some v := h
      split at h
      · rename_i hk; cases h; obtain ⟨rfl, hk⟩ := hk; exact ⟨[], t, rfl, hk, pInt_none ht⟩
      · cases h
  | (k, .len u) :: t, h => by
    obtain ⟨a, b, e, hb⟩ := pInt_some (l := t) h
    exact ⟨(k, .len u) :: a, b, by rw [e]; rfl, hb⟩
  | (k, .skipped) :: t, h => by
    obtain ⟨a, b, e, hb⟩ := pInt_some (l := t) h
    exact ⟨(k, .skipped) :: a, b, by rw [e]; rfl, hb⟩

/-- The values of a bytes field, in order -/
def lenFields (n : Nat) (l : List (Nat × PVal)) : List Bytes :=
  l.filterMap fun x => match x with
    | (k, .len v) => if k = n then some v else none
    | _ => none

theorem pSubs_eq (n : Nat) : ∀ l : List (Nat × PVal), pSubs n l = lenFields n l
  | [] => rfl
  | (k, .len v) :: t => by
    unfold pSubs lenFields
    by_cases hk : k = n
    · simp only [hk, if_true, List.filterMap_cons]
      rw [pSubs_eq n t]; rfl
    · simp only [hk, if_false, List.filterMap_cons]
      exact pSubs_eq n t
  | (k, .int v) :: t => pSubs_eq n t
  | (k, .skipped) :: t => pSubs_eq n t

/-- These bytes are a `Content` with a `SharedConfigMessage` (field 11, proto/SessionProtos.proto:62) of this kind (field 1,
one of the declared values) and with this data (field 3), and a sequence number (field 2); fields with other numbers do not
matter. -/
def SharedConfig (plain : Bytes) (kind : Nat) (data : Bytes) : Prop :=
  ∃ fs ss k, readFields plain = some fs ∧ lenFields 11 fs ≠ [] ∧ readSubs (lenFields 11 fs) = some ss ∧
    LastInt 1 (fun v => decide (1 ≤ v % 2 ^ 32 ∧ v % 2 ^ 32 ≤ 4)) k ss ∧ kind = k % 2 ^ 32 ∧
    (∃ s, LastInt 2 (fun _ => true) s ss) ∧ LastLen 3 data ss

theorem getShared_says {other : Nat → Bytes → Bool} {plain data : Bytes} {kind : Nat}
    (h : getShared other plain = some (kind, data)) : SharedConfig plain kind data := by
  unfold getShared at h
  cases hf : readFields plain with
  | none => rw [hf] at h; cases h
  | some fs =>
    rw [hf] at h
    dsimp only at h
    split at h
    · cases h
    · split at h
      · cases h
      · rename_i hne
        cases hs : readSubs (pSubs 11 fs) with
        | none => rw [hs] at h; cases h
        | some ss =>
          rw [hs] at h
          dsimp only at h
          split at h
          · rename_i k s d h1 h2 h3
            cases h
            rw [pSubs_eq] at hne hs
            exact ⟨fs, ss, k, hf, hne, hs, pInt_some h1, rfl, ⟨s, pInt_some h2⟩, pBytes_some h3⟩
          · cases h

/-- C99.  Whatever `unwrap_config` returns, for arbitrary input: the owner of the account key signed it
(for himself), as the content of a config message of that namespace. -/
theorem unwrap_signed (h : C.Good) (other : Nat → Bytes → Bool) {seed sk raw data : Bytes} {ns : Int}
    (hk : C.IsKey seed sk) (hu : C.unwrapConfig other sk raw ns = .ok data) :
    ∃ plain sig n kind, C.edVerify (C.enc (C.pub seed))
        (plain ++ 128 :: List.replicate n 0 ++ C.enc (C.pub seed) ++ C.xBase (C.edScalar seed)) sig = true ∧
      nsKind ns = some kind ∧ SharedConfig plain kind data := by
  unfold ECurve.unwrapConfig at hu
  rw [hk.fullSk, Out.ok_bind, h.s.edSk_drop hk.1] at hu
  cases hg : getEnvelope raw with
  | none => rw [hg] at hu; cases hu
  | some content =>
    rw [hg] at hu
    dsimp only at hu
    obtain ⟨⟨m, A⟩, hd, hu⟩ := Out.bind_eq_ok.1 hu
    dsimp only at hu
    by_cases hA : A = C.enc (C.pub seed)
    · rw [if_neg (by simpa using hA)] at hu
      subst hA
      cases hp : unpadEnd m with
      | none => rw [hp] at hu; cases hu
      | some plain =>
        rw [hp] at hu
        dsimp only at hu
        cases hs : getShared other plain with
        | none => rw [hs] at hu; cases hu
        | some kd =>
          obtain ⟨kind, d⟩ := kd
          rw [hs] at hu
          dsimp only at hu
          by_cases hns : nsKind ns = some kind
          · rw [if_pos hns] at hu
            have := Out.ok.inj hu
            subst this
            unfold ECurve.decryptIncoming at hd
            rw [Curve.fullSk_edSk hk.1, Out.ok_bind, h.s.edScalar_edSk hk.1] at hd
            obtain ⟨-, sig, hv⟩ := incoming_signed h hd
            rw [List.take_of_length_le (by rw [Curve.xBase_length])] at hv
            obtain ⟨n, hm⟩ := unpadEnd_some hp
            rw [hm] at hv
            exact ⟨plain, sig, n, kind, hv, hns, getShared_says hs⟩
          · rw [if_neg hns] at hu; cases hu
    · rw [if_pos (by simpa using hA)] at hu; cases hu

end

/-! ### The wrapper of a config object -/

/-- The protobuf wrapper of a config object of the given namespace (src/config/base.cpp:65-85, 293-298):
wrapping, and unwrapping where any exception means "not wrapped". -/
def ECurve.protoFor {G : Type} [AddCommGroup G] [DecidableEq G] (C : ECurve G) (other : Nat → Bytes → Bool) (ns : Int) :
    (Bytes → Bytes → Int → Out Bytes) × (Bytes → Bytes → Option Bytes) :=
  (fun k e s => C.wrapConfig k e s ns, fun k raw => (C.unwrapConfig other k raw ns).casesOn some (fun _ => none) none none)

/-- C99.  The wrapper meets the condition under which a pushed config is received by the other devices of
the account (C34): what it produces for a key, it unwraps with that key. -/
theorem proto_good {G : Type} [AddCommGroup G] [DecidableEq G] {C : ECurve G} (h : C.Good) (other : Nat → Bytes → Bool) (ns : Int)
    (hn : ∀ seed X m, leNat (C.recipientNonce seed X m) ≠ 0) :
    ∀ w u, some (C.protoFor other ns) = some (w, u) →
      ∀ k e s b, k.length = 32 → w k e s = .ok b → u k b = some e := by
  intro w u hwu k e s b hk hw
  obtain ⟨rfl, rfl⟩ := Prod.mk.inj (Option.some.inj hwu)
  have hw' : C.wrapConfig k e s ns = .ok b := hw
  have hX : ∃ X, C.edToX (C.enc (C.pub k)) = some X := by
    unfold ECurve.wrapConfig at hw'
    rw [Curve.IsKey.fullSk (seed := k) ⟨hk, .inl rfl⟩, Out.ok_bind, h.s.edSk_drop hk] at hw'
    cases hX : C.edToX (C.enc (C.pub k)) with
    | none => rw [hX] at hw'; cases hw'
    | some X => exact ⟨X, rfl⟩
  obtain ⟨X, hX⟩ := hX
  show (C.unwrapConfig other k b ns).casesOn some (fun _ => none) none none = some e
  rw [unwrap_wrap h other (seed := k) ⟨hk, .inl rfl⟩ ⟨hk, .inl rfl⟩ hX (fun _ _ => hn _ _ _) hw']

/-- A hash that is never divisible by five -/
def toyShaK (m : Bytes) : Bytes := leBytes 64 (5 * (leNat m % 2 ^ 128) + 2 + 2 ^ 256 * 7)

theorem toyShaK_mod (m : Bytes) : leNat (toyShaK m) % 5 ≠ 0 := by
  unfold toyShaK
  have h0 := Nat.mod_lt (leNat m) (show 0 < 2 ^ 128 by norm_num)
  generalize leNat m % 2 ^ 128 = x at h0
  rw [leNat_leBytes_of_lt]
  · rw [Nat.add_assoc, Nat.mul_add_mod]
    norm_num
  · calc 5 * x + 2 + 2 ^ 256 * 7 < 5 * 2 ^ 128 + 2 + 2 ^ 256 * 7 := by omega
      _ < 256 ^ 64 := by norm_num

/-- The curve with another hash -/
def ECurve.withSha {G : Type} [AddCommGroup G] (C : ECurve G) (f : Bytes → Bytes) : ECurve G := { C with sha512 := f }

theorem ECurve.Good.withSha {G : Type} [AddCommGroup G] {C : ECurve G} (h : C.Good) {f : Bytes → Bytes}
    (hf : ∀ m, (f m).length = 64) : (C.withSha f).Good where
  s := { c := { pPrime := h.s.c.pPrime, pOdd := h.s.c.pOdd, pLt := h.s.c.pLt, LPrime := h.s.c.LPrime, LLt := h.s.c.LLt,
                order := h.s.c.order, B0 := h.s.c.B0, yNeg := h.s.c.yNeg, y0 := h.s.c.y0, sgn0 := h.s.c.sgn0,
                sgnNeg := h.s.c.sgnNeg, ySgn := h.s.c.ySgn, decEnc := h.s.c.decEnc },
         shaLen := hf, blakeLen := h.s.blakeLen }
  dh := h.dh
  dhOk := h.dhOk
  boxLen := h.boxLen
  openBox := h.openBox
  boxOpen := h.boxOpen
  aeadLen := h.aeadLen
  openSeal := h.openSeal
  sealOpen := h.sealOpen

theorem toyShaK_length (m : Bytes) : (toyShaK m).length = 64 := by
  unfold toyShaK
  rw [leBytes_length]

/-- The small curve with this hash -/
def toyEK : ECurve Five := toyE.withSha toyShaK

theorem toyEK_good : toyEK.Good := toyE_good.withSha toyShaK_length

theorem toyEK_nonce (seed X m : Bytes) : leNat (toyEK.recipientNonce seed X m) ≠ 0 := by
  unfold ECurve.recipientNonce Curve.edNonce
  rw [toyEK_good.s.c.leNat_scReduce]
  have e1 : toyEK.L = 5 := rfl
  have e2 : ∀ b, toyEK.sha512 b = toyShaK b := fun _ => rfl
  rw [e1, e2]
  exact toyShaK_mod _

/-- A config object for contacts with protobuf envelopes -/
def exSysProto : Sys := { exSys with proto := some (toyEK.protoFor (fun _ _ => false) 3) }

theorem exSysProto_good : exSysProto.Good :=
  { sane := exSys_good.sane, lag1 := exSys_good.lag1, lagU := exSys_good.lagU, prims := exSys_good.prims,
    dom := exSys_good.dom, zip := exSys_good.zip, sig := exSys_good.sig,
    proto := proto_good toyEK_good _ _ toyEK_nonce }

/-- A message of an object with protobuf envelopes is wrapped; the receiver of contacts unwraps it, that of
user groups does not. -/
example : ∃ w, toyEK.wrapConfig toySeed [1, 2, 3] 7 3 = .ok w ∧ w.length = 177 ∧
    toyEK.unwrapConfig (fun _ _ => false) (toyEK.edSk toySeed) w 3 = .ok [1, 2, 3] ∧
    toyEK.unwrapConfig (fun _ _ => false) toySeed w 5 = .err .foreign := by
  refine ⟨(toyEK.wrapConfig toySeed [1, 2, 3] 7 3).casesOn (fun x => x) (fun _ => []) [] [], ?_, ?_, ?_, ?_⟩
  all_goals decide +kernel

/-- What an object with protobuf envelopes pushes is received by another one. -/
example : ∃ s m o, (exC1.push exSysProto).2 = .ok (s, m, o) ∧ m.take 3 = [8, 1, 18] ∧
    receive exSysProto [exKey] m = some (exC1.plain exSysProto) := by
  refine ⟨1, (exC1.push exSysProto).2.casesOn (fun x => x.2.1) (fun _ => []) [] [], [], ?_, ?_, ?_⟩
  all_goals decide +kernel

/-- The same object also takes the message without the envelope (the hypotheses of `receive_unwrapped`). -/
example : (toyEK.protoFor (fun _ _ => false) 3).2 exKey exM1 = none ∧
    receive exSysProto [exKey] exM1 = some (exC1.plain exSys) := by decide +kernel

end Verif
