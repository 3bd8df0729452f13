import Verif.Onion
import Verif.Props.Multi

/-!
# Onion requests reach their destination, and replies come back
-/

namespace Verif

/-! ### Specification -/

/-- The calls that configure a builder. -/
inductive BCall where
  | enc (t : EncType)
  | snode (ed x : Bytes)
  | server (host target protocol : Bytes) (port : Option Nat) (x : Bytes)
  | hop (ed x : Bytes)
deriving DecidableEq, Repr

/-- One call -/
def Builder.call (b : Builder) : BCall → Builder
  | .enc t => b.setEncType t
  | .snode ed x => b.setSnode ed x
  | .server h t p port x => b.setServer h t p port x
  | .hop ed x => b.addHop ed x

/-- A builder after some calls -/
def Builder.run (calls : List BCall) : Builder := calls.foldl Builder.call Builder.new

def BCall.isDest : BCall → Bool
  | .snode .. => true
  | .server .. => true
  | _ => false

def BCall.isServer : BCall → Bool
  | .server .. => true
  | _ => false

/-- Is it a server destination with a port? -/
def BCall.givesPort : BCall → Bool
  | .server _ _ _ (some _) _ => true
  | _ => false

/-- The destination last set -/
def lastDest (calls : List BCall) : Option BCall := calls.reverse.find? BCall.isDest

/-- The hops added, in order -/
def pathOf (calls : List BCall) : List (Bytes × Bytes) := calls.filterMap fun
  | .hop ed x => some (ed, x)
  | _ => none

/-- A node: its identity key and its secret X25519 key -/
structure ONode where
  ed : Bytes
  sec : Bytes
deriving DecidableEq, Repr

/-- The parts of a length-prefixed blob followed by JSON -/
def unframe (P : OPrims) (b : Bytes) : Option (Bytes × JObj) :=
  let size := leNat (b.take 4)
  if b.length < 4 + size then none
  else (P.parse (b.drop (4 + size))).map fun o => ((b.drop 4).take size, o)

/-- Request `r` passes through `nodes` in this order and is read as `D` by the node with secret key
`dest`: each node parses what it gets, the JSON inside names the next node — or, at the last one, meets
`atEnd` — and what it decrypted is passed on as the request to the next. -/
inductive Relays (P : OPrims) (max : Nat) (atEnd : JObj → Prop) (dest : Bytes) : List ONode → Bytes → OnionParser → Prop
  | arrived {r D} : onionParse P (P.pubOf dest) dest r max = .ok D → Relays P max atEnd dest [] r D
  | last {n r q b o D} : onionParse P (P.pubOf n.sec) n.sec r max = .ok q → unframe P q.payload = some (b, o) → atEnd o →
      Relays P max atEnd dest [] q.payload D → Relays P max atEnd dest [n] r D
  | next {n n' rest r q b o D} : onionParse P (P.pubOf n.sec) n.sec r max = .ok q → unframe P q.payload = some (b, o) →
      o.lookup kDest = some (.str (toHex n'.ed)) → Relays P max atEnd dest (n' :: rest) q.payload D →
      Relays P max atEnd dest (n :: n' :: rest) r D

/-! ### Layers -/

section
variable {P : OPrims}

theorem deriveSym_comm (hP : P.Good) (a s : Bytes) : deriveSym P a (P.pubOf s) = deriveSym P s (P.pubOf a) := by
  simp only [deriveSym, sharedSecret, hP.base.dhComm a s]

theorem xchachaShared_comm (hP : P.Good) (a s : Bytes) (f : Bool) :
    xchachaShared P (P.pubOf a) a (P.pubOf s) f = xchachaShared P (P.pubOf s) s (P.pubOf a) (!f) := by
  simp only [xchachaShared, sharedSecret, hP.base.dhComm a s]
  cases f <;> simp

theorem sharedSecret_ok (hP : P.Good) (a s : Bytes) : ∃ k, sharedSecret P a (P.pubOf s) = .ok k := by
  unfold sharedSecret
  cases h : P.dh a (P.pubOf s) with
  | none => exact absurd h (hP.base.dhOk a s)
  | some k => exact ⟨k, rfl⟩

/-- Encryption for a proper public key succeeds. -/
theorem Hop.encrypt_ok (hP : P.Good) (h : Hop) (t : EncType) (rnd m s : Bytes) :
    ∃ c, h.encrypt P t rnd m (P.pubOf s) = .ok c := by
  obtain ⟨k, hk⟩ := sharedSecret_ok hP h.sec s
  cases t
  · exact ⟨_, by simp only [Hop.encrypt, Hop.encryptGcm, deriveSym, hk, Out.bind_ok]; rfl⟩
  · exact ⟨_, by simp only [Hop.encrypt, Hop.encryptX, xchachaShared, hk, Out.bind_ok]; rfl⟩

/-- What one side encrypts, the other side decrypts; the ciphertext is at least 28 bytes longer. -/
theorem Hop.open_of_seal (hP : P.Good) {a s rnd m c : Bytes} {srv : Bool} {t : EncType} (hr : 24 ≤ rnd.length)
    (h : (Hop.mk a (P.pubOf a) srv).encrypt P t rnd m (P.pubOf s) = .ok c) :
    (Hop.mk s (P.pubOf s) (!srv)).decrypt P t c (P.pubOf a) = .ok m ∧ m.length + 28 ≤ c.length := by
  cases t
  · simp only [Hop.encrypt, Hop.encryptGcm] at h
    obtain ⟨k, hk, h⟩ := Out.bind_eq_ok.1 h
    cases h
    have hl : (rnd.take 12).length = 12 := by simp; omega
    have hc : (rnd.take 12 ++ P.gcm k (rnd.take 12) m).length = m.length + 28 := by
      rw [List.length_append, hl, hP.gcmLen]; omega
    refine ⟨?_, by omega⟩
    simp only [Hop.decrypt, Hop.decryptGcm]
    rw [if_neg (by omega), deriveSym_comm hP s a, hk, Out.bind_ok, List.take_left' hl, List.drop_left' hl, hP.gcmOpenSeal]
  · simp only [Hop.encrypt, Hop.encryptX] at h
    obtain ⟨k, hk, h⟩ := Out.bind_eq_ok.1 h
    cases h
    have hl : (rnd.take 24).length = 24 := by simp; omega
    have hc : (rnd.take 24 ++ P.aead k (rnd.take 24) m).length = m.length + 40 := by
      rw [List.length_append, hl, hP.base.aeadLen]; omega
    refine ⟨?_, by omega⟩
    simp only [Hop.decrypt, Hop.decryptX]
    rw [List.drop_left' hl, hP.base.aeadLen, if_neg (by omega), ← xchachaShared_comm hP a s, hk, Out.bind_ok, List.take_left' hl,
      hP.base.openSeal]

theorem parsePubkey_toHex {A : Bytes} (h : A.length = 32) : parsePubkey P (toHex A) = A := by
  have hl := toHex_length A
  simp only [parsePubkey]
  rw [if_neg (by omega), if_pos ⟨by omega, toHex_isHex A⟩, fromHex_toHex]

theorem parseEncType_name (t : EncType) : parseEncType t.name = .ok t := by cases t <;> decide

theorem metaEnc_of {o : JObj} {t : EncType} (h : o.lookup kEnc = some (.str t.name)) : metaEnc o = .ok t := by
  simp only [metaEnc, h, JVal.getStr, Out.bind_ok, parseEncType_name]

theorem metaEph_of {o : JObj} {A : Bytes} (hA : A.length = 32) (h : o.lookup kEph = some (.str (toHex A))) :
    metaEph P o = .ok A := by
  simp only [metaEph, h, JVal.getStr, Out.bind_ok, parsePubkey_toHex hA]

theorem unframe_frame {blob js : Bytes} {o : JObj} (hl : blob.length < 2 ^ 32) (hj : P.parse js = some o) :
    unframe P (frame blob js) = some (blob, o) := by
  have h4 : (leBytes 4 blob.length).length = 4 := leBytes_length _ _
  have e1 : (frame blob js).take 4 = leBytes 4 blob.length := by
    unfold frame; rw [List.append_assoc]; exact List.take_left' h4
  have e2 : (frame blob js).drop 4 = blob ++ js := by
    unfold frame; rw [List.append_assoc]; exact List.drop_left' h4
  have e3 : leNat (leBytes 4 blob.length) = blob.length := leNat_leBytes_of_lt (by omega)
  have e4 : (frame blob js).length = 4 + blob.length + js.length := by simp [frame]; omega
  simp only [unframe, e1, e3]
  rw [if_neg (by omega), ← List.drop_drop, e2, List.drop_left, List.take_left, hj]
  rfl

/-- A node parses a request whose metadata names the ephemeral key and the encryption. -/
theorem onionParse_frame {sk pk A blob js m : Bytes} {o : JObj} {t : EncType} {max : Nat} (hpk : pk.length = 32)
    (hsk : sk.length = 32) (hA : A.length = 32) (hj : P.parse js = some o) (he : o.lookup kEph = some (.str (toHex A)))
    (ht : o.lookup kEnc = some (.str t.name)) (hd : (Hop.mk sk pk true).decrypt P t blob A = .ok m)
    (hm : (frame blob js).length ≤ max) (hm' : max < 2 ^ 32) :
    onionParse P pk sk (frame blob js) max = .ok ⟨⟨sk, pk, true⟩, t, A, m⟩ := by
  have h4 : (leBytes 4 blob.length).length = 4 := leBytes_length _ _
  have e1 : (frame blob js).take 4 = leBytes 4 blob.length := by
    unfold frame; rw [List.append_assoc]; exact List.take_left' h4
  have e2 : (frame blob js).drop 4 = blob ++ js := by
    unfold frame; rw [List.append_assoc]; exact List.drop_left' h4
  have e4 : (frame blob js).length = 4 + blob.length + js.length := by simp [frame]; omega
  have e3 : leNat (leBytes 4 blob.length) = blob.length := leNat_leBytes_of_lt (by omega)
  simp only [onionParse, e1, e2, e3]
  rw [if_neg (by simp [hpk, hsk]), if_neg (by omega), if_neg (by omega), if_neg (by simp), List.drop_left, hj]
  simp only [metaEnc_of ht, metaEph_of hA he, Out.bind_ok, List.take_left, hd]

theorem dumpJ_some {o : JObj} {js : Bytes} (h : dumpJ P o = .ok js) : P.dump o = some js := by
  unfold dumpJ at h
  split at h
  · cases h; assumption
  · cases h

/-- Whatever metadata of the right kind follows it, `blob` passes through `nodes`. -/
def Passes (P : OPrims) (max : Nat) (atEnd : JObj → Prop) (dest : Bytes) (t : EncType) (nodes : List ONode)
    (blob A : Bytes) (D : OnionParser) : Prop :=
  ∀ js o, P.parse js = some o → o.lookup kEph = some (.str (toHex A)) → o.lookup kEnc = some (.str t.name) →
    (frame blob js).length ≤ max → Relays P max atEnd dest nodes (frame blob js) D

/-- What the routing object says about the node to follow -/
def Names (atEnd : JObj → Prop) : List ONode → JObj → Prop
  | [], o => atEnd o
  | n :: _, o => o.lookup kDest = some (.str (toHex n.ed))

/-- One layer more. -/
theorem passes_hop (hP : P.Good) {max : Nat} {atEnd : JObj → Prop} {dest : Bytes} {t : EncType} {nodes : List ONode}
    {blob A js blob' a rnd : Bytes} {D : OnionParser} {route o : JObj} {n : ONode} (hm : max < 2 ^ 32)
    (hn : n.sec.length = 32) (hr : 24 ≤ rnd.length)
    (hp : Passes P max atEnd dest t nodes blob A D) (hd : P.dump route = some js) (ho : P.parse js = some o)
    (hlk : ∀ k, o.lookup k = route.lookup k) (hN : Names atEnd nodes o) (he : route.lookup kEph = some (.str (toHex A)))
    (ht : route.lookup kEnc = some (.str t.name))
    (henc : (Hop.mk a (P.pubOf a) false).encrypt P t rnd (frame blob js) (P.pubOf n.sec) = .ok blob') :
    Passes P max atEnd dest t (n :: nodes) blob' (P.pubOf a) D := by
  intro js' o' hj' he' ht' hmax
  obtain ⟨hopen, hlen⟩ := Hop.open_of_seal hP (srv := false) hr henc
  have e4 : (frame blob' js').length = 4 + blob'.length + js'.length := by simp [frame]; omega
  have e5 : (frame blob js).length = 4 + blob.length + js.length := by simp [frame]; omega
  have hq := onionParse_frame (hP.base.pubLen n.sec) hn (hP.base.pubLen a) hj' he' ht' hopen hmax hm
  have hu := unframe_frame (P := P) (blob := blob) (by omega) ho
  have hrest := hp js o ho (by rw [hlk]; exact he) (by rw [hlk]; exact ht) (by omega)
  cases nodes with
  | nil => exact .last hq hu hN hrest
  | cons n' rest => exact .next hq hu hN hrest

theorem routeTo_lookup (ed A : Bytes) (t : EncType) : (routeTo ed A t).lookup kDest = some (.str (toHex ed)) ∧
    (routeTo ed A t).lookup kEph = some (.str (toHex A)) ∧ (routeTo ed A t).lookup kEnc = some (.str t.name) := by
  have h1 : (kEph == kDest) = false := by decide
  have h2 : (kEnc == kDest) = false := by decide
  have h3 : (kEnc == kEph) = false := by decide
  simp only [routeTo, List.lookup_cons, beq_self_eq_true, h1, h2, h3]
  exact ⟨trivial, trivial, trivial⟩

/-- The loop over the hops. -/
theorem wrapHops_passes (hP : P.Good) {max : Nat} {atEnd : JObj → Prop} {dest : Bytes} {t : EncType} {D : OnionParser}
    {rnd : Nat → Bytes × Bytes} (hm : max < 2 ^ 32) (hr : ∀ i, 24 ≤ (rnd i).2.length)
    (ha : ∀ o o' : JObj, (∀ k, o'.lookup k = o.lookup k) → atEnd o → atEnd o') :
    ∀ (todo nodes : List ONode) (i : Nat) (blob A : Bytes) (route : JObj) (blob' A' : Bytes), A.length = 32 →
    (∀ n ∈ todo, n.sec.length = 32) → Passes P max atEnd dest t nodes blob A D → Names atEnd nodes route →
    route.lookup kEph = some (.str (toHex A)) → route.lookup kEnc = some (.str t.name) →
    wrapHops P t rnd (todo.map fun n => (n.ed, P.pubOf n.sec)) i blob A route = .ok (blob', A') →
    Passes P max atEnd dest t (todo.reverse ++ nodes) blob' A' D ∧ A'.length = 32
  | [], nodes, _, blob, A, _, blob', A', hA, _, hp, _, _, _, h => by
    simp only [List.map_nil, wrapHops, Out.ok.injEq, Prod.mk.injEq] at h
    obtain ⟨rfl, rfl⟩ := h
    exact ⟨hp, hA⟩
  | n :: todo, nodes, i, blob, A, route, blob', A', hA, hs, hp, hN, he, ht, h => by
    simp only [List.map_cons, wrapHops] at h
    obtain ⟨js, hj, h⟩ := Out.bind_eq_ok.1 h
    obtain ⟨c, hc, h⟩ := Out.bind_eq_ok.1 h
    have hd := dumpJ_some hj
    obtain ⟨o, ho, hlk⟩ := hP.parseDump _ _ hd
    have hN' : Names atEnd nodes o := by
      cases nodes with
      | nil => exact ha _ _ hlk hN
      | cons n' rest => exact (hlk _).trans hN
    have hp' := passes_hop hP hm (hs n (by simp)) (hr i) hp hd ho hlk hN' he ht hc
    obtain ⟨r1, r2, r3⟩ := routeTo_lookup n.ed (P.pubOf (rnd i).1) t
    have := wrapHops_passes hP hm hr ha todo (n :: nodes) (i + 1) c (P.pubOf (rnd i).1) _ blob' A' (hP.base.pubLen _)
      (fun x hx => hs x (by simp [hx])) hp' r1 r2 r3 h
    simpa using this

/-- ASCII facts for the routing objects. -/
theorem asciiOnly_toHex (b : Bytes) : asciiOnly (toHex b) = true := by
  have h : ∀ c, isHexDigit c = true → c < 128 := forall_uint8 (P := fun c => isHexDigit c = true → c < 128) (by decide +kernel)
  have h2 := toHex_isHex b
  simp only [isHex, Bool.and_eq_true, List.all_eq_true] at h2
  simp only [asciiOnly, List.all_eq_true, decide_eq_true_eq]
  exact fun c hc => h c (h2.2 c hc)

theorem asciiOnly_name (t : EncType) : asciiOnly t.name = true := by cases t <;> decide

theorem dumpJ_routeTo (hP : P.Good) (ed A : Bytes) (t : EncType) : ∃ js, dumpJ P (routeTo ed A t) = .ok js := by
  obtain ⟨b, hb⟩ := hP.dumpAscii (routeTo ed A t) (by
    intro kv hkv
    simp only [routeTo, List.mem_cons, List.not_mem_nil, or_false] at hkv
    rcases hkv with rfl | rfl | rfl
    · exact ⟨by show asciiOnly kDest = true; decide, asciiOnly_toHex ed⟩
    · exact ⟨by show asciiOnly kEph = true; decide, asciiOnly_toHex A⟩
    · exact ⟨by show asciiOnly kEnc = true; decide, asciiOnly_name t⟩) (by simp [routeTo])
  exact ⟨b, by simp only [dumpJ, hb]⟩

theorem dumpJ_outer (hP : P.Good) (A : Bytes) (t : EncType) :
    ∃ js, dumpJ P [(kEph, .str (toHex A)), (kEnc, .str t.name)] = .ok js := by
  obtain ⟨b, hb⟩ := hP.dumpAscii [(kEph, .str (toHex A)), (kEnc, .str t.name)] (by
    intro kv hkv
    simp only [List.mem_cons, List.not_mem_nil, or_false] at hkv
    rcases hkv with rfl | rfl
    · exact ⟨by show asciiOnly kEph = true; decide, asciiOnly_toHex A⟩
    · exact ⟨by show asciiOnly kEnc = true; decide, asciiOnly_name t⟩) (by simp)
  exact ⟨b, by simp only [dumpJ, hb]⟩

theorem dumpJ_headers (hP : P.Good) : ∃ js, dumpJ P [(kHeaders, .str [])] = .ok js := by
  obtain ⟨b, hb⟩ := hP.dumpAscii [(kHeaders, .str [])] (by
    intro kv hkv
    simp only [List.mem_cons, List.not_mem_nil, or_false] at hkv
    subst hkv
    exact ⟨by show asciiOnly kHeaders = true; decide, rfl⟩) (by simp)
  exact ⟨b, by simp only [dumpJ, hb]⟩

theorem wrapHops_ok (hP : P.Good) (t : EncType) (rnd : Nat → Bytes × Bytes) : ∀ (todo : List ONode) (i : Nat) (blob A : Bytes)
    (route : JObj), (∃ js, dumpJ P route = .ok js) →
    ∃ r, wrapHops P t rnd (todo.map fun n => (n.ed, P.pubOf n.sec)) i blob A route = .ok r
  | [], _, blob, A, _, _ => ⟨(blob, A), rfl⟩
  | n :: todo, i, blob, A, route, hj => by
    obtain ⟨js, hj⟩ := hj
    obtain ⟨c, hc⟩ := Hop.encrypt_ok hP (Hop.mk (rnd i).1 (P.pubOf (rnd i).1) false) t (rnd i).2 (frame blob js) n.sec
    obtain ⟨r, hr⟩ := wrapHops_ok hP t rnd todo (i + 1) c (P.pubOf (rnd i).1) (routeTo n.ed (P.pubOf (rnd i).1) t)
      (dumpJ_routeTo hP _ _ _)
    exact ⟨r, by simp only [List.map_cons, wrapHops, hj, hc, Out.bind_ok, hr]⟩

/-! ### The builder's calls -/

theorem run_snoc (calls : List BCall) (c : BCall) : Builder.run (calls ++ [c]) = (Builder.run calls).call c := by
  simp [Builder.run]

theorem run_hops (calls : List BCall) : (Builder.run calls).hops = pathOf calls := by
  induction calls using List.reverseRecOn with
  | nil => rfl
  | append_singleton l c ih =>
    rw [run_snoc]
    cases c <;> simp [Builder.call, Builder.setEncType, Builder.setSnode, Builder.setServer, Builder.addHop, pathOf, ih] <;> rfl

theorem lastDest_snoc (calls : List BCall) (c : BCall) : lastDest (calls ++ [c]) =
    if c.isDest = true then some c else lastDest calls := by
  simp only [lastDest, List.reverse_append, List.reverse_cons, List.reverse_nil, List.nil_append, List.singleton_append,
    List.find?_cons]
  cases c.isDest <;> rfl

theorem run_noServer (calls : List BCall) (h : ∀ c ∈ calls, c.isServer = false) :
    (Builder.run calls).host = none := by
  induction calls using List.reverseRecOn with
  | nil => rfl
  | append_singleton l c ih =>
    have ih := ih fun c hc => h c (by simp [hc])
    have hc := h c (by simp)
    rw [run_snoc]
    cases c <;> first
      | exact ih
      | (simp [BCall.isServer] at hc)

theorem run_snodeDest (calls : List BCall) {ed x : Bytes} (hl : lastDest calls = some (.snode ed x)) :
    (Builder.run calls).dest = some x ∧ (Builder.run calls).ed = some ed := by
  induction calls using List.reverseRecOn with
  | nil => cases hl
  | append_singleton l c ih =>
    rw [lastDest_snoc] at hl
    rw [run_snoc]
    cases c with
    | snode ed' x' =>
      simp only [BCall.isDest, if_true, Option.some.injEq, BCall.snode.injEq] at hl
      obtain ⟨rfl, rfl⟩ := hl
      exact ⟨rfl, rfl⟩
    | server => simp [BCall.isDest] at hl
    | enc => exact ih (by simpa [BCall.isDest] using hl)
    | hop => exact ih (by simpa [BCall.isDest] using hl)

theorem run_serverDest (calls : List BCall) {host target protocol x : Bytes} {port : Option Nat}
    (hl : lastDest calls = some (.server host target protocol port x)) :
    (Builder.run calls).dest = some x ∧ (Builder.run calls).host = some host ∧ (Builder.run calls).target = some target ∧
    (Builder.run calls).protocol = some protocol ∧ (∀ p, port = some p → (Builder.run calls).port = some p) := by
  induction calls using List.reverseRecOn with
  | nil => cases hl
  | append_singleton l c ih =>
    rw [lastDest_snoc] at hl
    rw [run_snoc]
    cases c with
    | server h t pr po x' =>
      simp only [BCall.isDest, if_true, Option.some.injEq, BCall.server.injEq] at hl
      obtain ⟨rfl, rfl, rfl, rfl, rfl⟩ := hl
      exact ⟨rfl, rfl, rfl, rfl, fun p hp => by subst hp; rfl⟩
    | snode => simp [BCall.isDest] at hl
    | enc => exact ih (by simpa [BCall.isDest] using hl)
    | hop => exact ih (by simpa [BCall.isDest] using hl)

theorem run_noPort (calls : List BCall) (h : ∀ c ∈ calls, c.givesPort = false) : (Builder.run calls).port = none := by
  induction calls using List.reverseRecOn with
  | nil => rfl
  | append_singleton l c ih =>
    have hl := ih fun c hc => h c (by simp [hc])
    have hc := h c (by simp)
    rw [run_snoc]
    cases c with
    | server a b d po x =>
      cases po with
      | some p => cases hc
      | none => exact hl
    | snode => exact hl
    | enc => exact hl
    | hop => exact hl

/-! ### Requests and replies -/

theorem wrapHops_length (hP : P.Good) {t : EncType} {rnd : Nat → Bytes × Bytes} (hr : ∀ i, 24 ≤ (rnd i).2.length) :
    ∀ (todo : List ONode) (i : Nat) (blob A : Bytes) (route : JObj) (blob' A' : Bytes),
    wrapHops P t rnd (todo.map fun n => (n.ed, P.pubOf n.sec)) i blob A route = .ok (blob', A') → blob.length ≤ blob'.length
  | [], _, blob, A, _, blob', A', h => by
    simp only [List.map_nil, wrapHops, Out.ok.injEq, Prod.mk.injEq] at h
    obtain ⟨rfl, rfl⟩ := h
    exact Nat.le_refl _
  | n :: todo, i, blob, A, route, blob', A', h => by
    simp only [List.map_cons, wrapHops] at h
    obtain ⟨js, hj, h⟩ := Out.bind_eq_ok.1 h
    obtain ⟨c, hc, h⟩ := Out.bind_eq_ok.1 h
    have h1 := wrapHops_length hP hr todo (i + 1) c _ _ blob' A' h
    have h2 := (Hop.open_of_seal hP (srv := false) (hr i) hc).2
    have e5 : (frame blob js).length = 4 + blob.length + js.length := by simp [frame]; omega
    omega

/-- The layers around an innermost one that the destination can read. -/
theorem build_relays (hP : P.Good) {b : Builder} {rnd : Nat → Bytes × Bytes} {payload blob dest m : Bytes} {route : JObj}
    {nodes : List ONode} {atEnd : JObj → Prop} (hr : ∀ i, 24 ≤ (rnd i).2.length) (hdl : dest.length = 32)
    (hnl : ∀ n ∈ nodes, n.sec.length = 32) (hh : b.hops = nodes.map fun n => (n.ed, P.pubOf n.sec))
    (hcore : b.core P rnd payload = .ok (route, blob)) (he : route.lookup kEph = some (.str (toHex (P.pubOf (rnd 0).1))))
    (ht : route.lookup kEnc = some (.str b.encType.name)) (hdump : ∃ js, dumpJ P route = .ok js) (hend : atEnd route)
    (ha : ∀ o o' : JObj, (∀ k, o'.lookup k = o.lookup k) → atEnd o → atEnd o')
    (hopen : (Hop.mk dest (P.pubOf dest) true).decrypt P b.encType blob (P.pubOf (rnd 0).1) = .ok m) :
    (b.build P rnd payload).1 = { b with finalPair := some (P.pubOf (rnd 0).1, (rnd 0).1) } ∧
    ∃ r, (b.build P rnd payload).2 = .ok r ∧ blob.length ≤ r.length ∧ ∀ max, r.length ≤ max → max < 2 ^ 32 →
      Relays P max atEnd dest nodes r ⟨⟨dest, P.pubOf dest, true⟩, b.encType, P.pubOf (rnd 0).1, m⟩ := by
  have hrev : b.hops.reverse = nodes.reverse.map fun n => (n.ed, P.pubOf n.sec) := by rw [hh, List.map_reverse]
  obtain ⟨⟨blob', A'⟩, hw⟩ := wrapHops_ok hP b.encType rnd nodes.reverse 1 blob (P.pubOf (rnd 0).1) route hdump
  obtain ⟨js, hj⟩ := dumpJ_outer hP A' b.encType
  have hb2 : (b.build P rnd payload).2 = .ok (frame blob' js) := by
    simp only [Builder.build, hcore, hrev, hw, Out.bind_ok, hj]
  have e5 : (frame blob' js).length = 4 + blob'.length + js.length := by simp [frame]; omega
  have hlen := wrapHops_length hP hr _ _ _ _ _ _ _ hw
  refine ⟨by simp only [Builder.build, hcore], _, hb2, by omega, fun max hmax hm => ?_⟩
  have hp0 : Passes P max atEnd dest b.encType [] blob (P.pubOf (rnd 0).1)
      ⟨⟨dest, P.pubOf dest, true⟩, b.encType, P.pubOf (rnd 0).1, m⟩ := fun js' o hj' he' ht' hmx =>
    .arrived (onionParse_frame (hP.base.pubLen dest) hdl (hP.base.pubLen _) hj' he' ht' hopen hmx hm)
  obtain ⟨hp, _⟩ := wrapHops_passes hP hm hr ha nodes.reverse [] 1 blob _ route blob' A' (hP.base.pubLen _)
    (fun n hn => hnl n (by simpa using hn)) hp0 hend he ht hw
  rw [List.reverse_reverse, List.append_nil] at hp
  obtain ⟨o, ho, hlk⟩ := hP.parseDump _ _ (dumpJ_some hj)
  have hne : (kEnc == kEph) = false := by decide
  refine hp js o ho ?_ ?_ hmax
  · rw [hlk]; simp [List.lookup_cons]
  · rw [hlk]; simp [List.lookup_cons, hne]

/-- What the destination replies is what the builder's response parser reads. -/
theorem reply_reads (hP : P.Good) {b b' : Builder} {a dest : Bytes} {D : OnionParser} (hbt : b'.encType = b.encType)
    (hbd : b'.dest = some (P.pubOf dest)) (hbf : b'.finalPair = some (P.pubOf a, a))
    (hD : D.enc = ⟨dest, P.pubOf dest, true⟩) (hDt : D.encType = b.encType) (hDr : D.remote = P.pubOf a) (reply rnd : Bytes)
    (hr : 24 ≤ rnd.length) : ∃ ct rp, D.encryptReply P rnd reply = .ok ct ∧ RespParser.ofBuilder b' = .ok rp ∧
      rp.decrypt P ct = .ok reply := by
  obtain ⟨c, hc⟩ := Hop.encrypt_ok hP (Hop.mk dest (P.pubOf dest) true) b.encType rnd reply a
  refine ⟨c, ⟨P.pubOf dest, (P.pubOf a, a), b.encType⟩, ?_, by simp only [RespParser.ofBuilder, hbd, hbf, hbt], ?_⟩
  · simp only [OnionParser.encryptReply, hD, hDt, hDr, hc]
  · have := (Hop.open_of_seal hP (srv := true) hr hc).1
    simp only [Bool.not_true] at this
    simp only [RespParser.decrypt, this]

/-- **C100.** A request to a service node is built, passes through the hops in the order in which they
were added — each learns only the next one from what it decrypts — and gives the destination the payload;
the reply of the destination is read by the response parser. -/
theorem onion_to_snode (hP : P.Good) {calls : List BCall} {nodes : List ONode} {ed dest payload : Bytes}
    {rnd : Nat → Bytes × Bytes} (hr : ∀ i, 24 ≤ (rnd i).2.length) (hdl : dest.length = 32)
    (hnl : ∀ n ∈ nodes, n.sec.length = 32) (hdest : lastDest calls = some (.snode ed (P.pubOf dest)))
    (hns : ∀ c ∈ calls, c.isServer = false) (hpath : pathOf calls = nodes.map fun n => (n.ed, P.pubOf n.sec)) :
    ∃ r, ((Builder.run calls).build P rnd payload).2 = .ok r ∧ ∀ max, r.length ≤ max → max < 2 ^ 32 →
      ∃ D, Relays P max (fun o => o.lookup kDest = some (.str (toHex ed))) dest nodes r D ∧
        (∃ o, unframe P D.payload = some (payload, o) ∧ o.lookup kHeaders = some (.str [])) ∧
        ∀ reply rnd', 24 ≤ rnd'.length → ∃ ct rp, D.encryptReply P rnd' reply = .ok ct ∧
          RespParser.ofBuilder ((Builder.run calls).build P rnd payload).1 = .ok rp ∧ rp.decrypt P ct = .ok reply := by
  obtain ⟨hd, hed⟩ := run_snodeDest calls hdest
  have hh := run_noServer calls hns
  obtain ⟨js, hj⟩ := dumpJ_headers hP
  obtain ⟨c, hc⟩ := Hop.encrypt_ok hP (Hop.mk (rnd 0).1 (P.pubOf (rnd 0).1) false) (Builder.run calls).encType (rnd 0).2
    (frame payload js) dest
  have hcore : (Builder.run calls).core P rnd payload =
      .ok (routeTo ed (P.pubOf (rnd 0).1) (Builder.run calls).encType, c) := by
    simp only [Builder.core, hd, hed, hh, hj, Out.bind_ok, hc]
  obtain ⟨r1, r2, r3⟩ := routeTo_lookup ed (P.pubOf (rnd 0).1) (Builder.run calls).encType
  obtain ⟨hopen, hlen⟩ := Hop.open_of_seal hP (srv := false) (hr 0) hc
  obtain ⟨hb, r, hb2, hrl, hrel⟩ := build_relays hP (atEnd := fun o => o.lookup kDest = some (.str (toHex ed))) hr hdl hnl
    ((run_hops calls).trans hpath) hcore r2 r3 (dumpJ_routeTo hP _ _ _) r1 (fun o o' h h' => (h _).trans h') hopen
  refine ⟨r, hb2, fun max hmax hm => ⟨_, hrel max hmax hm, ?_, fun reply rnd' hr' => ?_⟩⟩
  · obtain ⟨o, ho, hlk⟩ := hP.parseDump _ _ (dumpJ_some hj)
    have e5 : (frame payload js).length = 4 + payload.length + js.length := by simp [frame]; omega
    exact ⟨o, unframe_frame (by omega) ho, by rw [hlk]; simp [List.lookup_cons]⟩
  · exact reply_reads hP (b := Builder.run calls) (by rw [hb]) (by rw [hb]; exact hd) (by rw [hb]) rfl rfl rfl reply rnd' hr'

/-- What the last hop is told about a server -/
def ServerRoute (host target protocol : Bytes) (port : Nat) (o : JObj) : Prop :=
  o.lookup kHost = some (.str host) ∧ o.lookup kTarget = some (.str target) ∧ o.lookup kMethod = some (.str sPost) ∧
  o.lookup kProtocol = some (.str protocol) ∧ o.lookup kPort = some (.num port)

theorem routeServer_lookup (host target protocol : Bytes) (port : Option Nat) (A : Bytes) (t : EncType) :
    ServerRoute host target protocol (port.getD (if protocol = kHttps then 443 else 80)) (routeServer host target protocol port A t) ∧
    (routeServer host target protocol port A t).lookup kEph = some (.str (toHex A)) ∧
    (routeServer host target protocol port A t).lookup kEnc = some (.str t.name) := by
  have hne : ∀ a b : Bytes, a ≠ b → (a == b) = false := fun a b h => by simpa using h
  simp only [ServerRoute, routeServer, List.lookup_cons, beq_self_eq_true,
    hne kTarget kHost (by decide), hne kMethod kHost (by decide), hne kMethod kTarget (by decide),
    hne kProtocol kHost (by decide), hne kProtocol kTarget (by decide), hne kProtocol kMethod (by decide),
    hne kPort kHost (by decide), hne kPort kTarget (by decide), hne kPort kMethod (by decide), hne kPort kProtocol (by decide),
    hne kEph kHost (by decide), hne kEph kTarget (by decide), hne kEph kMethod (by decide), hne kEph kProtocol (by decide),
    hne kEph kPort (by decide), hne kEnc kHost (by decide), hne kEnc kTarget (by decide), hne kEnc kMethod (by decide),
    hne kEnc kProtocol (by decide), hne kEnc kPort (by decide), hne kEnc kEph (by decide)]
  exact ⟨⟨trivial, trivial, trivial, trivial, trivial⟩, trivial, trivial⟩

/-- **C101** (partial).  A request to a server (an ASCII URL and a payload without NUL
bytes; if no port is given, none was given to an earlier destination either) is built, passes through the hops in order, and the last one is told host, target, protocol and
port (443 or 80 if none is given); the server gets the payload, and its reply is read by the response parser. -/
theorem onion_to_server_partial (hP : P.Good) {calls : List BCall} {nodes : List ONode}
    {host target protocol dest payload : Bytes} {port : Option Nat} {rnd : Nat → Bytes × Bytes} (hr : ∀ i, 24 ≤ (rnd i).2.length)
    (hdl : dest.length = 32) (hnl : ∀ n ∈ nodes, n.sec.length = 32) (hport : ∀ p, port = some p → p < 2 ^ 16)
    (hasc : asciiOnly host = true ∧ asciiOnly target = true ∧ asciiOnly protocol = true)
    (hdest : lastDest calls = some (.server host target protocol port (P.pubOf dest))) (hnp : port = none → ∀ c ∈ calls, c.givesPort = false)
    (hpath : pathOf calls = nodes.map fun n => (n.ed, P.pubOf n.sec)) (hnul : 0 ∉ payload) :
    ∃ r, ((Builder.run calls).build P rnd payload).2 = .ok r ∧ ∀ max, r.length ≤ max → max < 2 ^ 32 →
      ∃ D, Relays P max (ServerRoute host target protocol (port.getD (if protocol = kHttps then 443 else 80))) dest nodes r D ∧ D.payload = payload ∧
        ∀ reply rnd', 24 ≤ rnd'.length → ∃ ct rp, D.encryptReply P rnd' reply = .ok ct ∧
          RespParser.ofBuilder ((Builder.run calls).build P rnd payload).1 = .ok rp ∧ rp.decrypt P ct = .ok reply := by
  obtain ⟨hd, hh, ht, hpr, hpo⟩ := run_serverDest calls hdest
  have hpo : (Builder.run calls).port = port := by
    cases port with
    | none => exact run_noPort calls (hnp rfl)
    | some p => exact hpo p rfl
  have hup : upToNul payload = payload := by
    unfold upToNul
    clear hdest
    induction payload with
    | nil => rfl
    | cons c l ih =>
      simp only [List.mem_cons, not_or] at hnul
      rw [List.takeWhile_cons_of_pos (by simpa using fun h => hnul.1 h.symm), ih hnul.2]
  obtain ⟨c, hc⟩ := Hop.encrypt_ok hP (Hop.mk (rnd 0).1 (P.pubOf (rnd 0).1) false) (Builder.run calls).encType (rnd 0).2
    payload dest
  have hcore : (Builder.run calls).core P rnd payload =
      .ok (routeServer host target protocol port (P.pubOf (rnd 0).1) (Builder.run calls).encType, c) := by
    simp only [Builder.core, hd, hh, ht, hpr, hpo, hup, Out.bind_ok, hc]
  obtain ⟨r1, r2, r3⟩ := routeServer_lookup host target protocol port (P.pubOf (rnd 0).1) (Builder.run calls).encType
  obtain ⟨hopen, hlen⟩ := Hop.open_of_seal hP (srv := false) (hr 0) hc
  have hdump : ∃ js, dumpJ P (routeServer host target protocol port (P.pubOf (rnd 0).1) (Builder.run calls).encType) =
      .ok js := by
    obtain ⟨b, hb⟩ := hP.dumpAscii (routeServer host target protocol port (P.pubOf (rnd 0).1) (Builder.run calls).encType) (by
      intro kv hkv
      simp only [routeServer, List.mem_cons, List.not_mem_nil, or_false] at hkv
      rcases hkv with rfl | rfl | rfl | rfl | rfl | rfl | rfl
      · exact ⟨by show asciiOnly kHost = true; decide, hasc.1⟩
      · exact ⟨by show asciiOnly kTarget = true; decide, hasc.2.1⟩
      · exact ⟨by show asciiOnly kMethod = true; decide, by show asciiOnly sPost = true; decide⟩
      · exact ⟨by show asciiOnly kProtocol = true; decide, hasc.2.2⟩
      · exact ⟨by show asciiOnly kPort = true; decide, rfl⟩
      · exact ⟨by show asciiOnly kEph = true; decide, asciiOnly_toHex _⟩
      · exact ⟨by show asciiOnly kEnc = true; decide, asciiOnly_name _⟩) (by
      intro k n h
      simp [routeServer] at h
      cases port with
      | none => simp only [Option.getD_none] at h; rw [h.2]; split <;> omega
      | some p => have := hport p rfl; simp only [Option.getD_some] at h; omega)
    exact ⟨b, by simp only [dumpJ, hb]⟩
  obtain ⟨hb, r, hb2, hrl, hrel⟩ := build_relays hP (atEnd := ServerRoute host target protocol (port.getD (if protocol = kHttps then 443 else 80))) hr hdl hnl
    ((run_hops calls).trans hpath) hcore r2 r3 hdump r1
    (fun o o' h h' => ⟨(h _).trans h'.1, (h _).trans h'.2.1, (h _).trans h'.2.2.1, (h _).trans h'.2.2.2.1, (h _).trans h'.2.2.2.2⟩) hopen
  refine ⟨r, hb2, fun max hmax hm => ⟨_, hrel max hmax hm, rfl, fun reply rnd' hr' => ?_⟩⟩
  exact reply_reads hP (b := Builder.run calls) (by rw [hb]) (by rw [hb]; exact hd) (by rw [hb]) rfl rfl rfl reply rnd' hr'

/-! ### What is accepted -/

/-- The key both ends of a layer derive, for the client's and the node's key pairs -/
def LayerKey (P : OPrims) (t : EncType) (clientPub nodePub : Bytes) (secret key : Bytes) : Prop := match t with
  | .aesGcm => key = P.hmac (asc ['L', 'O', 'K', 'I']) secret
  | .xchacha20 => key = P.hash [] (secret ++ clientPub ++ nodePub)

/-- A ciphertext of a layer: nonce and sealed message -/
def Sealed (P : OPrims) (t : EncType) (key m c : Bytes) : Prop := match t with
  | .aesGcm => ∃ iv, iv.length = 12 ∧ c = iv ++ P.gcm key iv m
  | .xchacha20 => ∃ nonce, nonce.length = 24 ∧ c = nonce ++ P.aead key nonce m

theorem Hop.decrypt_sealed (hP : P.Good) {h : Hop} {t : EncType} {c pk m : Bytes} (hd : h.decrypt P t c pk = .ok m) :
    ∃ s key, P.dh h.sec pk = some s ∧
      LayerKey P t (if h.server then pk else h.pub) (if h.server then h.pub else pk) s key ∧ Sealed P t key m c := by
  cases t
  · simp only [Hop.decrypt, Hop.decryptGcm] at hd
    split at hd
    · cases hd
    rename_i hl
    obtain ⟨k, hk, hd⟩ := Out.bind_eq_ok.1 hd
    simp only [deriveSym] at hk
    obtain ⟨s, hs, hk⟩ := Out.bind_eq_ok.1 hk
    cases hk
    unfold sharedSecret at hs
    split at hs
    · rename_i s' hdh
      cases hs
      split at hd
      · rename_i m' hm
        cases hd
        refine ⟨s, _, hdh, rfl, c.take 12, by simp; omega, ?_⟩
        rw [← hP.gcmSealOpen _ _ _ _ hm, List.take_append_drop]
      · cases hd
    · cases hs
  · simp only [Hop.decrypt, Hop.decryptX] at hd
    split at hd
    · cases hd
    rename_i hl
    obtain ⟨k, hk, hd⟩ := Out.bind_eq_ok.1 hd
    simp only [xchachaShared] at hk
    obtain ⟨s, hs, hk⟩ := Out.bind_eq_ok.1 hk
    cases hk
    unfold sharedSecret at hs
    split at hs
    · rename_i s' hdh
      cases hs
      split at hd
      · rename_i m' hm
        cases hd
        refine ⟨s, P.hash [] ((s ++ if (!h.server) = true then h.pub else pk) ++ if (!h.server) = true then pk else h.pub), hdh, ?_, c.take 24, by simp at hl ⊢; omega, ?_⟩
        · cases h.server <;> simp [LayerKey]
        · rw [← hP.base.sealOpen _ _ _ _ hm, List.take_append_drop]
      · cases hd
    · cases hs

/-- **C102.** Whatever bytes a response parser accepts were sealed under the key shared between the
request's final key pair and the destination — with the request's cipher or, for XChaCha20 requests, with
AES-GCM. -/
theorem response_authentic (hP : P.Good) {rp : RespParser} {c m : Bytes} (h : rp.decrypt P c = .ok m) :
    ∃ t s key, (t = rp.encType ∨ rp.encType = .xchacha20) ∧ P.dh rp.pair.2 rp.dest = some s ∧
      LayerKey P t rp.pair.1 rp.dest s key ∧ Sealed P t key m c := by
  simp only [RespParser.decrypt] at h
  split at h
  · rename_i m' hm
    cases h
    obtain ⟨s, key, h1, h2, h3⟩ := Hop.decrypt_sealed hP hm
    exact ⟨_, s, key, .inl rfl, h1, h2, h3⟩
  · split at h
    · rename_i hx
      obtain ⟨s, key, h1, h2, h3⟩ := Hop.decrypt_sealed hP h
      exact ⟨_, s, key, .inr hx, h1, h2, h3⟩
    · cases h
  · cases h
  · cases h

/-- **C103.** A node's parser accepts a request only if it has the form size, ciphertext of that size,
JSON; is no larger than the limit; names an encryption (or none, meaning AES-GCM) and an ephemeral key
that is not the null key; and the ciphertext was sealed under the key shared with that ephemeral key. -/
theorem onionParse_sound (hP : P.Good) {pk sk req : Bytes} {max : Nat} {D : OnionParser}
    (h : onionParse P pk sk req max = .ok D) : pk.length = 32 ∧ sk.length = 32 ∧ req.length ≤ max ∧
      ∃ ct o, unframe P req = some (ct, o) ∧
        (o.lookup kEnc = none ∧ D.encType = .aesGcm ∨ ∃ s, o.lookup kEnc = some (.str s) ∧ parseEncType s = .ok D.encType) ∧
        (∃ s, o.lookup kEph = some (.str s) ∧ D.remote = parsePubkey P s) ∧ D.remote ≠ List.replicate 32 0 ∧
        ∃ s key, P.dh sk D.remote = some s ∧ LayerKey P D.encType D.remote pk s key ∧ Sealed P D.encType key D.payload ct := by
  simp only [onionParse] at h
  split at h
  · cases h
  rename_i hlen
  split at h
  · cases h
  rename_i h4
  split at h
  · cases h
  rename_i hmax
  split at h
  · cases h
  rename_i hsz
  split at h
  · cases h
  rename_i o ho
  obtain ⟨t, ht, h⟩ := Out.bind_eq_ok.1 h
  obtain ⟨remote, hr, h⟩ := Out.bind_eq_ok.1 h
  obtain ⟨m, hm, h⟩ := Out.bind_eq_ok.1 h
  cases h
  obtain ⟨s, key, h1, h2, h3⟩ := Hop.decrypt_sealed hP hm
  have hlen' : pk.length = 32 ∧ sk.length = 32 := by
    by_contra hc
    exact hlen (by rcases not_and_or.1 hc with h | h <;> [exact .inl h; exact .inr h])
  simp only [List.length_drop] at hsz
  refine ⟨hlen'.1, hlen'.2, by omega, (req.drop 4).take (leNat (req.take 4)), o, ?_, ?_, ?_, ?_, s, key, h1, h2, h3⟩
  · simp only [unframe]
    rw [if_neg (by omega), ← List.drop_drop, ho]
    rfl
  · unfold metaEnc at ht
    split at ht
    · rename_i v hv
      obtain ⟨s', hs', ht⟩ := Out.bind_eq_ok.1 ht
      cases v <;> simp [JVal.getStr] at hs'
      subst hs'
      exact .inr ⟨_, hv, ht⟩
    · rename_i hv
      cases ht
      exact .inl ⟨hv, rfl⟩
  · unfold metaEph at hr
    split at hr
    · rename_i v hv
      obtain ⟨s', hs', hr⟩ := Out.bind_eq_ok.1 hr
      cases v <;> simp [JVal.getStr] at hs'
      subst hs'
      cases hr
      exact ⟨_, hv, rfl⟩
    · cases hr
  · rintro rfl
    have := hP.dhZero sk
    rw [this] at h1
    cases h1

/-- The parser never leaves the request's bytes or loops: it accepts or throws. -/
theorem onionParse_safe (P : OPrims) (pk sk req : Bytes) (max : Nat) : (onionParse P pk sk req max).safe = true := by
  have hss : ∀ a b, (∃ k, sharedSecret P a b = .ok k) ∨ ∃ e, sharedSecret P a b = .err e := fun a b => by
    unfold sharedSecret; split
    · exact .inl ⟨_, rfl⟩
    · exact .inr ⟨_, rfl⟩
  have hdec : ∀ (h : Hop) t c pk, (∃ k, h.decrypt P t c pk = .ok k) ∨ ∃ e, h.decrypt P t c pk = .err e := fun h t c pk => by
    cases t <;> simp only [Hop.decrypt, Hop.decryptGcm, Hop.decryptX, deriveSym, xchachaShared] <;> split
    · exact .inr ⟨_, rfl⟩
    · rcases hss h.sec pk with ⟨k, hk⟩ | ⟨e, he⟩
      · simp only [hk, Out.bind_ok]; split
        · exact .inl ⟨_, rfl⟩
        · exact .inr ⟨_, rfl⟩
      · exact .inr ⟨e, by simp only [he, Out.bind_err]⟩
    · exact .inr ⟨_, rfl⟩
    · rcases hss h.sec pk with ⟨k, hk⟩ | ⟨e, he⟩
      · simp only [hk, Out.bind_ok]; split
        · exact .inl ⟨_, rfl⟩
        · exact .inr ⟨_, rfl⟩
      · exact .inr ⟨e, by simp only [he, Out.bind_err]⟩
  have henc : ∀ o, (∃ k, metaEnc o = .ok k) ∨ ∃ e, metaEnc o = .err e := fun o => by
    unfold metaEnc; split
    · rename_i v _
      cases v <;> simp only [JVal.getStr, Out.bind_ok, Out.bind_err]
      · unfold parseEncType
        split
        · exact .inl ⟨_, rfl⟩
        · split
          · exact .inl ⟨_, rfl⟩
          · exact .inr ⟨_, rfl⟩
      · exact .inr ⟨_, rfl⟩
      · exact .inr ⟨_, rfl⟩
    · exact .inl ⟨_, rfl⟩
  have heph : ∀ o, (∃ k, metaEph P o = .ok k) ∨ ∃ e, metaEph P o = .err e := fun o => by
    unfold metaEph; split
    · rename_i v _
      cases v <;> simp only [JVal.getStr, Out.bind_ok, Out.bind_err]
      · exact .inl ⟨_, rfl⟩
      · exact .inr ⟨_, rfl⟩
      · exact .inr ⟨_, rfl⟩
    · exact .inr ⟨_, rfl⟩
  simp only [onionParse]
  split
  · rfl
  split
  · rfl
  split
  · rfl
  split
  · rfl
  split
  · rfl
  rename_i o _
  rcases henc o with ⟨t, ht⟩ | ⟨e, he⟩
  · simp only [ht, Out.bind_ok]
    rcases heph o with ⟨k, hk⟩ | ⟨e, he⟩
    · simp only [hk, Out.bind_ok]
      rcases hdec (Hop.mk sk pk true) t _ k with ⟨m, hm⟩ | ⟨e, he⟩
      · rw [hm]; rfl
      · rw [he]; rfl
    · rw [he]; rfl
  · rw [he]; rfl

end

/-! ### Instances -/

/-- A secret key cut or padded to 31 bytes -/
def toyNorm (a : Bytes) : Bytes := (a ++ List.replicate 31 0).take 31

def toyJVal : JVal → Bt
  | .str s => .str s
  | .num n => .int n
  | .other => .list []

def toyJPair (kv : Bytes × JVal) : Bt := .list [.str kv.1, toyJVal kv.2]

def unJVal : Bt → JVal
  | .str s => .str s
  | .int n => .num n.toNat
  | _ => .other

def unJPair : Bt → Bytes × JVal
  | .list [.str k, v] => (k, unJVal v)
  | _ => ([], .other)

/-- A toy instance of the primitives: the "JSON" is bencoding. -/
def toyO : OPrims where
  dh := fun a B => if B = List.replicate 32 0 then none else some (0 :: List.zipWith (· + ·) (toyNorm a) (B.drop 1))
  pubOf := fun a => 1 :: toyNorm a
  hash := toyM.hash
  aead := toyM.aead
  aeadOpen := toyM.aeadOpen
  hmac := fun k m => k ++ m
  gcm := toyM.aead
  gcmOpen := toyM.aeadOpen
  dump := fun o => if (o.all fun kv => kv.2.ascii && match kv.2 with | .num n => decide (n < 2 ^ 16) | _ => true) = true then
      some (encV (.list (o.map toyJPair))) else none
  parse := fun b => match decV b.length b with
    | some (.list l, []) => some (l.map unJPair)
    | _ => none
  b64 := fun _ => none
  b32z := fun _ => none

theorem unJPair_toy (kv : Bytes × JVal) : unJPair (toyJPair kv) = kv := by
  rcases kv with ⟨k, v⟩
  cases v <;> simp [unJPair, toyJPair, toyJVal, unJVal]

theorem toyO_good : toyO.Good where
  base := {
    dhComm := fun a b => by
      have h : ∀ x, (1 :: toyNorm x) ≠ List.replicate 32 0 := fun x h => by
        simp [List.replicate_succ] at h
      simp only [toyO]
      rw [if_neg (h b), if_neg (h a)]
      simp only [List.drop_succ_cons, List.drop_zero]
      rw [List.zipWith_comm_of_comm UInt8.add_comm]
    dhOk := fun a b => by
      have h : (1 :: toyNorm b) ≠ List.replicate 32 0 := fun h => by simp [List.replicate_succ] at h
      simp only [toyO]
      rw [if_neg h]
      simp
    pubLen := fun _ => by simp [toyO, toyNorm]
    aeadLen := toyM_good.aeadLen
    openSeal := toyM_good.openSeal
    sealOpen := toyM_good.sealOpen }
  gcmLen := toyM_good.aeadLen
  gcmOpenSeal := toyM_good.openSeal
  gcmSealOpen := toyM_good.sealOpen
  parseDump := fun o b h => by
    simp only [toyO] at h ⊢
    split at h
    · rename_i hall
      cases h
      have hok : Bt.ok (.list (o.map toyJPair)) = true := by
        show Bt.okL (o.map toyJPair) = true
        clear * - hall
        induction o with
        | nil => rfl
        | cons kv o ih =>
          simp only [List.all_cons, Bool.and_eq_true] at hall
          simp only [List.map_cons, Bt.okL, Bool.and_eq_true]
          refine ⟨?_, ih (by simpa using hall.2)⟩
          rcases kv with ⟨k, v⟩
          cases v with
          | str s => rfl
          | other => rfl
          | num n =>
            have hn : n < 2 ^ 16 := by simpa using hall.1.2
            simp [toyJPair, toyJVal, Bt.ok, Bt.okL, intOk]
            omega
      have := decV_encV (.list (o.map toyJPair)) (encV (.list (o.map toyJPair))).length [] hok (Nat.le_refl _)
      rw [List.append_nil] at this
      rw [this]
      refine ⟨_, rfl, fun k => ?_⟩
      rw [List.map_map]
      congr 1
      conv_rhs => rw [← List.map_id o]
      exact List.map_congr_left fun kv _ => unJPair_toy kv
    · cases h
  dumpAscii := fun o h hn => by
    refine ⟨_, if_pos ?_⟩
    rw [List.all_eq_true]
    intro kv hkv
    have h1 := (h kv hkv).2
    rcases kv with ⟨k, v⟩
    cases v with
    | str s => simpa using h1
    | other => simpa using h1
    | num n => simpa [JVal.ascii] using hn k n hkv
  dhZero := fun a => by simp [toyO]

def oRnd (i : Nat) : Bytes × Bytes := (List.replicate 32 (UInt8.ofNat (i + 1)), List.replicate 24 9)
def oN1 : ONode := ⟨List.replicate 32 21, List.replicate 32 31⟩
def oN2 : ONode := ⟨List.replicate 32 22, List.replicate 32 32⟩
def oEd : Bytes := List.replicate 32 23
def oSec : Bytes := List.replicate 32 33
def oHost : Bytes := asc ['a', '.', 'b']
def oTarget : Bytes := asc ['/', 'x']

def oCalls : List BCall := [.hop oN1.ed (toyO.pubOf oN1.sec), .snode oEd (toyO.pubOf oSec), .hop oN2.ed (toyO.pubOf oN2.sec)]

/-- The hypotheses of `onion_to_snode` hold for a path of two hops, and the request is of acceptable
size. -/
example : lastDest oCalls = some (.snode oEd (toyO.pubOf oSec)) ∧ (∀ c ∈ oCalls, c.isServer = false) ∧
    pathOf oCalls = [oN1, oN2].map (fun n => (n.ed, toyO.pubOf n.sec)) ∧ (∀ i, 24 ≤ (oRnd i).2.length) ∧
    (∀ n ∈ [oN1, oN2], n.sec.length = 32) ∧
    (((Builder.run oCalls).build toyO oRnd [1, 0, 2]).2.toOption.any fun r => decide (r.length ≤ 10485760)) = true :=
  ⟨by decide +kernel, by decide +kernel, by decide +kernel, fun _ => by simp [oRnd], by decide +kernel, by decide +kernel⟩

/-- The calls of a request to a server, of which the first is superseded -/
def oServerCalls : List BCall := [.enc .aesGcm, .server (asc ['z']) oTarget kHttps (some 8080) (toyO.pubOf oN2.sec),
  .server oHost oTarget kHttps (some 443) (toyO.pubOf oSec), .hop oN1.ed (toyO.pubOf oN1.sec)]

/-- The hypotheses of `onion_to_server_partial`. -/
example : lastDest oServerCalls = some (.server oHost oTarget kHttps (some 443) (toyO.pubOf oSec)) ∧
    pathOf oServerCalls = [oN1].map (fun n => (n.ed, toyO.pubOf n.sec)) ∧ asciiOnly oHost = true ∧ asciiOnly oTarget = true ∧
    asciiOnly kHttps = true ∧ (0 : UInt8) ∉ [1, 2] ∧
    (∀ c ∈ [BCall.server oHost oTarget kHttps none (toyO.pubOf oSec), .hop oN1.ed (toyO.pubOf oN1.sec)], c.givesPort = false) :=
  ⟨by decide +kernel, by decide +kernel, by decide +kernel, by decide +kernel, by decide +kernel, by decide +kernel, by decide +kernel⟩

/-- The request as the parsers along a path see it: the routing objects and the payload at the end -/
def traceReq (P : OPrims) (max : Nat) (dest : Bytes) : List ONode → Bytes → Option (List JObj × Bytes)
  | [], r => (onionParse P (P.pubOf dest) dest r max).toOption.map fun D => ([], D.payload)
  | n :: rest, r => do
    let q ← (onionParse P (P.pubOf n.sec) n.sec r max).toOption
    let u ← unframe P q.payload
    let t ← traceReq P max dest rest q.payload
    return (u.2 :: t.1, t.2)

/-- The routing objects and the payload at the end, of the request built after some calls -/
def traceCalls (calls : List BCall) (payload : Bytes) : Option (List JObj × Bytes) := do
  let r ← ((Builder.run calls).build toyO oRnd payload).2.toOption
  traceReq toyO 10485760 oSec [oN1] r

/-- **C101, what fails (1).** A payload to a server is cut at its first NUL byte. -/
theorem onion_server_payload_cut : (traceCalls oServerCalls [1, 0, 2]).map (·.2) = some [1] := by decide +kernel

/-- **C101, what fails (2).** A port once set is used for later destinations given without one: here
`https` without a port goes to 8080. -/
theorem onion_port_sticky :
    (traceCalls [.server (asc ['z']) oTarget kHttps (some 8080) (toyO.pubOf oN2.sec),
      .server oHost oTarget kHttps none (toyO.pubOf oSec), .hop oN1.ed (toyO.pubOf oN1.sec)] [1]).map
      (fun t => (t.1.map fun o => (o.lookup kHost, o.lookup kPort), t.2)) =
    some ([(some (.str oHost), some (.num 8080))], [1]) := by decide +kernel

/-- **C100, what fails.** After a server destination, a service node destination is not honoured: the last
hop is still told the server, and the node's key is used for a payload in the server's format. -/
theorem onion_snode_after_server :
    (traceCalls [.server oHost oTarget kHttps (some 443) (toyO.pubOf oN2.sec), .snode oEd (toyO.pubOf oSec),
      .hop oN1.ed (toyO.pubOf oN1.sec)] [1]).map (fun t => (t.1.map fun o => (o.lookup kHost, o.lookup kDest), t.2)) =
    some ([(some (.str oHost), none)], [1]) := by decide +kernel

/-- A response under either cipher is accepted by a response parser for XChaCha20, which meets the
hypothesis of `response_authentic`; another node's is not. -/
example : let rp : RespParser := ⟨toyO.pubOf oSec, (toyO.pubOf (oRnd 0).1, (oRnd 0).1), .xchacha20⟩
    ((Hop.mk oSec (toyO.pubOf oSec) true).encrypt toyO .xchacha20 (oRnd 0).2 [5, 6] (toyO.pubOf (oRnd 0).1) >>= rp.decrypt toyO) =
      .ok [5, 6] ∧
    ((Hop.mk oSec (toyO.pubOf oSec) true).encrypt toyO .aesGcm (oRnd 0).2 [5, 6] (toyO.pubOf (oRnd 0).1) >>= rp.decrypt toyO) =
      .ok [5, 6] ∧
    ((Hop.mk oN1.sec (toyO.pubOf oN1.sec) true).encrypt toyO .xchacha20 (oRnd 0).2 [5, 6] (toyO.pubOf (oRnd 0).1) >>=
      rp.decrypt toyO) = .err .foreign := by decide +kernel

/-- A request to a service node is accepted (the hypothesis of `onionParse_sound`), but not by another
node. -/
example : (((Builder.run oCalls).build toyO oRnd [1, 0, 2]).2 >>= fun r =>
      onionParse toyO (toyO.pubOf oN1.sec) oN1.sec r 10485760).isOk = true ∧
    (((Builder.run oCalls).build toyO oRnd [1, 0, 2]).2 >>= fun r =>
      onionParse toyO (toyO.pubOf oN2.sec) oN2.sec r 10485760).isOk = false := by decide +kernel

end Verif
