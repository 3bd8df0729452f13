import Verif.Promotion
import Verif.Props.GroupState
import Verif.Props.GroupMsg
import Verif.Props.Fields
import Verif.Props.ClientDump

/-!
# C118: becoming an admin
-/

namespace Verif

theorem GroupSys.MemberDevice.member {U : UPrims} {G : GroupSys} (h : G.MemberDevice U) : G.Member :=
  ⟨h.k, by rw [h.i]; rfl, by rw [h.m]; rfl⟩

/-- C118.  `load_admin_key` on the device of a member succeeds exactly for the seed or secret key of the group; then
the three objects hold what they held before - the same state, with the same history - on a device of an admin whose
signatures are accepted by every device of the group. -/
theorem load_admin_key {U : UPrims} (hU : U.Good) {G : GroupSys} (hG : G.Good) (hm : G.MemberDevice U)
    (secret : Bytes) :
    ((∃ G', G.loadAdminKey U secret = .ok G') ↔
      (secret.length = 32 ∨ secret.length = 64) ∧ U.edPub (U.keypair (secret.take 32)) = G.e.groupPk) ∧
    ∀ G', G.loadAdminKey U secret = .ok G' →
      G'.Good ∧ OwnKey G'.P G'.e (U.keypair (secret.take 32)) ∧
      (∃ si sm, SameGroup G G' si sm) ∧ SameGroup G' G none none ∧ G'.e.userSk = G.e.userSk ∧
      G'.SI.env.readonly = false ∧ G'.SM.env.readonly = false ∧
      ∀ g log, GReach G g log → GReach G' g log := by
  have hna : G.e.admin = false := by simp [GEnv.admin, hm.k]
  obtain ⟨h1, h2⟩ := (promotion hU G.e secret).2 hna
  have hno : ∀ G', G.loadAdminKey U secret = .ok G' → ∃ e, G.e.loadAdminKey U secret = .ok e ∧
      e = { G.e with groupSk := some (U.keypair (secret.take 32)) } ∧
      G' = ⟨G.P, e, G.SI.signing U.toGPrims (U.keypair (secret.take 32)),
        G.SM.signing U.toGPrims (U.keypair (secret.take 32))⟩ ∧
      G.e.groupPk = U.edPub (U.keypair (secret.take 32)) := by
    intro G' h
    unfold GroupSys.loadAdminKey at h
    cases he : G.e.loadAdminKey U secret with
    | ok e =>
      rw [he] at h
      have he' := he
      unfold GEnv.loadAdminKey at he'
      rw [if_neg (by simp [hna])] at he'
      split at he'
      · cases he'
      · dsimp only at he'
        split at he'
        · cases he'
        · rename_i hpk
          cases he'
          simp only [hna, Bool.false_eq_true, if_false] at h
          cases h
          exact ⟨_, rfl, rfl, rfl, not_not.1 hpk⟩
    | err x => rw [he] at h; cases h
    | hang => rw [he] at h; cases h
    | ub => rw [he] at h; cases h
  refine ⟨⟨fun ⟨G', h⟩ => ?_, fun h => ?_⟩, fun G' h => ?_⟩
  · obtain ⟨e, he, _⟩ := hno G' h
    exact h1.1 ⟨e, he⟩
  · obtain ⟨e, he⟩ := h1.2 h
    unfold GroupSys.loadAdminKey
    rw [he]
    simp only [hna, Bool.false_eq_true, if_false]
    cases e.groupSk with
    | some sk => exact ⟨_, rfl⟩
    | none => exact ⟨_, rfl⟩
  · obtain ⟨e, he, he2, rfl, hpk⟩ := hno G' h
    subst he2
    set sk := U.keypair (secret.take 32) with hsk
    have eI : G.SI.signing U.toGPrims sk = G.SI.as (some (U.sign sk)) := by
      rw [hm.i]; unfold Sys.signing Sys.as Sys.verifying; rw [hpk]
    have eM : G.SM.signing U.toGPrims sk = G.SM.as (some (U.sign sk)) := by
      rw [hm.m]; unfold Sys.signing Sys.as Sys.verifying; rw [hpk]
    have good : ∀ S : Sys, S.Good → (S.signing U.toGPrims sk).Good := by
      intro S hS
      refine ⟨⟨hS.sane.hash, fun f hf b => ?_⟩, hS.lag1, hS.lagU, hS.prims, hS.dom, hS.zip, fun v f hv hf b => ?_,
        hS.proto⟩
      · cases hf; exact hU.g.signLen _ _
      · cases hf; cases hv; exact hU.g.signOk _ _
    refine ⟨⟨hG.p, good _ hG.i, good _ hG.m, hG.protoI, hG.protoM⟩, ⟨rfl, by rw [hm.p]; exact hpk⟩,
      ⟨some (U.sign sk), some (U.sign sk), rfl, rfl, eI, eM⟩, ⟨rfl, rfl, ?_, ?_⟩, rfl, rfl, rfl, fun g log hg => ?_⟩
    · show G.SI = (G.SI.signing U.toGPrims sk).as none
      rw [eI]; conv_lhs => rw [hm.i]
      conv_rhs => rw [hm.i]
      rfl
    · show G.SM = (G.SM.signing U.toGPrims sk).as none
      rw [eM]; conv_lhs => rw [hm.m]
      conv_rhs => rw [hm.m]
      rfl
    · dsimp only
      rw [eI, eM]
      exact .promote hg hm.member

/-- C118.  As a member every modification throws and changes nothing; as an admin every one succeeds (until the seqno
has reached its maximum). -/
theorem promoted_can_edit {U : UPrims} (hU : U.Good) {G G' : GroupSys} (hG : G.Good) (hm : G.MemberDevice U)
    {secret : Bytes} (h : G.loadAdminKey U secret = .ok G') {g : GState} {log : List (Bytes × Found)}
    (hg : GReach G g log) :
    (∀ d, g.info.edit G.SI d = (g.info, .err .foreign) ∧ g.members.edit G.SM d = (g.members, .err .foreign)) ∧
    (int64Ok (g.info.seqno + 1) = true → ∀ p op, ∃ c, g.info.field G'.SI p op = (c, .ok ())) ∧
    (int64Ok (g.members.seqno + 1) = true → ∀ m : GMember, m.inRange = true → checkId m.id pre05 = true →
      ∃ c, g.members.setMember G'.SM m = (c, .ok ())) := by
  obtain ⟨g1, _, _, _, _, g5, g6, g7⟩ := (load_admin_key hU hG hm secret).2 G' h
  have hi := (g7 g log hg).inv g1
  have h0 := hg.inv hG
  refine ⟨fun d => ⟨?_, ?_⟩, fun hov p op => field_succeeds g1.i hi.i g5 hov p op, fun hov m hr hid => ?_⟩
  · have := ((h0.i.inv hG.i).ro hm.member.i).1
    unfold Client.edit Client.dirty
    rw [if_neg (by rw [this]; decide), if_pos hm.member.i]
  · have := ((h0.m.inv hG.m).ro hm.member.m).1
    unfold Client.edit Client.dirty
    rw [if_neg (by rw [this]; decide), if_pos hm.member.m]
  · have := (gmember_set_error g1.m hi.m hr).2.2 hid g6 hov
    exact ⟨_, Prod.ext rfl this⟩

/-- C118.  The dumps a device made as that of a member can be loaded by the admin's objects: with the same content, seqno and
hashes, and nothing to push. -/
theorem promoted_loads_old_dumps {U : UPrims} (hU : U.Good) {G G' : GroupSys} (hG : G.Good) (hm : G.MemberDevice U)
    {secret : Bytes} (h : G.loadAdminKey U secret = .ok G') {g : GState} {log : List (Bytes × Found)}
    (hg : GReach G g log) (hov : int64Ok (g.info.seqno + G.SI.env.lag) = true) :
    ∃ c, Client.restore G'.SI (g.info.dumpBytes G.SI []) = .ok c ∧ Reach G'.SI c ∧ c.content = g.info.content ∧
      c.seqno = g.info.seqno ∧ c.currentHashes = g.info.currentHashes ∧ c.needsPush = false := by
  obtain ⟨g1, _, ⟨si, sm, gs⟩, _, _, g5, g6, g7⟩ := (load_admin_key hU hG hm secret).2 G' h
  have hi := (g7 g log hg).inv g1
  have hst := (((hg.inv hG).i.inv hG.i).ro hm.member.i).1
  have e : g.info.dumpBytes G'.SI [] = g.info.dumpBytes G.SI [] := by rw [gs.i, dumpBytes_as]
  have hl := load_dump g1.i (hi.i.inv g1.i) (ord := []) List.nodup_nil (by rw [gs.i]; exact hov)
  have hq := seqno_restored g1.i hi.i (ord := []) List.nodup_nil hl
  rw [if_neg (by rw [hst]; decide)] at hq
  refine ⟨_, by rw [← e]; exact hl, ?_, reloaded_content (hi.i.inv g1.i) [], hq, rfl, ?_⟩
  · rw [e, gs.i] at hl
    cases si with
    | some f => rw [gs.i]; exact .revive (hg.inv hG).i hm.member.i hl
    | none =>
      exfalso
      rw [gs.i] at g5
      have hv : G.SI.env.verifier.isSome = true := by
        have := hm.member.i
        simp only [Env.readonly, Bool.and_eq_true] at this
        exact this.1
      simp [Env.readonly, Sys.as, hv] at g5
  · exact needsPush_false_iff.2 hst

/-- C118.  What the new admin changes and pushes is what every other device of the group shows after merging it - a
member's or an admin's, under the conditions of C98. -/
theorem promoted_publishes {U : UPrims} (hU : U.Good) {G G' : GroupSys} (hG : G.Good) (hm : G.MemberDevice U)
    {secret : Bytes} (h : G.loadAdminKey U secret = .ok G') {g : GState} {log : List (Bytes × Found)}
    (hg : GReach G g log) {name : Bytes} {i : Client} (hset : g.info.setInfoName G'.SI name = (i, .ok ()))
    {D : GroupSys} (hD : D.Good) {si sm : Option (Bytes → Bytes)} (hGD : SameGroup G' D si sm)
    {t : GState} {log' : List (Bytes × Found)} (ht : GReach D t log') {s : Int} {m : Bytes} {obs : List Bytes}
    (hp : (i.push G'.SI).2 = .ok (s, m, obs)) (hs : s ≠ 0) (hopen : CanOpen G'.SI { g with info := i } t m)
    (hst : t.info.st ≠ .dirty)
    (hknown : t.info.seqno = 0 ∨
      ∀ M, parseMsg G'.SI.env false (i.plain G'.SI) = .ok M → Supersedes D.SI M t.info)
    (hnc : G'.SI.env.H (i.plain G'.SI) = G'.SI.env.H (t.info.plain D.SI) → i.plain G'.SI = t.info.plain D.SI)
    (hov : int64Ok (s + G'.SI.env.lag) = true) (hash : Bytes) :
    (t.info.merge D.SI [(hash, m)]).2 = .ok [hash] ∧
    (t.info.merge D.SI [(hash, m)]).1.ginfo = { g.info.ginfo with name := orNone (name.take 100) } := by
  obtain ⟨g1, _, _, _, _, _, _, g7⟩ := (load_admin_key hU hG hm secret).2 G' h
  have hr := g7 g log hg
  have hi := hr.inv g1
  have hset' := hset
  unfold Client.setInfoName at hset'
  rw [setNonempty_eq] at hset'
  have hr' : GReach G' { g with info := i } log :=
    hr.editInfo (write_edits g1.i hi.i (wfO_nestr _) hset')
  obtain ⟨r1, r2, _⟩ := group_info_delivered g1 hD hGD hr' ht hp hs hopen hst hknown hnc hov hash
  exact ⟨r1, r2.trans ((ginfo_set g1.i hi.i).1 name hset)⟩

/-! ### C119: the signing keys of one object -/

/-- Calls in which no other public key follows a secret key. -/
def Orderly (P : GPrims) : SigKeys → List SigCall → Prop
  | _, [] => True
  | k, .pubkey p :: t => (∀ s, k.sk = some s → p = P.edPub s) ∧ Orderly P (k.call P (.pubkey p)).1 t
  | k, c :: t => Orderly P (k.call P c).1 t

theorem sig_run_invariant {P : GPrims} (cs : List SigCall) : ∀ k : SigKeys,
    (∀ s, k.sk = some s → k.pk.isSome = true) → ∀ s, (k.run P cs).sk = some s → (k.run P cs).pk.isSome = true := by
  induction cs with
  | nil => exact fun k h => h
  | cons c t ih =>
    intro k h
    refine ih _ ?_
    cases c with
    | keys s => unfold SigKeys.call; dsimp only; split <;> simp_all
    | pubkey p => unfold SigKeys.call; dsimp only; split <;> simp_all
    | clear => intro s hs; cases hs

/-- C119, what holds.  After the constructor and any calls: an object that can sign also verifies; it is read-only
exactly with a public key alone; a call that throws changes nothing; and as long as no other public key is set after a
secret key, what the object signs passes its own verifier. -/
theorem sig_keys_partial {P : GPrims} (hP : P.Good) {pubkey secret : Option Bytes} {k0 : SigKeys}
    (h0 : SigKeys.init P pubkey secret = .ok k0) (cs : List SigCall) (env : Env) :
    (((k0.run P cs).env P env).signer.isSome = true → ((k0.run P cs).env P env).verifier.isSome = true) ∧
    (((k0.run P cs).env P env).readonly = true ↔ (k0.run P cs).pk.isSome = true ∧ (k0.run P cs).sk = none) ∧
    (∀ c, ((k0.run P cs).call P c).2 = true → ((k0.run P cs).call P c).1 = k0.run P cs) ∧
    (Orderly P k0 cs → ∀ v f, ((k0.run P cs).env P env).verifier = some v → ((k0.run P cs).env P env).signer = some f →
      ∀ b, v b (f b) = true) := by
  have hk0 : ∀ s, k0.sk = some s → k0.pk = some (P.edPub s) := by
    intro s hs
    unfold SigKeys.init at h0
    split at h0
    · split at h0
      · cases h0
      split at h0
      · cases h0
      split at h0
      · cases h0
      cases h0; cases hs; rfl
    · split at h0
      · cases h0
      cases h0; cases hs; rfl
    · split at h0
      · cases h0
      cases h0; cases hs
    · cases h0; cases hs
  refine ⟨fun h => ?_, ?_, fun c h => ?_, fun ho v f hv hf b => ?_⟩
  · unfold SigKeys.env at h ⊢
    simp only [Option.isSome_map] at h ⊢
    obtain ⟨s, hs⟩ := Option.isSome_iff_exists.1 h
    exact sig_run_invariant cs k0 (fun s hs => by rw [hk0 s hs]; rfl) s hs
  · unfold Env.readonly SigKeys.env
    simp [Option.isSome_map]
  · cases c with
    | keys s => unfold SigKeys.call at h ⊢; dsimp only at h ⊢; split at h <;> simp_all
    | pubkey p => unfold SigKeys.call at h ⊢; dsimp only at h ⊢; split at h <;> simp_all
    | clear => cases h
  · have key : ∀ (cs : List SigCall) (k : SigKeys), (∀ s, k.sk = some s → k.pk = some (P.edPub s)) → Orderly P k cs →
        ∀ s, (k.run P cs).sk = some s → (k.run P cs).pk = some (P.edPub s) := by
      intro cs
      induction cs with
      | nil => exact fun k h _ => h
      | cons c t ih =>
        intro k h ho
        cases c with
        | keys s =>
          refine ih _ ?_ ho
          unfold SigKeys.call; dsimp only
          split
          · exact h
          · intro s' hs'; cases hs'; rfl
        | pubkey p =>
          refine ih _ ?_ ho.2
          unfold SigKeys.call; dsimp only
          split
          · exact h
          · intro s' hs'
            rw [ho.1 s' hs']
        | clear => exact ih _ (fun s hs => by cases hs) ho
    unfold SigKeys.env at hv hf
    dsimp only at hv hf
    obtain ⟨s, hs, rfl⟩ := Option.map_eq_some_iff.1 hf
    rw [key cs k0 hk0 ho s hs] at hv
    cases hv
    exact hP.signOk s b

/-- C119.  What each call leaves: after `set_sig_keys` the object signs with that secret key and verifies with its public key; after
`set_sig_pubkey` it verifies with that key, and signs as before; after `clear_sig_keys` it neither signs nor verifies.  Keys of another
length are refused. -/
theorem sig_calls {P : GPrims} (k : SigKeys) (env : Env) :
    (∀ s, s.length = 64 → (k.call P (.keys s)).2 = false ∧ ((k.call P (.keys s)).1.env P env).signer = some (P.sign s) ∧
      ((k.call P (.keys s)).1.env P env).verifier = some (P.verify (P.edPub s))) ∧
    (∀ p, p.length = 32 → (k.call P (.pubkey p)).2 = false ∧ ((k.call P (.pubkey p)).1.env P env).signer = (k.env P env).signer ∧
      ((k.call P (.pubkey p)).1.env P env).verifier = some (P.verify p)) ∧
    ((k.call P .clear).2 = false ∧ ((k.call P .clear).1.env P env).signer = none ∧ ((k.call P .clear).1.env P env).verifier = none) ∧
    (∀ s, s.length ≠ 64 → (k.call P (.keys s)).2 = true) ∧ (∀ p, p.length ≠ 32 → (k.call P (.pubkey p)).2 = true) := by
  refine ⟨fun s h => ?_, fun p h => ?_, ⟨rfl, rfl, rfl⟩, fun s h => ?_, fun p h => ?_⟩
  · unfold SigKeys.call; dsimp only; rw [if_neg (fun x => x h)]; exact ⟨rfl, rfl, rfl⟩
  · unfold SigKeys.call; dsimp only; rw [if_neg (fun x => x h)]; exact ⟨rfl, rfl, rfl⟩
  · unfold SigKeys.call; dsimp only; rw [if_pos h]
  · unfold SigKeys.call; dsimp only; rw [if_pos h]

/-- C119.  The constructor: which keys it takes and what it makes of them. -/
theorem sig_init {P : GPrims} (pubkey secret : Option Bytes) (k : SigKeys) :
    SigKeys.init P pubkey secret = .ok k ↔
      (secret = none ∧ k.sk = none ∧ k.pk = pubkey ∧ ∀ p, pubkey = some p → p.length = 32) ∨
      (∃ s, secret = some s ∧ s.length = 64 ∧ k.sk = some s ∧ k.pk = some (P.edPub s) ∧ ∀ p, pubkey = some p → p = s.drop 32) := by
  obtain ⟨a, b⟩ := k
  unfold SigKeys.init
  cases secret with
  | none =>
    cases pubkey with
    | none => simp [eq_comm, and_comm]
    | some p =>
      dsimp only
      by_cases h : p.length = 32
      · rw [if_neg (fun x => x h)]; simp [h, eq_comm, and_comm]
      · rw [if_pos h]; simp [h]
  | some s =>
    cases pubkey with
    | none =>
      dsimp only
      by_cases h : s.length = 64
      · rw [if_neg (fun x => x h)]; simp [h, eq_comm, and_comm]
      · rw [if_pos h]; simp [h]
    | some p =>
      dsimp only
      by_cases h : s.length = 64
      · rw [if_neg (by omega)]
        by_cases hp : p = s.drop 32
        · rw [if_neg (fun x => x hp), if_neg (fun x => x h)]; simp [h, hp, eq_comm, and_comm]
        · rw [if_pos hp]; simp [hp]
      · rw [if_pos h]
        refine ⟨fun x => ?_, fun x => ?_⟩
        · split at x
          · cases x
          · split at x <;> cases x
        · simp [h] at x

/-- C119, what does not hold: `set_sig_pubkey` with another key leaves the signer, and the object then signs with a key
its own verifier - and everybody who has the new public key - rejects. -/
theorem sig_pubkey_keeps_signer :
    ∃ (k0 : SigKeys) (cs : List SigCall) (v : Bytes → Bytes → Bool) (f : Bytes → Bytes),
      SigKeys.init toyG none none = .ok k0 ∧
      ((k0.run toyG cs).env toyG exSys.env).verifier = some v ∧
      ((k0.run toyG cs).env toyG exSys.env).signer = some f ∧ v [1] (f [1]) = false :=
  ⟨⟨none, none⟩, [.keys (List.replicate 64 3), .pubkey (toyG.edPub gU2)], toyG.verify (toyG.edPub gU2),
    toyG.sign (List.replicate 64 3), by rfl, by rfl, by rfl, by decide +kernel⟩

/-- An orderly sequence: a member's public key, then the secret key that belongs to it, then the public key again. -/
example : SigKeys.init toyG (some (toyG.edPub gSk)) none = .ok ⟨some (toyG.edPub gSk), none⟩ ∧
    Orderly toyG ⟨some (toyG.edPub gSk), none⟩ [.keys (gSk ++ toyG.edPub gSk), .pubkey (toyG.edPub (gSk ++ toyG.edPub gSk))] ∧
    (SigKeys.run toyG ⟨some (toyG.edPub gSk), none⟩ [.keys (gSk ++ toyG.edPub gSk)]).sk.isSome = true := by
  refine ⟨by rfl, ⟨fun s hs => ?_, trivial⟩, by decide +kernel⟩
  have : (SigKeys.call toyG ⟨some (toyG.edPub gSk), none⟩ (.keys (gSk ++ toyG.edPub gSk))).1 =
      ⟨some (toyG.edPub (gSk ++ toyG.edPub gSk)), some (gSk ++ toyG.edPub gSk)⟩ := by decide +kernel
  rw [this] at hs
  cases hs; rfl

/-! ### A concrete case -/

/-- The device of a member of the group of `gSk` -/
def gMD : GroupSys := ⟨toyG, gMem1, exSys.verifying toyG gMem1.groupPk, exSys.verifying toyG gMem1.groupPk⟩
/-- The device of another member -/
def gMD2 : GroupSys := ⟨toyG, gMem2, exSys.verifying toyG gMem2.groupPk, exSys.verifying toyG gMem2.groupPk⟩
/-- The first one as that of an admin -/
def gMA : GroupSys := ⟨toyG, gAdmin, exSys.signing toyG gSk, exSys.signing toyG gSk⟩

theorem verifying_good (pk : Bytes) : (exSys.verifying toyG pk).Good :=
  { sane := ⟨exEnvH_sane.1, fun f hf => by cases hf⟩, lag1 := exSys_good.lag1, lagU := exSys_good.lagU, prims := toyPrims_good,
    dom := exSys_good.dom, zip := fun _ => rfl, sig := fun v f _ hf => (by cases hf), proto := fun w u h => (by cases h) }

theorem gMD_good : gMD.Good := ⟨toyG_good, verifying_good _, verifying_good _, rfl, rfl⟩
theorem gMD2_good : gMD2.Good := ⟨toyG_good, verifying_good _, verifying_good _, rfl, rfl⟩

theorem gMD_member : gMD.MemberDevice toyU := ⟨rfl, rfl, rfl, rfl⟩

/-- What `load_admin_key` makes of the first member's device -/
def gMP : GroupSys := ⟨toyG, ⟨gU1, toyG.edPub gSk, some gSk⟩, exSys.signing toyG gSk, exSys.signing toyG gSk⟩

theorem gMP_eq : gMD.loadAdminKey toyU gSk = .ok gMP := by rfl

/-- The admin's list of members and the message of a rekey -/
def gMms : Client := (((Client.new gMA.SM).setMember gMA.SM gm1).1.setMember gMA.SM gm2).1
def gMmsg : Bytes := match ((GState.mk .init (Client.new gMA.SI) gMms).rekey gMA).2 with | .ok m => m | _ => []
/-- Both members, having loaded it -/
def gM1 : GState := ((GState.new gMD).load gMD [1] gMmsg 1000).1
def gM2 : GState := ((GState.new gMD2).load gMD2 [1] gMmsg 1000).1
/-- The first, as an admin, renames the group. -/
def gMi : Client := (gM1.info.setInfoName gMP.SI [78]).1

/-- The other member sees the new name; before, the first could not have set it, and it could not have done so with
another key. -/
example : ((GState.new gMD).load gMD [1] gMmsg 1000).2 = .ok true ∧ ((GState.new gMD2).load gMD2 [1] gMmsg 1000).2 = .ok true ∧
    (gM1.info.setInfoName gMD.SI [78]).2 = .err .foreign ∧ (gM1.info.setInfoName gMP.SI [78]).2 = .ok () ∧
    (gM2.info.merge gMD2.SI [([2], pushedBy gMP.SI gMi)]).2 = .ok [[2]] ∧
    (gM2.info.merge gMD2.SI [([2], pushedBy gMP.SI gMi)]).1.infoName = some [78] ∧
    (gM2.info.merge gMD2.SI [([2], pushedBy (exSys.signing toyG gU2) gMi)]).1.infoName = none ∧
    (gM1.members.setMember gMP.SM { gm2 with admin := true }).2 = .ok () ∧
    ((Client.restore gMP.SI (gM1.info.dumpBytes gMD.SI [])).toOption.map fun c => c.needsPush) = some false := by
  decide +kernel

theorem gM1_reach : ∃ log, GReach gMD gM1 log := by
  have hp : ∃ f, parseKeyMsg toyG gMem1 gMmsg 1000 = .ok f := by
    have : (parseKeyMsg toyG gMem1 gMmsg 1000).isOk = true := by decide +kernel
    cases h : parseKeyMsg toyG gMem1 gMmsg 1000 with
    | ok f => exact ⟨f, rfl⟩
    | err _ => rw [h] at this; cases this
    | hang => rw [h] at this; cases this
    | ub => rw [h] at this; cases this
  obtain ⟨f, hf⟩ := hp
  exact ⟨_, .load (.new : GReach gMD (GState.new gMD) []) hf (by decide +kernel)⟩

/-- C118 applied to it. -/
example : ∃ log, GReach gMP gM1 log ∧ gMP.Good ∧
    ∃ c, Client.restore gMP.SI (gM1.info.dumpBytes gMD.SI []) = .ok c ∧ c.needsPush = false := by
  obtain ⟨log, h⟩ := gM1_reach
  obtain ⟨g1, _, _, _, _, _, _, g7⟩ := (load_admin_key toyU_good gMD_good gMD_member gSk).2 gMP gMP_eq
  obtain ⟨c, c1, _, _, _, _, c6⟩ := promoted_loads_old_dumps toyU_good gMD_good gMD_member gMP_eq h (by decide +kernel)
  exact ⟨log, g7 _ _ h, g1, c, c1, c6⟩

end Verif
