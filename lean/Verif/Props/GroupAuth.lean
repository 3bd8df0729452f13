import Verif.Props.GroupRekey

/-!
# Accepted key messages are signed (C71)
-/

namespace Verif

variable {P : GPrims}

theorem decL_mem_split {s : Bytes} : ∀ (f : Nat) {bs : Bytes} {l : List Bt} {r : Bytes},
    decL f bs = some (l, r) → Bt.str s ∈ l → ∃ p, bs = p ++ r ∧ s <:+: p := by
  intro f
  induction f with
  | zero => intro bs l r h; simp [decL] at h
  | succ f ih =>
    intro bs l r h hs
    cases bs with
    | nil => simp [decL] at h
    | cons c t =>
      simp only [decL] at h
      split at h
      · cases h; cases hs
      · split at h
        · cases h
        · rename_i v r' hv
          obtain ⟨p, hp, e⟩ := Option.map_eq_some_iff.1 h
          cases e
          obtain ⟨q, hq⟩ := (dec_suffix _).2.1 _ _ _ hp
          rcases List.mem_cons.1 hs with h' | h'
          · subst h'
            obtain ⟨pre, hd⟩ := decStr_split (decV_str hv)
            rw [hd]
            refine ⟨pre ++ (s ++ q), ?_, ⟨pre, q, by simp⟩⟩
            rw [hq]; simp
          · obtain ⟨pre, hd⟩ := (dec_suffix f).1 _ _ _ hv
            obtain ⟨p', hp', hin⟩ := ih hp h'
            rw [hd]
            refine ⟨pre ++ p', ?_, hin.trans (List.suffix_append _ _).isInfix⟩
            rw [hp']; simp

theorem takeList_mem_split {s bs r : Bytes} {l : List Bt} (h : takeList bs = some (l, r))
    (hs : Bt.str s ∈ l) : ∃ p, bs = p ++ r ∧ s <:+: p := by
  unfold takeList takeVal at h
  split at h
  · rename_i l' r' hv
    cases h
    cases hb : bs.length with
    | zero => rw [hb] at hv; simp [decV] at hv
    | succ f =>
      rw [hb] at hv
      cases bs with
      | nil => cases hb
      | cons c t =>
        simp only [decV] at hv
        split at hv
        · obtain ⟨p, hp, e⟩ := Option.map_eq_some_iff.1 hv; cases e
        · split at hv
          · obtain ⟨p, hp, e⟩ := Option.map_eq_some_iff.1 hv
            cases e
            obtain ⟨q, hq, hin⟩ := decL_mem_split _ hp hs
            exact ⟨c :: q, by rw [hq]; rfl, hin.trans (List.suffix_cons c q).isInfix⟩
          · split at hv
            · obtain ⟨p, hp, e⟩ := Option.map_eq_some_iff.1 hv; cases e
            · obtain ⟨p, hp, e⟩ := Option.map_eq_some_iff.1 hv; cases e
  · cases h

theorem takeVal_suffix {bs r : Bytes} {v : Bt} (h : takeVal bs = some (v, r)) : r <:+ bs := by
  obtain ⟨p, hp⟩ := (dec_suffix _).1 _ _ _ h
  exact ⟨p, hp.symm⟩

theorem takeInt_suffix {bs r : Bytes} {i : Int} (h : takeInt bs = some (i, r)) : r <:+ bs := by
  unfold takeInt at h
  split at h
  · rename_i i' r' hv
    split at h
    · cases h; exact takeVal_suffix hv
    · cases h
  · cases h

theorem takeList_suffix {bs r : Bytes} {l : List Bt} (h : takeList bs = some (l, r)) : r <:+ bs := by
  unfold takeList at h
  split at h
  · rename_i l' r' hv
    cases h; exact takeVal_suffix hv
  · cases h

theorem takeStr_suffix {bs s r : Bytes} (h : takeStr bs = some (s, r)) : r <:+ bs := by
  obtain ⟨p, hp⟩ := decStr_split h
  exact ⟨p ++ s, by rw [hp]; simp⟩

theorem allStrs_mem {l : List Bt} {cts : List Bytes} (h : allStrs l = some cts) {c : Bytes} (hc : c ∈ cts) :
    Bt.str c ∈ l := by
  induction l generalizing cts with
  | nil => cases h; cases hc
  | cons b t ih =>
    cases b with
    | str s =>
      simp only [allStrs] at h
      obtain ⟨q, hq, rfl⟩ := Option.map_eq_some_iff.1 h
      rcases List.mem_cons.1 hc with rfl | hc
      · exact List.mem_cons_self ..
      · exact List.mem_cons_of_mem _ (ih hq hc)
    | int _ => simp [allStrs] at h
    | list _ => simp [allStrs] at h
    | dict _ => simp [allStrs] at h

theorem seekAt_suffix {find : Bytes} : ∀ (f : Nat) {bs r : Bytes} {b : Bool},
    seekAt f find bs = some (b, r) → r <:+ bs := by
  intro f
  induction f with
  | zero => intro bs r b h; simp [seekAt] at h
  | succ f ih =>
    intro bs r b h
    cases bs with
    | nil => simp [seekAt] at h
    | cons c t =>
      simp only [seekAt] at h
      split at h
      · cases h; exact List.suffix_refl _
      · split at h
        · cases h
        · rename_i k r' hk
          obtain ⟨p0, h0⟩ := decStr_suffix hk
          split at h
          · split at h
            · cases h
            · rename_i v r2 hv
              obtain ⟨p1, h1⟩ := (dec_suffix _).1 _ _ _ hv
              exact (ih h).trans ⟨p0 ++ p1, by rw [h0, h1]; simp⟩
          · cases h; exact List.suffix_refl _

/-- A piece of the message read before the point `r` is inside what precedes any suffix of `r`. -/
theorem infix_before {data p r at_ c : Bytes} (hd : (p ++ r) <:+ data) (ha : at_ <:+ r) (hc : c <:+: p) :
    c <:+: data.take (data.length - at_.length) := by
  obtain ⟨q, rfl⟩ := hd
  obtain ⟨w, rfl⟩ := ha
  have : (q ++ (p ++ (w ++ at_))).take ((q ++ (p ++ (w ++ at_))).length - at_.length) = q ++ (p ++ w) := by
    have e : q ++ (p ++ (w ++ at_)) = (q ++ (p ++ w)) ++ at_ := by simp
    rw [e, List.length_append, Nat.add_sub_cancel, List.take_left]
  rw [this]
  exact (hc.trans (List.prefix_append _ _).isInfix).trans (List.suffix_append _ _).isInfix

/-- Where a key that was found comes from: it was encrypted, in the signed part of the message, under
the key shared by the group's admins, or under the key derived from the secret shared by the group and
this user and their public keys. -/
def CameFrom (P : GPrims) (e : GEnv) (signed : Bytes) (ts : Int) (ks : List KeyInfo) : Prop :=
  (∃ sk k gen nonce, e.groupSk = some sk ∧ ks = [⟨gen, ts, k⟩] ∧
    P.aead (P.hashN 32 kAdmin (sk.take 32)) nonce k <:+: signed) ∨
  ∃ gx s nonce plain, e.groupSk = none ∧ P.xpk e.groupPk = some gx ∧ P.dh (P.xsk e.userSk) gx = some s ∧
    P.aead (P.hash kMember (s ++ gx ++ P.pubOf (P.xsk e.userSk))) nonce plain <:+: signed ∧
    ((∃ gen, ks = [⟨gen, ts, plain⟩]) ∨ readSupp plain = .ok ks)

theorem memberKey_eq (hP : P.Good) {e : GEnv} {gx K : Bytes} (h : memberKey P e gx = some K) :
    ∃ s, P.dh (P.xsk e.userSk) gx = some s ∧ K = P.hash kMember (s ++ gx ++ P.pubOf (P.xsk e.userSk)) := by
  unfold memberKey at h
  rw [hP.xpkPub] at h
  dsimp only at h
  unfold multiKey at h
  split at h
  · cases h
  · rename_i s hs
    have hkm : kMember.take 64 = kMember := by decide +kernel
    simp only [Bool.false_eq_true, if_false, Option.some.injEq] at h
    exact ⟨s, hs, by rw [← h, hkm]⟩

theorem checkSig_ok {e : GEnv} {data rest : Bytes} (h : checkSig P e data rest = .ok ()) :
    ∃ at_ sig, at_ <:+ rest ∧ sig <:+: at_ ∧ sig.length = 64 ∧
      P.verify e.groupPk (data.take (data.length - at_.length)) sig = true := by
  unfold checkSig at h
  split at h
  · cases h
  · cases h
  · rename_i at_ hs
    split at h
    · cases h
    · rename_i k r hk
      split at h
      · cases h
      · rename_i sig r' hsig
        split at h
        · cases h
        · rename_i hl
          split at h
          · cases h
          · rename_i hv
            refine ⟨at_, sig, seekAt_suffix _ hs, ?_, by omega, by simpa using hv⟩
            obtain ⟨p, hp⟩ := decStr_split hsig
            obtain ⟨p0, h0⟩ := decStr_suffix hk
            refine ⟨p0 ++ p, r', ?_⟩
            rw [h0, hp]; simp

/-- C71.  A key message is accepted only if everything up to its last field is signed by the group's
key, and every key it brings was encrypted, inside the signed part, for this device. -/
theorem keymsg_authentic (hP : P.Good) {e : GEnv} {data : Bytes} {ts : Int} {f : Found}
    (h : parseKeyMsg P e data ts = .ok f) :
    ∃ signed rest sig, data = signed ++ rest ∧ sig <:+: rest ∧ sig.length = 64 ∧
      P.verify e.groupPk signed sig = true ∧ (f.newKeys ≠ [] → CameFrom P e signed ts f.newKeys) := by
  unfold parseKeyMsg at h
  split at h
  · cases h
  · rename_i r0 h0
    have s0 := openDict_suffix h0
    split at h
    · cases h
    · rename_i gx hgx
      split at h
      · cases h
      · rename_i r1 h1
        have s1 := (requireKey_suffix h1).trans s0
        split at h
        · cases h
        · rename_i nonce r2 h2
          have s2 := (takeStr_suffix h2).trans s1
          split at h
          · cases h
          · -- supplement
            rename_i r3 h3
            have s3 := (seekKey_suffix _ h3).trans s2
            obtain ⟨fr, hf, h⟩ := Out.bind_eq_ok.1 h
            obtain ⟨_, hsig, h⟩ := Out.bind_eq_ok.1 h
            cases h
            obtain ⟨at_, sig, ha, hsi, hsl, hv⟩ := checkSig_ok hsig
            unfold parseSupp at hf
            split at hf
            · cases hf
            · rename_i l r4 h4
              have s4 := takeList_suffix h4
              split at hf
              · cases hf
              · rename_i cts hcts
                obtain ⟨ks, hks, hf⟩ := Out.bind_eq_ok.1 hf
                split at hf
                · cases hf
                · rename_i r5 h5
                  split at hf
                  · cases hf
                  · rename_i g r6 h6
                    cases hf
                    have s46 : at_ <:+ r4 := (ha.trans (takeInt_suffix h6)).trans (requireKey_suffix h5)
                    have sd : at_ <:+ data := (s46.trans s4).trans s3
                    refine ⟨data.take (data.length - at_.length), at_, sig, ?_, hsi, hsl, hv, ?_⟩
                    · obtain ⟨w, rfl⟩ := sd
                      rw [List.length_append, Nat.add_sub_cancel, List.take_left]
                    · intro hne
                      right
                      unfold loadSupp at hks
                      split at hks
                      · cases hks
                      · split at hks
                        · cases hks
                        · split at hks
                          · cases hks; exact absurd rfl hne
                          · rename_i hadm
                            split at hks
                            · cases hks
                            · rename_i K hK
                              split at hks
                              · cases hks; exact absurd rfl hne
                              · rename_i plain hop
                                obtain ⟨s, hs, rfl⟩ := memberKey_eq hP hK
                                obtain ⟨c, hc, ho⟩ := firstOpen_mem hop
                                rw [multiOpen_eq hP.m] at ho
                                have hce := hP.m.sealOpen _ _ _ _ ho
                                obtain ⟨p, hp, hin⟩ := takeList_mem_split h4 (allStrs_mem hcts hc)
                                refine ⟨gx, s, nonce.take 24, plain, ?_, hgx, hs, ?_, .inr hks⟩
                                · simpa [GEnv.admin] using hadm
                                · rw [← hce]
                                  exact infix_before (by rw [← hp]; exact s3) s46 hin
          · rename_i r3 h3
            have s3 := (seekKey_suffix _ h3).trans s2
            obtain ⟨fr, hf, h⟩ := Out.bind_eq_ok.1 h
            obtain ⟨_, hsig, h⟩ := Out.bind_eq_ok.1 h
            cases h
            obtain ⟨at_, sig, ha, hsi, hsl, hv⟩ := checkSig_ok hsig
            unfold parseFull at hf
            split at hf
            · cases hf
            · split at hf
              · cases hf
              · rename_i r4 h4
                have s4 := (requireKey_suffix h4).trans s3
                split at hf
                · cases hf
                · rename_i gen r5 h5
                  have s5 := (takeInt_suffix h5).trans s4
                  split at hf
                  · cases hf
                  · split at hf
                    · cases hf
                    · rename_i r6 h6
                      have s6 := (requireKey_suffix h6).trans s5
                      split at hf
                      · cases hf
                      · rename_i act r7 h7
                        have s7 := (takeStr_suffix h7).trans s6
                        split at hf
                        · cases hf
                        · rename_i r8 h8
                          have s8 := (requireKey_suffix h8).trans s7
                          split at hf
                          · cases hf
                          · rename_i l r9 h9
                            have s9 := takeList_suffix h9
                            split at hf
                            · cases hf
                            · rename_i cts hcts
                              obtain ⟨ok, hok, hf⟩ := Out.bind_eq_ok.1 hf
                              cases hf
                              have sd : at_ <:+ data := (ha.trans s9).trans s8
                              refine ⟨data.take (data.length - at_.length), at_, sig, ?_, hsi, hsl, hv, ?_⟩
                              · obtain ⟨w, rfl⟩ := sd
                                rw [List.length_append, Nat.add_sub_cancel, List.take_left]
                              · intro hne
                                cases ok with
                                | none => exact absurd rfl hne
                                | some k =>
                                  unfold loadFull at hok
                                  split at hok
                                  · cases hok
                                  · split at hok
                                    · cases hok
                                    · split at hok
                                      · cases hok
                                      · split at hok
                                        · cases hok
                                        · split at hok
                                          · rename_i sk hsk
                                            split at hok
                                            · rename_i k' ho
                                              cases hok
                                              left
                                              rw [multiOpen_eq hP.m] at ho
                                              have hce := hP.m.sealOpen _ _ _ _ ho
                                              refine ⟨sk, k, gen, nonce.take 24, hsk, rfl, ?_⟩
                                              have hka : kAdmin.take 64 = kAdmin := by decide +kernel
                                              rw [seedHash, hka] at hce
                                              rw [← hce]
                                              obtain ⟨p, hp⟩ := decStr_split h7
                                              have hsuf : r8 <:+ r7 := requireKey_suffix h8
                                              refine infix_before (p := p ++ act) (r := r7) ?_
                                                ((ha.trans s9).trans hsuf) (List.suffix_append _ _).isInfix
                                              rw [List.append_assoc, ← hp]; exact s6
                                            · cases hok
                                          · rename_i hsk
                                            split at hok
                                            · cases hok
                                            · rename_i K hK
                                              have hop := Out.ok.inj hok
                                              right
                                              obtain ⟨s, hs, rfl⟩ := memberKey_eq hP hK
                                              obtain ⟨c, hc, ho⟩ := firstOpen_mem hop
                                              rw [multiOpen_eq hP.m] at ho
                                              have hce := hP.m.sealOpen _ _ _ _ ho
                                              obtain ⟨p, hp, hin⟩ := takeList_mem_split h9 (allStrs_mem hcts hc)
                                              refine ⟨gx, s, nonce.take 24, k, hsk, hgx, hs, ?_, .inl ⟨gen, rfl⟩⟩
                                              rw [← hce]
                                              exact infix_before (by rw [← hp]; exact s8) ha hin

end Verif
