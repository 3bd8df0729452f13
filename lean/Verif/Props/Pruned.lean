/-
C56, without assumptions on how the communities are stored: exactly what pruning removes, and what the
devices that receive the pruned config see of the communities.
-/
import Verif.Props.Convo

namespace Verif

/-- Some conversation the iterator yields under this URL and room is stale -/
def Client.StaleRoom (c : Client) (now : Int) (b r : Bytes) : Prop :=
  ∃ y ∈ c.comms, y.convo.Old now ∧ y.base = b ∧ y.room = r

theorem pruneComms_any {S : Sys} (hS : S.Good) {now : Int} {c c' : Client} (hc : Reach S c)
    (h : c.pruneComms S now = (c', .ok ())) : Reach S c' ∧
    (∀ base room x, c'.getComm base room = .ok (some x) ↔
      c.getComm base room = .ok (some x) ∧ ¬ c.StaleRoom now x.base x.room) ∧
    (∀ q, ¬ Nested pathO q → c'.get q = c.get q) := by
  unfold Client.pruneComms at h
  have hmem : ∀ b r, (b, r) ∈ (c.comms.filter (·.convo.stale now)).map (fun x => (x.base, x.room)) ↔
      c.StaleRoom now b r := by
    intro b r
    rw [List.mem_map]
    constructor
    · rintro ⟨x, hx, he⟩
      rw [List.mem_filter] at hx
      obtain ⟨e1, e2⟩ := Prod.mk.inj he
      exact ⟨x, hx.1, (stale_iff _ _).1 hx.2, e1, e2⟩
    · rintro ⟨x, a, d, rfl, rfl⟩
      refine ⟨x, ?_, rfl⟩
      rw [List.mem_filter]
      exact ⟨a, (stale_iff _ _).2 d⟩
  obtain ⟨h1, h2, h3, h4⟩ := eraseComms_spec hS hc (fun z hz => by
    obtain ⟨x, hx, rfl⟩ := List.mem_map.1 hz
    obtain ⟨b, r, a1, a2, _⟩ := (mem_comms hS hc x).1 (List.mem_filter.1 hx).1
    exact ⟨canonical_url_idem _ _ a1, (canonical_room_case _ _ a2).2⟩) h
  refine ⟨h1, fun base room x => ?_, h4⟩
  by_cases hok : ∃ b r, canonUrl base = .ok b ∧ canonRoom room = .ok r
  · obtain ⟨b, r, hb, hr⟩ := hok
    rw [getComm_eq hb hr, getComm_eq hb hr, h2]
    have hname : ∀ {o : Option Convo} {k : Bytes}, (Out.ok (o.map fun x => (⟨b, r, k, x⟩ : CommConvo))) =
        Out.ok (some x) → x.base = b ∧ x.room = r := by
      intro o k hg
      cases o with
      | none => cases hg
      | some y => have := Option.some.inj (Out.ok.inj hg); subst this; exact ⟨rfl, rfl⟩
    by_cases hm : (b, r) ∈ (c.comms.filter (·.convo.stale now)).map (fun x => (x.base, x.room))
    · rw [if_pos hm]
      constructor
      · intro hh; cases hh
      · rintro ⟨hh, hno⟩
        obtain ⟨e1, e2⟩ := hname hh
        rw [e1, e2] at hno
        exact absurd ((hmem b r).1 hm) hno
    · rw [if_neg hm]
      cases hl : loadConvo (c.get (roomPath b r)) with
      | none => simp
      | some y =>
        have hne : c'.get (roomPath b r) ≠ none := by
          rw [h2, if_neg hm]; intro hh; rw [hh] at hl; cases hl
        rw [h3 b r hne]
        refine ⟨fun hg => ⟨hg, fun hst => ?_⟩, fun hh => hh.1⟩
        obtain ⟨e1, e2⟩ := hname hg
        rw [e1, e2] at hst
        exact hm ((hmem b r).2 hst)
  · have hbad : ∀ c : Client, c.getComm base room ≠ .ok (some x) := by
      intro c hh; exact hok (getComm_ok hh)
    exact ⟨fun hh => absurd hh (hbad _), fun hh => absurd hh.1 (hbad _)⟩

theorem staleRoom_congr {c c' : Client} (h : ∀ q, c'.get (pathO ++ q) = c.get (pathO ++ q)) (now : Int)
    (b r : Bytes) : c'.StaleRoom now b r ↔ c.StaleRoom now b r := by
  have : c'.comms = c.comms := by
    unfold Client.comms Client.table
    have := h []
    rw [List.append_nil] at this
    rw [this]
  unfold Client.StaleRoom
  rw [this]

/-- C56, for every reachable object, whatever other devices stored.  Pruning removes exactly: the
one-to-one conversations and legacy groups last read more than 45 days ago and not marked unread; and the
communities under whose name the iterator yields such a conversation - that is the stale communities, and
also a community that is not stale when a stale one is stored under another spelling of its name
(`prune_takes_namesake`).  Groups and everything else stay. -/
theorem prune_exact {S : Sys} (hS : S.Good) {now : Int} {c c' : Client} (hc : Reach S c)
    (h : c.pruneStale S now = (c', .ok ())) : Reach S c' ∧
    (∀ k id x, k ≠ .group → (c'.getConvo k id = .ok (some x) ↔
      c.getConvo k id = .ok (some x) ∧ ¬ x.Old now)) ∧
    (∀ base room x, c'.getComm base room = .ok (some x) ↔
      c.getComm base room = .ok (some x) ∧ ¬ c.StaleRoom now x.base x.room) ∧
    (∀ id, c'.getConvo .group id = c.getConvo .group id) ∧
    (∀ q, ¬ Nested [[49]] q → ¬ Nested [[67]] q → ¬ Nested [[111]] q → c'.get q = c.get q) := by
  unfold Client.pruneStale at h
  split at h
  · rename_i c1 h1
    obtain ⟨a1, a2, a3⟩ := pruneKind_spec hS hc h1
    split at h
    · rename_i c2 h2
      obtain ⟨b1, b2, b3⟩ := pruneKind_spec hS a1 h2
      have hO : ∀ q, c2.get (pathO ++ q) = c.get (pathO ++ q) := by
        intro q
        have n1 := kind_path_O .legacy [] q
        have n2 := kind_path_O .oneToOne [] q
        rw [List.append_nil] at n1 n2
        rw [b3 _ n1, a3 _ n2]
      obtain ⟨d1, d2, d3⟩ := pruneComms_any hS b1 h
      have other : ∀ k k' id {x y : Client}, k ≠ k' → (∀ q, ¬ Nested k'.path q → y.get q = x.get q) →
          y.getConvo k id = x.getConvo k id := by
        intro k k' id x y hne hq
        refine getConvo_congr fun pk _ => hq _ ?_
        have := kind_path_ne (Ne.symm hne) [] [pk]
        rwa [List.append_nil] at this
      have otherO : ∀ k id, c'.getConvo k id = c2.getConvo k id := by
        intro k id
        refine getConvo_congr fun pk _ => d3 _ fun hn => ?_
        have := kind_path_O k [pk] []
        rw [List.append_nil] at this
        exact this hn.symm
      refine ⟨d1, fun k id x hk => ?_, fun base room x => ?_, fun id => ?_, fun q q1 q2 q3 => ?_⟩
      · cases k with
        | oneToOne => rw [otherO, other .oneToOne .legacy id (by decide) b3]; exact a2 id x
        | legacy => rw [otherO, b2 id x, other .legacy .oneToOne id (by decide) a3]
        | group => exact absurd rfl hk
      · rw [d2, getComm_congr hO, staleRoom_congr hO]
      · rw [otherO, other .group .legacy id (by decide) b3, other .group .oneToOne id (by decide) a3]
      · rw [d3 q q3, b3 q q2, a3 q q1]
    · rename_i c2 o hne heq
      obtain ⟨rfl, rfl⟩ := Prod.mk.inj h
      exact absurd rfl hne
  · rename_i c2 o hne heq
    obtain ⟨rfl, rfl⟩ := Prod.mk.inj h
    exact absurd rfl hne

/-- C56.  End to end: what `push` publishes has no one-to-one conversation or legacy group last read
more than 45 days ago and not marked unread; the others read the same on every device that receives it
(as in C34); whatever is stored besides. -/
theorem push_prunes_convos {S : Sys} (hS : S.Good) {sg : Option (Bytes → Bytes)}
    (hS' : (S.as sg).Good) {now : Int} {c c' r : Client} (hc : Reach S c) {s : Int}
    {m : Bytes} {obs : List Bytes} (hp : c.pushConvos S now = (c', .ok (s, m, obs)))
    (hr : Reach (S.as sg) r) (hs : s ≠ 0)
    (hk : r.keys.head? = c'.keys.head?) (hst : r.st ≠ .dirty)
    (hknown : r.seqno = 0 ∨ ∀ M, parseMsg S.env false ((c.pruneStale S now).1.plain S) = .ok M →
      Supersedes (S.as sg) M r)
    (hnc : S.env.H ((c.pruneStale S now).1.plain S) = S.env.H (r.plain (S.as sg)) →
      (c.pruneStale S now).1.plain S = r.plain (S.as sg))
    (hov : int64Ok (s + S.env.lag) = true) (h : Bytes)
    {r' : Client} {res : Out (List Bytes)} (hm : r.merge (S.as sg) [(h, m)] = (r', res)) :
    ∀ k id x, k ≠ .group → c.getConvo k id = .ok (some x) →
      (x.Old now → r'.getConvo k id = .ok none) ∧ (¬ x.Old now → r'.convo k id = .ok x) := by
  unfold Client.pushConvos at hp
  split at hp
  · rename_i c1 h1
    rw [h1] at hknown hnc
    obtain ⟨a1, a2, _⟩ := prune_exact hS hc h1
    have hp2 : (c1.push S).2 = .ok (s, m, obs) := by rw [hp]
    have hkeys : c'.keys = c1.keys := by
      have := (push_state hp2).2.2.2.2.1
      rw [hp] at this; exact this
    rw [hkeys] at hk
    obtain ⟨_, hd, _⟩ := delivery_full hS hS' a1 hr hp2 hs hk hst hknown hnc hov h
    rw [hm] at hd
    have hd : r'.conf.m.data = pruneD c1.conf.m.data := hd
    have ht := (a1.inv hS).wf.data
    intro k id x hk hx
    cases hi : idBytes id k.pre with
    | ok pk =>
      obtain ⟨e1, e2⟩ := convoAt_pruned ht hd (path_snoc_ne k pk)
      constructor
      · intro hold
        have hno : ∀ y, c1.getConvo k id ≠ .ok (some y) := by
          intro y hy
          obtain ⟨g1, g2⟩ := (a2 k id y hk).1 hy
          rw [hx] at g1; cases g1
          exact g2 hold
        rw [getConvo_eq hi] at hno ⊢
        rw [e2]
        cases hl : loadConvo (c1.get (k.path ++ [pk])) with
        | none => rfl
        | some y => exact absurd (by rw [hl]) (hno y)
      · intro hold
        have := (a2 k id x hk).2 ⟨hx, hold⟩
        rw [convo_eq hi, e1]
        rw [getConvo_eq hi] at this
        unfold Client.convoAt
        rw [Out.ok.inj this]
        rfl
    | err e => unfold Client.getConvo at hx; rw [hi] at hx; cases hx
    | hang => unfold Client.getConvo at hx; rw [hi] at hx; cases hx
    | ub => unfold Client.getConvo at hx; rw [hi] at hx; cases hx
  · cases (Prod.mk.inj hp).2
  · cases (Prod.mk.inj hp).2
  · cases (Prod.mk.inj hp).2

/-- C56, end to end for communities: on a device that receives what `push` publishes, the communities
pruned are not there and the others read the same. -/
theorem push_prunes_comms {S : Sys} (hS : S.Good) {sg : Option (Bytes → Bytes)}
    (hS' : (S.as sg).Good) {now : Int} {c c' r : Client} (hc : Reach S c) {s : Int}
    {m : Bytes} {obs : List Bytes} (hp : c.pushConvos S now = (c', .ok (s, m, obs)))
    (hr : Reach (S.as sg) r) (hs : s ≠ 0)
    (hk : r.keys.head? = c'.keys.head?) (hst : r.st ≠ .dirty)
    (hknown : r.seqno = 0 ∨ ∀ M, parseMsg S.env false ((c.pruneStale S now).1.plain S) = .ok M →
      Supersedes (S.as sg) M r)
    (hnc : S.env.H ((c.pruneStale S now).1.plain S) = S.env.H (r.plain (S.as sg)) →
      (c.pruneStale S now).1.plain S = r.plain (S.as sg))
    (hov : int64Ok (s + S.env.lag) = true) (h : Bytes)
    {r' : Client} {res : Out (List Bytes)} (hm : r.merge (S.as sg) [(h, m)] = (r', res)) :
    ∀ base room x, c.getComm base room = .ok (some x) →
      (c.StaleRoom now x.base x.room → r'.getComm base room = .ok none) ∧
      (¬ c.StaleRoom now x.base x.room → ∀ pk : Bytes, pk.length = 32 →
        r'.commConvo base room pk = .ok { x with pubkey := pk }) := by
  unfold Client.pushConvos at hp
  split at hp
  · rename_i c1 h1
    rw [h1] at hknown hnc
    obtain ⟨a1, _, a2, _⟩ := prune_exact hS hc h1
    have hp2 : (c1.push S).2 = .ok (s, m, obs) := by rw [hp]
    have hkeys : c'.keys = c1.keys := by
      have := (push_state hp2).2.2.2.2.1
      rw [hp] at this; exact this
    rw [hkeys] at hk
    obtain ⟨_, hd, _⟩ := delivery_full hS hS' a1 hr hp2 hs hk hst hknown hnc hov h
    rw [hm] at hd
    have hd : r'.conf.m.data = pruneD c1.conf.m.data := hd
    have ht := (a1.inv hS).wf.data
    intro base room x hx
    obtain ⟨b, rm, hb, hrm⟩ := getComm_ok hx
    obtain ⟨e1, e2⟩ := convoAt_pruned ht hd (p := roomPath b rm) (by simp [roomPath, pathO])
    have hname : x.base = b ∧ x.room = rm := by
      have hg := hx
      rw [getComm_eq hb hrm] at hg
      cases hl : loadConvo (c.get (roomPath b rm)) with
      | none => rw [hl] at hg; cases hg
      | some y => rw [hl] at hg; have := Option.some.inj (Out.ok.inj hg); subst this; exact ⟨rfl, rfl⟩
    constructor
    · intro hold
      have hno : ∀ y, loadConvo (c1.get (roomPath b rm)) ≠ some y := by
        intro y hy
        have hg : c1.getComm base room = .ok (some ⟨b, rm, c1.serverKey b, y⟩) := by
          rw [getComm_eq hb hrm, hy]; rfl
        have h3 := ((a2 _ _ _).1 hg).2
        rw [hname.1, hname.2] at hold
        exact h3 hold
      rw [getComm_eq hb hrm, e2]
      · rfl
      · cases hl : loadConvo (c1.get (roomPath b rm)) with
        | none => rfl
        | some y => exact absurd hl (hno y)
    · intro hold pk hpk
      have hg := (a2 _ _ _).2 ⟨hx, hold⟩
      rw [getComm_eq hb hrm] at hg
      cases hl : loadConvo (c1.get (roomPath b rm)) with
      | none => rw [hl] at hg; cases hg
      | some y =>
        rw [hl] at hg
        have hg := Option.some.inj (Out.ok.inj hg)
        have hy : (loadConvo (r'.get (roomPath b rm))).getD {} = y := by
          have e3 : (loadConvo (r'.get (roomPath b rm))).getD {} =
            (loadConvo (c1.get (roomPath b rm))).getD {} := e1
          rw [e3, hl]; rfl
        unfold Client.commConvo
        rw [hrm, hb]
        show (if pk.length = 32 then Out.ok (⟨b, rm, pk, (loadConvo (r'.get (roomPath b rm))).getD {}⟩ : CommConvo)
          else .err .foreign) = _
        rw [if_pos hpk, hy, ← hg]
  · cases (Prod.mk.inj hp).2
  · cases (Prod.mk.inj hp).2
  · cases (Prod.mk.inj hp).2

/-- An object with one community stored under two spellings of the room name, `R` (stale) and `r` -/
def exTwins : Client :=
  (exC3.edit exSys [([111], .dict [([104, 116, 116, 112, 58, 47, 47, 97, 46, 98, 99], .dict
    [([35], .scalar (.str (List.replicate 32 1))),
     ([82], .dict [([82], .dict [([114], .scalar (.int exOldTime))]),
                   ([114], .dict [([114], .scalar (.int exRecent))])])])])]).1

/-- Another client stored a stale community under a name that is not canonical: pruning removes the
conversation of the canonical name, read a few hours ago, and keeps the stale one. -/
theorem prune_takes_namesake :
    let url : Bytes := [104, 116, 116, 112, 58, 47, 47, 97, 46, 98, 99]
    let p := (exTwins.pruneStale exSys exNow).1
    (exTwins.pruneStale exSys exNow).2 = .ok () ∧
    exTwins.getComm url [114] = .ok (some ⟨url, [114], List.replicate 32 1, ⟨exRecent, false⟩⟩) ∧
    ¬ Convo.Old exNow ⟨exRecent, false⟩ ∧
    exTwins.comms = [⟨url, [114], List.replicate 32 1, ⟨exOldTime, false⟩⟩,
      ⟨url, [114], List.replicate 32 1, ⟨exRecent, false⟩⟩] ∧
    p.getComm url [114] = .ok none ∧
    p.comms = [⟨url, [114], List.replicate 32 1, ⟨exOldTime, false⟩⟩] := by
  decide +kernel

theorem exTwins_reach : Reach exSys exTwins :=
  exC3_reach.step (.edit _ _ (by decide +kernel) (by decide +kernel))

/-- Communities pruned and published: the stale one is gone, the other one arrives. -/
example :
    let m := match (exConvos.pushConvos exSys exNow).2 with | .ok (_, m, _) => m | _ => []
    let d := (exD1.merge exSys [([107], m)]).1
    let url : Bytes := [104, 116, 116, 112, 58, 47, 47, 97, 46, 98, 99]
    d.getComm url [114] = .ok none ∧
      d.commConvo url [115] (List.replicate 32 2) = .ok ⟨url, [115], List.replicate 32 2, ⟨exRecent, true⟩⟩ := by
  decide +kernel

end Verif
