import Verif.Iter
import Verif.Props.Convo
import Verif.Props.UserGroupsWitness
import Verif.Props.GroupMembers

/-!
# Loops over the config classes show every record once
-/

namespace Verif

/-- `for (auto it = begin(); !stop(it); ++it) show(*it);` — `fuel` bounds the number of rounds; running out counts as not
terminating. -/
def loopList {I A : Type} (stop : I → Bool) (deref : I → Out A) (next : I → Out I) : Nat → I → Out (List A)
  | 0, _ => .hang
  | fuel + 1, it =>
    if stop it then .ok []
    else (deref it).bind fun a => (next it).bind fun it => (loopList stop deref next fuel it).bind fun l => .ok (a :: l)

/-- All conversations, in the order of the documentation: by type, then by id -/
def Client.convoList (c : Client) : List ConvoAny :=
  (c.convos .oneToOne).map (fun y => .oneToOne y.1 y.2) ++ (c.convos .group).map (fun y => .group y.1 y.2) ++
    c.comms.map .comm ++ (c.convos .legacy).map fun y => .legacy y.1 y.2

theorem loop_of {I A : Type} {stop : I → Bool} {deref : I → Out A} {next : I → Out I} {pend : I → List A} {Ready : I → Prop}
    (h0 : ∀ it, Ready it → pend it = [] → stop it = true)
    (h1 : ∀ it a t, Ready it → pend it = a :: t → stop it = false ∧ deref it = .ok a ∧
      ∃ it', next it = .ok it' ∧ Ready it' ∧ pend it' = t) :
    ∀ (fuel : Nat) (it : I), Ready it → (pend it).length < fuel → loopList stop deref next fuel it = .ok (pend it)
  | 0, _, _, h => absurd h (Nat.not_lt_zero _)
  | fuel + 1, it, hr, hl => by
    unfold loopList
    cases hp : pend it with
    | nil => rw [if_pos (h0 it hr hp)]
    | cons a t =>
      obtain ⟨e1, e2, it', e3, e4, e5⟩ := h1 it a t hr hp
      rw [if_neg (by rw [e1]; simp), e2, e3]
      simp only [Out.bind]
      have := loop_of h0 h1 fuel it' e4 (by rw [e5]; rw [hp] at hl; simp at hl; omega)
      rw [this, e5]

theorem seek_none {A : Type} {f : Bytes × Val → Option A} : ∀ {d : Dict}, seek f d = none → d.filterMap f = []
  | [], _ => rfl
  | x :: t, h => by
    unfold seek at h
    cases hx : f x with
    | some a => rw [hx] at h; cases h
    | none => rw [hx] at h; rw [List.filterMap_cons, hx]; exact seek_none h

theorem seek_some {A : Type} {f : Bytes × Val → Option A} {a : A} {d' : Dict} : ∀ {d : Dict}, seek f d = some (a, d') →
    ∃ t, stepPos d' = .ok t ∧ d'.filterMap f = d.filterMap f ∧ d.filterMap f = a :: t.filterMap f
  | [], h => by cases h
  | x :: t, h => by
    unfold seek at h
    cases hx : f x with
    | some b =>
      rw [hx] at h
      cases h
      exact ⟨t, rfl, rfl, by rw [List.filterMap_cons, hx]⟩
    | none =>
      rw [hx] at h
      obtain ⟨s, e1, e2, e3⟩ := seek_some (d := t) h
      exact ⟨s, e1, by rw [List.filterMap_cons, hx]; exact e2, by rw [List.filterMap_cons, hx]; exact e3⟩

/-- What is still to come in an optional table -/
def secPend {A : Type} (f : Bytes × Val → Option A) (d : Option Dict) : List A := (d.getD []).filterMap f

theorem loadSec_none {A : Type} {f : Bytes × Val → Option A} {d : Option Dict} (h : loadSec f d = none) : secPend f d = [] := by
  cases d with
  | none => rfl
  | some d => exact seek_none h

theorem loadSec_some {A : Type} {f : Bytes × Val → Option A} {d : Option Dict} {a : A} {d' : Dict}
    (h : loadSec f d = some (a, d')) :
    ∃ t, stepPos d' = .ok t ∧ secPend f (some d') = secPend f d ∧ secPend f d = a :: secPend f (some t) := by
  cases d with
  | none => cases h
  | some d => exact seek_some h

/-! ### Communities -/

/-- What a server contributes -/
def srvPend {A : Type} (g : Bytes → Bytes → Bytes × Val → Option A) (x : Bytes × Val) : List A := match x.2 with
  | .dict e => match maybeStr e [35], mget [82] e with
    | some pk, some (.dict rooms) => rooms.filterMap (g x.1 pk)
    | _, _ => []
  | _ => []

/-- What a server contributes from this room on -/
def roomPend {A : Type} (g : Bytes → Bytes → Bytes × Val → Option A) (x : Bytes × Val) (rooms : Dict) : List A := match x.2 with
  | .dict e => match maybeStr e [35] with
    | some pk => rooms.filterMap (g x.1 pk)
    | none => []
  | _ => []

def srvsPend {A : Type} (g : Bytes → Bytes → Bytes × Val → Option A) : Dict → Option Dict → List A
  | [], _ => []
  | x :: t, none => (x :: t).flatMap (srvPend g)
  | x :: t, some rooms => roomPend g x rooms ++ t.flatMap (srvPend g)

theorem srvsPend_none {A : Type} (g : Bytes → Bytes → Bytes × Val → Option A) (d : Dict) :
    srvsPend g d none = d.flatMap (srvPend g) := by
  cases d <;> rfl

theorem commSeek_none {A : Type} {g : Bytes → Bytes → Bytes × Val → Option A} : ∀ {d : Dict} {room : Option Dict},
    commSeek g d room = none → srvsPend g d room = []
  | [], _, _ => by unfold srvsPend; rfl
  | x :: t, room, h => by
    have rest : commSeek g t none = none → t.flatMap (srvPend g) = [] := fun h => by
      rw [← srvsPend_none]; exact commSeek_none h
    unfold commSeek at h
    cases room with
    | none =>
      rw [srvsPend_none, List.flatMap_cons]
      generalize t.flatMap (srvPend g) = T at *
      unfold srvPend
      cases hx : x.2 with
      | dict e =>
        simp only [hx] at h ⊢
        cases hk : maybeStr e [35] with
        | none => simp only [hk] at h ⊢; rw [rest h]; rfl
        | some pk =>
          simp only [hk] at h ⊢
          cases hr : mget [82] e with
          | none => simp only [hr] at h ⊢; rw [rest h]; rfl
          | some v =>
            cases v with
            | dict rooms =>
              simp only [hr] at h ⊢
              cases hs : seek (g x.1 pk) rooms with
              | none => simp only [hs] at h; rw [rest h, seek_none hs]; rfl
              | some y => simp only [hs] at h; cases h
            | _ => simp only [hr] at h ⊢; rw [rest h]; rfl
      | _ => simp only [hx] at h ⊢; rw [rest h]; rfl
    | some rooms =>
      show roomPend g x rooms ++ _ = []
      unfold roomPend
      cases hx : x.2 with
      | dict e =>
        simp only [hx] at h ⊢
        cases hk : maybeStr e [35] with
        | none => simp only [hk] at h ⊢; rw [rest h]; rfl
        | some pk =>
          simp only [hk] at h ⊢
          cases hs : seek (g x.1 pk) rooms with
          | none => simp only [hs] at h; rw [rest h, seek_none hs]; rfl
          | some y => simp only [hs] at h; cases h
      | _ => simp only [hx] at h ⊢; rw [rest h]; rfl

/-- What is still to come in the communities -/
def commPend {A : Type} (g : Bytes → Bytes → Bytes × Val → Option A) (k : CommIter) : List A := match k.server with
  | none => []
  | some d => srvsPend g d k.room

theorem commSeek_some {A : Type} {g : Bytes → Bytes → Bytes × Val → Option A} {a : A} {k : CommIter} :
    ∀ {d : Dict} {room : Option Dict}, commSeek g d room = some (a, k) →
    k.done = false ∧ commPend g k = srvsPend g d room ∧
      ∃ k', k.advance = .ok k' ∧ srvsPend g d room = a :: commPend g k'
  | [], _, h => by unfold commSeek at h; cases h
  | x :: t, room, h => by
    have rest : commSeek g t none = some (a, k) → k.done = false ∧ commPend g k = t.flatMap (srvPend g) ∧
        ∃ k', k.advance = .ok k' ∧ t.flatMap (srvPend g) = a :: commPend g k' := fun h => by
      rw [← srvsPend_none]; exact commSeek_some h
    have found : ∀ e pk rooms r, x.2 = .dict e → maybeStr e [35] = some pk → seek (g x.1 pk) rooms = some (a, r) →
        k = ⟨some (x :: t), some r⟩ →
        k.done = false ∧ commPend g k = rooms.filterMap (g x.1 pk) ++ t.flatMap (srvPend g) ∧
        ∃ k', k.advance = .ok k' ∧ rooms.filterMap (g x.1 pk) ++ t.flatMap (srvPend g) = a :: commPend g k' := by
      intro e pk rooms r hx hk hs hkk
      obtain ⟨s, e1, e2, e3⟩ := seek_some hs
      subst hkk
      refine ⟨rfl, ?_, ⟨some (x :: t), some s⟩, ?_, ?_⟩
      · show roomPend g x r ++ _ = _
        unfold roomPend
        simp only [hx, hk]
        rw [e2]
      · show (stepPos r).bind _ = _
        rw [e1]; rfl
      · show _ = a :: (roomPend g x s ++ _)
        unfold roomPend
        simp only [hx, hk]
        rw [e3]; rfl
    unfold commSeek at h
    cases room with
    | none =>
      rw [srvsPend_none, List.flatMap_cons]
      generalize t.flatMap (srvPend g) = T at *
      unfold srvPend
      cases hx : x.2 with
      | dict e =>
        simp only [hx] at h ⊢
        cases hk : maybeStr e [35] with
        | none => simp only [hk] at h ⊢; exact rest h
        | some pk =>
          simp only [hk] at h ⊢
          cases hr : mget [82] e with
          | none => simp only [hr] at h ⊢; exact rest h
          | some v =>
            cases v with
            | dict rooms =>
              simp only [hr] at h ⊢
              cases hs : seek (g x.1 pk) rooms with
              | none => simp only [hs] at h; rw [seek_none hs]; exact rest h
              | some y =>
                obtain ⟨b, r⟩ := y
                simp only [hs] at h
                have h2 := Prod.mk.inj (Option.some.inj h)
                obtain ⟨h2, h3⟩ := h2
                subst h2
                exact found e pk rooms r hx hk hs h3.symm
            | _ => simp only [hr] at h ⊢; exact rest h
      | _ => simp only [hx] at h ⊢; exact rest h
    | some rooms =>
      show k.done = false ∧ commPend g k = roomPend g x rooms ++ _ ∧ ∃ k', k.advance = .ok k' ∧ roomPend g x rooms ++ _ = _
      unfold roomPend
      cases hx : x.2 with
      | dict e =>
        simp only [hx] at h ⊢
        cases hk : maybeStr e [35] with
        | none => simp only [hk] at h ⊢; exact rest h
        | some pk =>
          simp only [hk] at h ⊢
          cases hs : seek (g x.1 pk) rooms with
          | none => simp only [hs] at h; rw [seek_none hs]; exact rest h
          | some y =>
            obtain ⟨b, r⟩ := y
            simp only [hs] at h
            obtain ⟨h2, h3⟩ := Prod.mk.inj (Option.some.inj h)
            subst h2
            exact found e pk rooms r hx hk hs h3.symm
      | _ => simp only [hx] at h ⊢; exact rest h

def optCommPend {A : Type} (g : Bytes → Bytes → Bytes × Val → Option A) (k : Option CommIter) : List A := match k with
  | none => []
  | some k => commPend g k

theorem optComm_none {A : Type} {g : Bytes → Bytes → Bytes × Val → Option A} {k : Option CommIter}
    (h : (k.bind (·.load g)) = none) : optCommPend g k = [] := by
  cases k with
  | none => rfl
  | some k =>
    unfold optCommPend commPend
    simp only [Option.bind_some, CommIter.load] at h
    cases hs : k.server with
    | none => simp only [hs]
    | some d => simp only [hs] at h ⊢; exact commSeek_none h

theorem optComm_some {A : Type} {g : Bytes → Bytes → Bytes × Val → Option A} {k : Option CommIter} {a : A} {k1 : CommIter}
    (h : (k.bind (·.load g)) = some (a, k1)) :
    k1.done = false ∧ commPend g k1 = optCommPend g k ∧ ∃ k', k1.advance = .ok k' ∧ optCommPend g k = a :: commPend g k' := by
  cases k with
  | none => cases h
  | some k =>
    unfold optCommPend
    simp only [Option.bind_some, CommIter.load] at h
    cases hs : k.server with
    | none => simp only [hs] at h; cases h
    | some d =>
      simp only [hs] at h
      have := commSeek_some h
      have e : commPend g k = srvsPend g d k.room := by unfold commPend; simp only [hs]
      dsimp only
      rw [e]; exact this

/-! ### Conversations -/

/-- What is still to come -/
def ConvoIter.pend (it : ConvoIter) : List ConvoAny :=
  secPend any11 it.it11 ++ (secPend anyGroup it.itGroup ++ (optCommPend anyComm it.itComm ++ secPend anyLegacy it.itLgroup))

/-- The state after `_load_val` -/
def ConvoIter.Ready (it : ConvoIter) : Prop :=
  (it.pend = [] → it.done = true ∧ it.isEnd = true) ∧
  ∀ a t, it.pend = a :: t → it.done = false ∧ it.isEnd = false ∧ it.val = some a ∧ ∃ it', it.bump = .ok it' ∧ it'.pend = t

theorem convo_loadVal (it : ConvoIter) : it.loadVal.Ready ∧ it.loadVal.pend = it.pend := by
  unfold ConvoIter.loadVal
  cases h1 : loadSec any11 it.it11 with
  | some y =>
    obtain ⟨a, d⟩ := y
    obtain ⟨t, e1, e2, e3⟩ := loadSec_some h1
    have hp : ({ it with val := some a, it11 := some d } : ConvoIter).pend = it.pend := by
      unfold ConvoIter.pend; dsimp only; rw [e2]
    refine ⟨⟨?_, ?_⟩, hp⟩
    · rw [hp]; unfold ConvoIter.pend; rw [e3]; intro h; cases h
    · rw [hp]; unfold ConvoIter.pend; rw [e3]
      intro b s h
      simp only [List.cons_append, List.cons.injEq] at h
      obtain ⟨rfl, rfl⟩ := h
      refine ⟨rfl, rfl, rfl, { it with val := some a, it11 := some t }, ?_, rfl⟩
      simp only [ConvoIter.bump, e1, Out.bind]
  | none =>
    have q1 := loadSec_none h1
    cases h2 : loadSec anyGroup it.itGroup with
    | some y =>
      obtain ⟨a, d⟩ := y
      obtain ⟨t, e1, e2, e3⟩ := loadSec_some h2
      have hp : ({ it with val := some a, it11 := none, itGroup := some d } : ConvoIter).pend = it.pend := by
        unfold ConvoIter.pend; dsimp only; rw [e2, q1]; rfl
      refine ⟨⟨?_, ?_⟩, hp⟩
      · rw [hp]; unfold ConvoIter.pend; rw [q1, e3]; intro h; cases h
      · rw [hp]; unfold ConvoIter.pend; rw [q1, e3]
        intro b s h
        simp only [List.nil_append, List.cons_append, List.cons.injEq] at h
        obtain ⟨rfl, rfl⟩ := h
        refine ⟨rfl, rfl, rfl, { it with val := some a, it11 := none, itGroup := some t }, ?_, rfl⟩
        simp only [ConvoIter.bump, e1, Out.bind]
    | none =>
      have q2 := loadSec_none h2
      cases h3 : it.itComm.bind (·.load anyComm) with
      | some y =>
        obtain ⟨a, k⟩ := y
        obtain ⟨e0, e1, k', e2, e3⟩ := optComm_some h3
        have hp : ({ it with val := some a, it11 := none, itGroup := none, itComm := some k } : ConvoIter).pend = it.pend := by
          unfold ConvoIter.pend; dsimp only; rw [q1, q2, ← e1]; rfl
        refine ⟨⟨?_, ?_⟩, hp⟩
        · rw [hp]; unfold ConvoIter.pend; rw [q1, q2, e3]; intro h; cases h
        · rw [hp]; unfold ConvoIter.pend; rw [q1, q2, e3]
          intro b s h
          simp only [List.nil_append, List.cons_append, List.cons.injEq] at h
          obtain ⟨rfl, rfl⟩ := h
          refine ⟨by simp [ConvoIter.done, e0], rfl, rfl, { it with val := some a, it11 := none, itGroup := none, itComm := some k' }, ?_, rfl⟩
          simp only [ConvoIter.bump, Option.filter_some, e0, Bool.not_false, if_true, e2, Out.bind]
      | none =>
        have q3 := optComm_none h3
        cases h4 : loadSec anyLegacy it.itLgroup with
        | some y =>
          obtain ⟨a, d⟩ := y
          obtain ⟨t, e1, e2, e3⟩ := loadSec_some h4
          have hp : (⟨some a, none, none, none, some d⟩ : ConvoIter).pend = it.pend := by
            unfold ConvoIter.pend; dsimp only; rw [q1, q2, q3, e2]; rfl
          refine ⟨⟨?_, ?_⟩, hp⟩
          · rw [hp]; unfold ConvoIter.pend; rw [q1, q2, q3, e3]; intro h; cases h
          · rw [hp]; unfold ConvoIter.pend; rw [q1, q2, q3, e3]
            intro b s h
            simp only [List.nil_append, List.cons.injEq] at h
            obtain ⟨rfl, rfl⟩ := h
            refine ⟨rfl, rfl, rfl, ⟨some a, none, none, none, some t⟩, ?_, rfl⟩
            simp only [ConvoIter.bump, Option.filter_none, e1, Out.bind]
        | none =>
          have q4 := loadSec_none h4
          have hp : it.pend = [] := by unfold ConvoIter.pend; rw [q1, q2, q3, q4]; rfl
          refine ⟨⟨fun _ => ⟨rfl, rfl⟩, ?_⟩, hp.symm ▸ rfl⟩
          intro a t h
          cases h

theorem convo_loop_ready {it : ConvoIter} (hr : it.Ready) {fuel : Nat} (hf : it.pend.length < fuel) (stop : ConvoIter → Bool)
    (hs : stop = ConvoIter.done ∨ stop = ConvoIter.isEnd) :
    loopList stop (fun it => derefVal it.val) ConvoIter.next fuel it = .ok it.pend := by
  refine loop_of (Ready := ConvoIter.Ready) ?_ ?_ fuel it hr hf
  · intro it hr hp
    rcases hs with rfl | rfl
    · exact (hr.1 hp).1
    · exact (hr.1 hp).2
  · intro it a t hr hp
    obtain ⟨e1, e2, e3, it', e4, e5⟩ := hr.2 a t hp
    refine ⟨by rcases hs with rfl | rfl <;> assumption, by show derefVal it.val = _; rw [e3]; rfl, it'.loadVal, ?_,
      (convo_loadVal it').1, (convo_loadVal it').2.trans e5⟩
    show it.bump.bind _ = _
    rw [e4]; rfl

theorem secPend_dictAt {A : Type} (f : Bytes × Val → Option A) (c : Client) (P : List Bytes) :
    secPend f (c.dictAt P) = (c.table P).filterMap f := by
  unfold secPend Client.dictAt Client.table curDict
  cases c.get P with
  | none => rfl
  | some v => cases v <;> rfl

theorem filterMap_map' {A B C : Type} (f : A → Option B) (h : B → C) (l : List A) :
    l.filterMap (fun x => (f x).map h) = (l.filterMap f).map h := by
  rw [List.map_filterMap]

theorem commPend_dictAt {A B : Type} (g : Bytes → Bytes → Bytes × Val → Option B) (w : B → A)
    (srv : Bytes × Val → List B) (hsrv : ∀ x, srv x = srvPend g x) (c : Client) :
    optCommPend (fun b pk x => (g b pk x).map w) ((c.dictAt pathO).map fun d => ⟨some d, none⟩) =
      ((c.table pathO).flatMap srv).map w := by
  have key : ∀ d : Dict, d.flatMap (srvPend fun b pk x => (g b pk x).map w) = (d.flatMap srv).map w := by
    intro d
    rw [List.map_flatMap]
    congr 1
    funext x
    rw [hsrv]
    unfold srvPend
    cases x.2 with
    | dict e =>
      dsimp only
      cases maybeStr e [35] with
      | none => rfl
      | some pk => cases mget [82] e with
        | none => rfl
        | some v => cases v <;> first | rfl | exact filterMap_map' _ _ _
    | _ => rfl
  unfold optCommPend Client.dictAt Client.table curDict
  cases c.get pathO with
  | none => rfl
  | some v => cases v with
    | dict d => exact (srvsPend_none _ d).trans (key d)
    | _ => rfl

/-- **C120.** For every stored data — also what this version does not understand — a loop over the conversations, whether it
asks `done()` (as the C functions do) or compares with `end()` (as a C++ `for` does), terminates without undefined behaviour
and shows exactly the conversations, each once, sorted by type; a loop over one type shows those of that type. -/
theorem convo_loop (c : Client) {fuel : Nat} (hf : c.convoList.length < fuel) (stop : ConvoIter → Bool)
    (hs : stop = ConvoIter.done ∨ stop = ConvoIter.isEnd) :
    loopList stop (fun it => derefVal it.val) ConvoIter.next fuel (c.convoIter true true true true) = .ok c.convoList ∧
    loopList stop (fun it => derefVal it.val) ConvoIter.next fuel (c.convoIter true false false false) =
      .ok ((c.convos .oneToOne).map fun y => .oneToOne y.1 y.2) ∧
    loopList stop (fun it => derefVal it.val) ConvoIter.next fuel (c.convoIter false true false false) = .ok (c.comms.map .comm) ∧
    loopList stop (fun it => derefVal it.val) ConvoIter.next fuel (c.convoIter false false true false) =
      .ok ((c.convos .group).map fun y => .group y.1 y.2) ∧
    loopList stop (fun it => derefVal it.val) ConvoIter.next fuel (c.convoIter false false false true) =
      .ok ((c.convos .legacy).map fun y => .legacy y.1 y.2) := by
  have e1 : secPend any11 (c.dictAt [[49]]) = (c.convos .oneToOne).map fun y => .oneToOne y.1 y.2 :=
    (secPend_dictAt _ c _).trans (filterMap_map' _ _ _)
  have e2 : secPend anyGroup (c.dictAt [[103]]) = (c.convos .group).map fun y => .group y.1 y.2 :=
    (secPend_dictAt _ c _).trans (filterMap_map' _ _ _)
  have e3 : optCommPend anyComm ((c.dictAt pathO).map fun d => ⟨some d, none⟩) = c.comms.map .comm :=
    commPend_dictAt roomEntry ConvoAny.comm serverEntry (fun x => rfl) c
  have e4 : secPend anyLegacy (c.dictAt [[67]]) = (c.convos .legacy).map fun y => .legacy y.1 y.2 :=
    (secPend_dictAt _ c _).trans (filterMap_map' _ _ _)
  have go : ∀ b1 b2 b3 b4 l, (if b1 then (c.convos .oneToOne).map (fun y => ConvoAny.oneToOne y.1 y.2) else []) ++
      ((if b3 then (c.convos .group).map (fun y => ConvoAny.group y.1 y.2) else []) ++
      ((if b2 then c.comms.map ConvoAny.comm else []) ++
      (if b4 then (c.convos .legacy).map (fun y => ConvoAny.legacy y.1 y.2) else []))) = l → l.length < fuel →
      loopList stop (fun it => derefVal it.val) ConvoIter.next fuel (c.convoIter b1 b2 b3 b4) = .ok l := by
    intro b1 b2 b3 b4 l hl hlen
    have hp : (c.convoIter b1 b2 b3 b4).pend = l := by
      unfold Client.convoIter
      rw [(convo_loadVal _).2, ← hl]
      unfold ConvoIter.pend
      dsimp only
      rw [← e1, ← e2, ← e3, ← e4]
      cases b1 <;> cases b2 <;> cases b3 <;> cases b4 <;> rfl
    rw [← hp]
    exact convo_loop_ready (convo_loadVal _).1 (by unfold Client.convoIter at hp; rw [hp]; exact hlen) stop hs
  unfold Client.convoList at hf ⊢
  simp only [List.length_append] at hf
  refine ⟨go _ _ _ _ _ (by simp) (by simp only [List.length_append]; omega), go _ _ _ _ _ (by simp) (by omega),
    go _ _ _ _ _ (by simp) (by omega), go _ _ _ _ _ (by simp) (by omega), go _ _ _ _ _ (by simp) (by omega)⟩

/-! ### Groups -/

def UGroupIter.pend (pub : Bytes → Bytes) (it : UGroupIter) : List AnyGroup :=
  secPend (uanyGroup pub) it.itGroup ++ (optCommPend uanyComm it.itComm ++ secPend uanyLegacy it.itLegacy)

def UGroupIter.Ready (pub : Bytes → Bytes) (it : UGroupIter) : Prop :=
  (it.pend pub = [] → it.done = true ∧ it.isEnd = true) ∧
  ∀ a t, it.pend pub = a :: t → it.done = false ∧ it.isEnd = false ∧ it.val = some a ∧
    ∃ it', it.bump = .ok it' ∧ it'.pend pub = t

theorem ugroup_loadVal (pub : Bytes → Bytes) (it : UGroupIter) :
    (it.loadVal pub).Ready pub ∧ (it.loadVal pub).pend pub = it.pend pub := by
  unfold UGroupIter.loadVal
  cases h2 : loadSec (uanyGroup pub) it.itGroup with
  | some y =>
    obtain ⟨a, d⟩ := y
    obtain ⟨t, e1, e2, e3⟩ := loadSec_some h2
    have hp : ({ it with val := some a, itGroup := some d } : UGroupIter).pend pub = it.pend pub := by
      unfold UGroupIter.pend; dsimp only; rw [e2]
    refine ⟨⟨?_, ?_⟩, hp⟩
    · rw [hp]; unfold UGroupIter.pend; rw [e3]; intro h; cases h
    · rw [hp]; unfold UGroupIter.pend; rw [e3]
      intro b s h
      simp only [List.cons_append, List.cons.injEq] at h
      obtain ⟨rfl, rfl⟩ := h
      refine ⟨rfl, rfl, rfl, { it with val := some a, itGroup := some t }, ?_, rfl⟩
      simp only [UGroupIter.bump, e1, Out.bind]
  | none =>
    have q2 := loadSec_none h2
    cases h3 : it.itComm.bind (·.load uanyComm) with
    | some y =>
      obtain ⟨a, k⟩ := y
      obtain ⟨e0, e1, k', e2, e3⟩ := optComm_some h3
      have hp : ({ it with val := some a, itGroup := none, itComm := some k } : UGroupIter).pend pub = it.pend pub := by
        unfold UGroupIter.pend; dsimp only; rw [q2, ← e1]; rfl
      refine ⟨⟨?_, ?_⟩, hp⟩
      · rw [hp]; unfold UGroupIter.pend; rw [q2, e3]; intro h; cases h
      · rw [hp]; unfold UGroupIter.pend; rw [q2, e3]
        intro b s h
        simp only [List.nil_append, List.cons_append, List.cons.injEq] at h
        obtain ⟨rfl, rfl⟩ := h
        refine ⟨rfl, rfl, rfl, { it with val := some a, itGroup := none, itComm := some k' }, ?_, rfl⟩
        simp only [UGroupIter.bump, e2, Out.bind]
    | none =>
      have q3 := optComm_none h3
      cases h4 : loadSec uanyLegacy it.itLegacy with
      | some y =>
        obtain ⟨a, d⟩ := y
        obtain ⟨t, e1, e2, e3⟩ := loadSec_some h4
        have hp : (⟨some a, none, none, some d⟩ : UGroupIter).pend pub = it.pend pub := by
          unfold UGroupIter.pend; dsimp only; rw [q2, q3, e2]; rfl
        refine ⟨⟨?_, ?_⟩, hp⟩
        · rw [hp]; unfold UGroupIter.pend; rw [q2, q3, e3]; intro h; cases h
        · rw [hp]; unfold UGroupIter.pend; rw [q2, q3, e3]
          intro b s h
          simp only [List.nil_append, List.cons.injEq] at h
          obtain ⟨rfl, rfl⟩ := h
          refine ⟨rfl, rfl, rfl, ⟨some a, none, none, some t⟩, ?_, rfl⟩
          simp only [UGroupIter.bump, e1, Out.bind]
      | none =>
        have q4 := loadSec_none h4
        have hp : it.pend pub = [] := by unfold UGroupIter.pend; rw [q2, q3, q4]; rfl
        refine ⟨⟨fun _ => ⟨rfl, rfl⟩, ?_⟩, hp.symm ▸ rfl⟩
        intro a t h
        cases h

/-- **C120**, for the groups. -/
theorem ugroup_loop (pub : Bytes → Bytes) (c : Client) {fuel : Nat} (hf : (c.allGroups pub).length < fuel)
    (stop : UGroupIter → Bool) (hs : stop = UGroupIter.done ∨ stop = UGroupIter.isEnd) :
    loopList stop (fun it => derefVal it.val) (·.next pub) fuel (c.ugroupIter pub true true true) = .ok (c.allGroups pub) ∧
    loopList stop (fun it => derefVal it.val) (·.next pub) fuel (c.ugroupIter pub true false false) =
      .ok ((c.groups pub).map .group) ∧
    loopList stop (fun it => derefVal it.val) (·.next pub) fuel (c.ugroupIter pub false true false) = .ok (c.ucomms.map .comm) ∧
    loopList stop (fun it => derefVal it.val) (·.next pub) fuel (c.ugroupIter pub false false true) =
      .ok (c.legacies.map .legacy) := by
  have e2 : secPend (uanyGroup pub) (c.dictAt [[103]]) = (c.groups pub).map .group :=
    (secPend_dictAt _ c _).trans (filterMap_map' _ _ _)
  have e3 : optCommPend uanyComm ((c.dictAt pathO).map fun d => ⟨some d, none⟩) = c.ucomms.map .comm :=
    commPend_dictAt uroomEntry AnyGroup.comm userverEntry (fun x => rfl) c
  have e4 : secPend uanyLegacy (c.dictAt [[67]]) = c.legacies.map .legacy :=
    (secPend_dictAt _ c _).trans (filterMap_map' _ _ _)
  have ready : ∀ {it : UGroupIter}, it.Ready pub → (it.pend pub).length < fuel →
      loopList stop (fun it => derefVal it.val) (·.next pub) fuel it = .ok (it.pend pub) := by
    intro it hr hf
    refine loop_of (Ready := UGroupIter.Ready pub) ?_ ?_ fuel it hr hf
    · intro it hr hp
      rcases hs with rfl | rfl
      · exact (hr.1 hp).1
      · exact (hr.1 hp).2
    · intro it a t hr hp
      obtain ⟨e1, e2, e3, it', e4, e5⟩ := hr.2 a t hp
      refine ⟨by rcases hs with rfl | rfl <;> assumption, by show derefVal it.val = _; rw [e3]; rfl, it'.loadVal pub, ?_,
        (ugroup_loadVal pub it').1, (ugroup_loadVal pub it').2.trans e5⟩
      show it.bump.bind _ = _
      rw [e4]; rfl
  have go : ∀ b2 b3 b4 l, (if b2 then (c.groups pub).map AnyGroup.group else []) ++
      ((if b3 then c.ucomms.map AnyGroup.comm else []) ++ (if b4 then c.legacies.map AnyGroup.legacy else [])) = l →
      l.length < fuel →
      loopList stop (fun it => derefVal it.val) (·.next pub) fuel (c.ugroupIter pub b2 b3 b4) = .ok l := by
    intro b2 b3 b4 l hl hlen
    have hp : (c.ugroupIter pub b2 b3 b4).pend pub = l := by
      unfold Client.ugroupIter
      rw [(ugroup_loadVal pub _).2, ← hl]
      unfold UGroupIter.pend
      dsimp only
      rw [← e2, ← e3, ← e4]
      cases b2 <;> cases b3 <;> cases b4 <;> rfl
    rw [← hp]
    exact ready (ugroup_loadVal pub _).1 (hp ▸ hlen)
  unfold Client.allGroups at hf ⊢
  simp only [List.length_append] at hf
  refine ⟨go _ _ _ _ (by simp) (by simp only [List.length_append]; omega), go _ _ _ _ (by simp) (by omega),
    go _ _ _ _ (by simp) (by omega), go _ _ _ _ (by simp) (by omega)⟩

/-! ### Contacts and members -/

/-- The loop over a table of contacts or members: `begin()` may throw already -/
def recLoop {R : Type} (L : Bytes → Dict → R) (stop : RecIter R → Bool) (fuel : Nat) (d : Option Dict) : Out (List R) :=
  (RecIter.start L d).bind fun it => loopList stop (fun it => derefVal it.val) (·.next L) fuel it

theorem rec_loop_from {R : Type} (L : Bytes → Dict → R) (stop : RecIter R → Bool)
    (hs : stop = RecIter.done ∨ stop = RecIter.isEnd) (t0 : Dict) : ∀ (d : Dict) (fuel : Nat) (it : RecIter R),
    it.table = some t0 → d.length < fuel →
    ((loadInfo L it d).bind fun it => loopList stop (fun it => derefVal it.val) (·.next L) fuel it) = iterRecs L d
  | [], fuel + 1, it, ht, _ => by
    unfold loadInfo loopList iterRecs
    simp only [Out.bind]
    have : stop { it with it := [] } = true := by
      rcases hs with rfl | rfl
      · simp [RecIter.done]
      · simp [RecIter.isEnd, ht]
    rw [if_pos this]
  | (k, v) :: t, fuel + 1, it, ht, hf => by
    have hf' : t.length < fuel := by simpa using hf
    have hf2 : t.length < fuel + 1 := by omega
    have skip := rec_loop_from L stop hs t0 t (fuel + 1) it ht hf2
    unfold loadInfo
    by_cases hk : k.length = 33
    · rw [if_pos hk]
      cases v with
      | dict e =>
        simp only [iterRecs, if_pos hk]
        by_cases hc : checkId (toHex k) pre05 = true
        · rw [if_pos hc, if_pos hc]
          simp only [Out.bind]
          unfold loopList
          have : stop { it with it := (k, .dict e) :: t, val := some (L (toHex k) e) } = false := by
            rcases hs with rfl | rfl
            · simp [RecIter.done, ht]
            · simp [RecIter.isEnd, ht]
          rw [if_neg (by rw [this]; simp)]
          have ih := rec_loop_from L stop hs t0 t fuel { it with it := (k, .dict e) :: t, val := some (L (toHex k) e) } ht hf'
          simp only [derefVal, Out.bind, RecIter.next, stepPos] at ih ⊢
          cases hl : loadInfo L { it with it := (k, .dict e) :: t, val := some (L (toHex k) e) } t with
          | ok it2 => rw [hl] at ih; dsimp only at ih ⊢; rw [ih]
          | err e2 => rw [hl] at ih; dsimp only at ih ⊢; rw [← ih]
          | hang => rw [hl] at ih; dsimp only at ih ⊢; rw [← ih]
          | ub => rw [hl] at ih; dsimp only at ih ⊢; rw [← ih]
        · rw [if_neg hc, if_neg hc]; rfl
      | _ => simp only [iterRecs]; exact skip
    · rw [if_neg hk]
      cases v with
      | dict e => simp only [iterRecs, if_neg hk]; exact skip
      | _ => simp only [iterRecs]; exact skip

theorem iterContacts_eq : ∀ d : Dict, iterContacts d = iterRecs Contact.load d
  | [] => rfl
  | (k, v) :: t => by
    have ih := iterContacts_eq t
    unfold iterContacts
    by_cases hk : k.length = 33
    · rw [if_pos hk]
      cases v with
      | dict e => simp only [iterRecs, if_pos hk, ih]
      | _ => simp only [iterRecs]; exact ih
    · rw [if_neg hk]
      cases v with
      | dict e => simp only [iterRecs, if_neg hk]; exact ih
      | _ => simp only [iterRecs]; exact ih

theorem recLoop_dictAt {R : Type} (L : Bytes → Dict → R) {c : Client} {P : List Bytes} {fuel : Nat}
    (hf : (c.table P).length < fuel) (stop : RecIter R → Bool) (hs : stop = RecIter.done ∨ stop = RecIter.isEnd) :
    recLoop L stop fuel (c.dictAt P) = iterRecs L (c.table P) := by
  have none_case : 0 < fuel → recLoop L stop fuel none = .ok [] := by
    intro h
    cases fuel with
    | zero => exact absurd h (Nat.not_lt_zero _)
    | succ n =>
      unfold recLoop RecIter.start
      simp only [Out.bind]
      unfold loopList
      have : stop { table := none } = true := by rcases hs with rfl | rfl <;> rfl
      rw [if_pos this]
  unfold Client.table curDict at hf ⊢
  unfold Client.dictAt
  cases hg : c.get P with
  | none => rw [hg] at hf; exact none_case hf
  | some v =>
    rw [hg] at hf
    cases v with
    | dict d => exact rec_loop_from L stop hs d d fuel _ rfl hf
    | _ => exact none_case hf

/-- **C120**, for the contacts and for the members of a group: the loop shows exactly what `c.contacts` and `c.members` list
(or throws where they do: at a key of 33 bytes that is not a session id). -/
theorem contacts_loop (c : Client) {fuel : Nat} (hf : c.contactsSize < fuel) (stop : RecIter Contact → Bool)
    (hs : stop = RecIter.done ∨ stop = RecIter.isEnd) :
    recLoop Contact.load stop fuel (c.dictAt pathC) = c.contacts :=
  (recLoop_dictAt _ hf stop hs).trans (iterContacts_eq _).symm

theorem gmembers_loop (c : Client) {fuel : Nat} (hf : c.membersSize < fuel) (stop : RecIter GMember → Bool)
    (hs : stop = RecIter.done ∨ stop = RecIter.isEnd) :
    recLoop GMember.load stop fuel (c.dictAt pathM) = c.members :=
  recLoop_dictAt _ hf stop hs

/-! ### Instances -/

/-- The conversations of `exConvos`, with entries this version does not understand between them: a key of the wrong length, a
string instead of a record, a server without a public key and one whose rooms are no dict -/
def exOdd : Client :=
  let put (k j : Bytes) (v : Val) (c : Client) : Client := { c with conf := { c.conf with m := { c.conf.m with
    data := mput k (.dict (mput j v (curDict (c.get [k])))) c.conf.m.data } } }
  let a := put [49] [1, 2] (.dict [([114], .scalar (.int 7))]) exConvos
  let a := put [103] (fromHex exGid) (.scalar (.str [1])) a
  let a := put [111] [97] (.dict [([82], .dict [([120], .dict [])])]) a
  put [111] [104] (.dict [([35], .scalar (.str (List.replicate 32 1))), ([82], .scalar (.int 1))]) a

example :
    exOdd.convoList.length = 5 ∧ exConvos.convoList.length = 6 ∧
    loopList ConvoIter.isEnd (fun it => derefVal it.val) ConvoIter.next 6 (exOdd.convoIter true true true true) =
      .ok exOdd.convoList ∧
    loopList ConvoIter.done (fun it => derefVal it.val) ConvoIter.next 7 (exConvos.convoIter true true true true) =
      .ok exConvos.convoList := by
  refine ⟨by decide +kernel, by decide +kernel, ?_, ?_⟩
  · exact (convo_loop exOdd (by decide +kernel) _ (.inr rfl)).1
  · exact (convo_loop exConvos (by decide +kernel) _ (.inl rfl)).1

example :
    let b := (((exC3.setUComm exSys exUComm).1.setLegacy exSys exLegacy).1.setGroup exSys exOwn).1
    b.allGroups exPub = [.group exOwn, .comm exUComm, .legacy exLegacy] ∧
    loopList UGroupIter.isEnd (fun it => derefVal it.val) (·.next exPub) 4 (b.ugroupIter exPub true true true) =
      .ok [.group exOwn, .comm exUComm, .legacy exLegacy] := by
  intro b
  have h : b.allGroups exPub = [.group exOwn, .comm exUComm, .legacy exLegacy] := by decide +kernel
  exact ⟨h, h ▸ (ugroup_loop exPub b (by rw [h]; decide) _ (.inr rfl)).1⟩

example :
    let b := ((exC3.setContact exSys exContact).1.setContact exSys { id := exId2, notify := .mentions }).1
    let m := (exC3.setMember exSys exMember).1
    recLoop Contact.load RecIter.done 3 (b.dictAt pathC) =
      .ok [{ exContact with id := lower exId }, { id := lower exId2, notify := .all }] ∧
    recLoop GMember.load RecIter.isEnd 2 (m.dictAt pathM) = .ok [{ exMember with id := lower exId }] := by
  intro b m
  refine ⟨(contacts_loop b (by decide +kernel) _ (.inl rfl)).trans (by decide +kernel),
    (gmembers_loop m (by decide +kernel) _ (.inr rfl)).trans (by decide +kernel)⟩

end Verif
