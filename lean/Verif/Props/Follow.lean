import Verif.Props.Turns

/-!
# One device edits, the others follow (C154)
-/

namespace Verif

/-- The states in which one device of the account published something: it goes from each to the next by any calls, merges and
restarts. -/
structure OneWriter (S : Sys) (W : Bytes → Prop) (V : Client → Prop) : Prop where
  node : ∀ v, V v → Node S W v
  published : ∀ v, V v → v.st ≠ .dirty
  seqno : ∀ v, V v → v.seqno ≠ 0
  range : ∀ v, V v → int64Ok (v.seqno + S.env.lag) = true
  life : ∀ a b, V a → V b → Onward S W a b ∨ Onward S W b a

/-- One device takes turns with itself. -/
theorem OneWriter.inTurn {S : Sys} {W : Bytes → Prop} {V : Client → Prop} (hV : OneWriter S W V) : InTurn S W V := by
  refine ⟨hV.node, hV.published, hV.seqno, hV.range, fun a b ha hb => ?_⟩
  rcases hV.life a b ha hb with h | h
  · exact .inl (.knew (.held (hV.node a ha) (hV.published a ha) (hV.seqno a ha) rfl h))
  · exact .inr (.knew (.held (hV.node b hb) (hV.published b hb) (hV.seqno b hb) rfl h))

/-! ## C154 -/

/-- C154.  Among the devices of an account of which one edits and the others only follow: a follower never has anything to push, it is
at least at the seqno of everything it was given, and it holds exactly one of the versions it was given (or, if it was given none, is
new). -/
theorem follower_follows {S : Sys} (hS : S.Good) (hro : S.env.readonly = false) {W : Bytes → Prop} (hW : Collisionless S W)
    {V : Client → Prop} (hV : OneWriter S W V) {l : List Bytes} {c : Client} (h : Follower S W V l c) : Following S W V l c :=
  turn_follows hS hro hW hV.inTurn h

/-- C154.  The content of a follower is that of the highest version it was given. -/
theorem follower_content {S : Sys} (hS : S.Good) (hro : S.env.readonly = false) {W : Bytes → Prop} (hW : Collisionless S W)
    {V : Client → Prop} (hV : OneWriter S W V) {l : List Bytes} {c : Client} (h : Follower S W V l c)
    {b : Bytes} (hb : b ∈ l) {m : Msg} (hm : parseMsg S.env false b = .ok m)
    (hmax : ∀ b' ∈ l, ∀ m', parseMsg S.env false b' = .ok m' → m'.seqno ≤ m.seqno) :
    c.content = m.data ∧ c.seqno = m.seqno ∧ c.plain S = b ∧ c.needsPush = false :=
  turn_content hS hro hW hV.inTurn h hb hm hmax

/-- C154.  Two followers that were given the same versions, in whatever order and batches, are the same. -/
theorem followers_agree {S : Sys} (hS : S.Good) (hro : S.env.readonly = false) {W : Bytes → Prop} (hW : Collisionless S W)
    {V : Client → Prop} (hV : OneWriter S W V) {l k : List Bytes} {c d : Client} (hc : Follower S W V l c) (hd : Follower S W V k d)
    (hsame : ∀ b m, parseMsg S.env false b = .ok m → (b ∈ l ↔ b ∈ k)) :
    c.content = d.content ∧ c.seqno = d.seqno ∧ (c.seqno ≠ 0 → c.plain S = d.plain S) :=
  turns_agree hS hro hW hV.inTurn hc hd hsame

/-! ### A concrete case: the writer edits, publishes, merges a conflicting version, publishes; a follower gets the versions in the
wrong order -/

def exF5 : Client := (exE5.push exSys).1

theorem exF5_onward : Onward exSys exWorld exC3 exF5 := .call exE5_onward (.push _) (inWorld (by decide +kernel))

theorem two_writer {S : Sys} {W : Bytes → Prop} {a b : Client} (ha : Node S W a) (hab : Onward S W a b)
    (h : (decide (a.st ≠ .dirty) && decide (b.st ≠ .dirty) && decide (a.seqno ≠ 0) && decide (b.seqno ≠ 0) &&
      int64Ok (a.seqno + S.env.lag) && int64Ok (b.seqno + S.env.lag)) = true) : OneWriter S W (Two a b) := by
  have hs := two_settled ha (hab.node ha) h
  refine ⟨hs.node, hs.published, hs.seqno, hs.range, ?_⟩
  rintro x y (rfl | rfl) (rfl | rfl)
  · exact .inl .start
  · exact .inl hab
  · exact .inr hab
  · exact .inl .start

theorem exWriter : OneWriter exSys exWorld (Two exC3 exF5) := two_writer exC3_node exF5_onward (by decide +kernel)

def exFo1 : Client := (exC0.merge exSys [([5], pushedMsg exSys exF5), ([9], [7])]).1
def exFo2 : Client := (exFo1.merge exSys [([1], pushedMsg exSys exC3), ([5], pushedMsg exSys exF5)]).1

theorem exFo1_follower : Follower exSys exWorld (Two exC3 exF5) [exF5.plain exSys] exFo1 := by
  have hg : (gather exSys exC0.keys [([5], pushedMsg exSys exF5), ([9], [7])]).map (·.2) = [exF5.plain exSys] := by decide +kernel
  have h0 : Follower exSys exWorld (Two exC3 exF5) [] exC0 :=
    .call (.new (inWorld (by decide +kernel))) (.addKey _ _ _ _ (by decide +kernel)) (by decide +kernel) (inWorld (by decide +kernel))
  have h := Follower.merge h0 (from_one (W := exWorld) (V := Two exC3 exF5) hg (fun b hb => by
    rw [List.mem_singleton.1 hb]; exact ⟨exF5, .inr rfl, rfl, inWorld (by decide +kernel)⟩))
    (by decide +kernel) (inWorld (by decide +kernel))
  rw [hg] at h
  exact h

theorem exFo2_follower : Follower exSys exWorld (Two exC3 exF5) [exF5.plain exSys, exC3.plain exSys, exF5.plain exSys] exFo2 := by
  have hg : (gather exSys exFo1.keys [([1], pushedMsg exSys exC3), ([5], pushedMsg exSys exF5)]).map (·.2) =
    [exC3.plain exSys, exF5.plain exSys] := by decide +kernel
  have h := Follower.merge exFo1_follower (from_one (W := exWorld) (V := Two exC3 exF5) hg (fun b hb => by
    rcases List.mem_cons.1 hb with hb | hb
    · rw [hb]; exact ⟨exC3, .inl rfl, rfl, inWorld (by decide +kernel)⟩
    · rw [List.mem_singleton.1 hb]; exact ⟨exF5, .inr rfl, rfl, inWorld (by decide +kernel)⟩))
    (by decide +kernel) (inWorld (by decide +kernel))
  rw [hg] at h
  exact h

theorem writer_reads {S : Sys} (hS : S.Good) (hro : S.env.readonly = false) {W : Bytes → Prop} (hW : Collisionless S W)
    {V : Client → Prop} (hV : OneWriter S W V) {l : List Bytes} {c v : Client} (h : Follower S W V l c) (hv : V v)
    (hin : v.plain S ∈ l) (hmax : c.seqno ≤ v.seqno) :
    c.content = v.content ∧ c.seqno = v.seqno ∧ c.plain S = v.plain S ∧ c.needsPush = false :=
  turn_reads hS hro hW hV.inTurn h hv hin hmax

/-- what the theorems say of it -/
example : exFo2.content = exF5.content ∧ exFo2.seqno = exF5.seqno ∧ exFo2.plain exSys = exF5.plain exSys ∧ exFo2.needsPush = false :=
  writer_reads exSys_good (by decide +kernel) exWorld_free exWriter exFo2_follower (.inr rfl)
    (List.mem_cons_self ..) (by decide +kernel)

/-- That only one device publishes is needed: of two devices that edit, the versions may conflict, and then a device that does not edit
has to push. -/
theorem follower_needs_one_writer :
    exC3.seqno = 1 ∧ exE4.seqno = 2 ∧ exQ.seqno = 2 ∧ exC0.needsPush = false ∧
    (exC0.merge exSys [([2], pushedMsg exSys exE4), ([3], pushedMsg exSys exQ)]).1.needsPush = true ∧
    (exC0.merge exSys [([2], pushedMsg exSys exE4), ([3], pushedMsg exSys exQ)]).1.seqno = 3 := by decide +kernel

end Verif
