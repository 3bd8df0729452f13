import Verif.Props.OneDevice
import Verif.Props.UserComm
import Verif.Props.UserGroups
import Verif.Props.GroupMembers
import Verif.Props.Profile
import Verif.Props.Convo
import Verif.CommObj
import Verif.Neat

/-!
# The API calls of an account whose devices take turns (C157)
-/

namespace Verif

/-! ### Calls that are sequences of field edits -/

/-- A call of the API that changes the config -/
abbrev Api : Type := Client → Client × Out Unit

/-- These edits one after the other; the first that fails ends it. -/
def runSeq (S : Sys) (c : Client) : List PathOp → Client × Out Unit
  | [] => (c, .ok ())
  | o :: t => match o.run S c with
    | (c1, .ok ()) => runSeq S c1 t
    | (c1, e) => (c1, e)

/-- What the call does depends on the content of the config only: it makes certain edits of fields, or fails. -/
def Planned (S : Sys) (f : Api) : Prop :=
  ∃ plan : Dict → Option (List PathOp), (∀ d ops, typedD d = true → plan d = some ops → ∀ o ∈ ops, o.legal) ∧
    ∀ c, CInv S c → match plan c.content with
      | some ops => f c = runSeq S c ops
      | none => (f c).2 ≠ .ok ()

/-- what is left of an edit when another one follows -/
theorem edit_edit {S : Sys} {c c1 : Client} {d1 : Dict} (h : c.edit S d1 = (c1, .ok ())) (d2 : Dict) :
    c1.edit S d2 = c.edit S d2 := by
  have hk : (c.dirty S).2 = .ok () := by
    by_contra hne
    have h2 := congrArg Prod.snd h
    rw [edit_eq_err hne] at h2
    exact hne h2
  obtain ⟨k1, k2, _⟩ := dirty_ok hk
  rw [edit_eq_ok hk] at h
  have h1 : c1 = { (c.dirty S).1 with conf := { (c.dirty S).1.conf with m := { (c.dirty S).1.conf.m with data := d1 } } } :=
    (congrArg Prod.fst h).symm
  have hd : c1.dirty S = (c1, .ok ()) := by
    unfold Client.dirty
    rw [h1]
    simp only [k1, k2, if_true]
  rw [edit_eq_ok (by rw [hd]), edit_eq_ok hk, hd, h1]

/-- An edit of a field is nothing, or an edit of the data. -/
theorem PathOp.run_edit {S : Sys} (hS : S.Good) {c c' : Client} (hi : CInv S c) {o : PathOp} (ho : o.legal)
    (h : o.run S c = (c', .ok ())) : c' = c ∨ ∃ d, typedD d = true ∧ c.edit S d = (c', .ok ()) := by
  rcases PathOp.run_cases (S := S) hi.wf.data ho with ⟨h1, _⟩ | h1
  · rw [h1] at h; exact .inl (congrArg Prod.fst h).symm
  · exact .inr ⟨_, PathOp.on_typed ho (hi.dirty hS).wf.data, h1.symm.trans h⟩

theorem runSeq_done {S : Sys} (hS : S.Good) : ∀ (ops : List PathOp) {c c' : Client}, CInv S c → (∀ o ∈ ops, o.legal) →
    runSeq S c ops = (c', .ok ()) →
    c'.content = ops.foldl (fun d o => pruneD (o.on d)) c.content ∧ CInv S c' ∧
      (c' = c ∨ ∃ d, typedD d = true ∧ c.edit S d = (c', .ok ()))
  | [], c, c', hi, _, h => by
    obtain rfl : c = c' := congrArg Prod.fst h
    exact ⟨rfl, hi, .inl rfl⟩
  | o :: t, c, c', hi, hl, h => by
    simp only [runSeq] at h
    split at h
    · rename_i c1 h1
      have ho := hl o (List.mem_cons_self ..)
      have hc := PathOp.run_content hS hi ho (by rw [h1])
      rw [h1] at hc
      have he := PathOp.run_edit hS hi ho h1
      have hi1 : CInv S c1 := by
        rcases he with he | ⟨d, hd, he⟩
        · rw [he]; exact hi
        · have := hi.edit hS hd
          rw [he] at this; exact this
      obtain ⟨k1, k2, k3⟩ := runSeq_done hS t hi1 (fun o ho => hl o (List.mem_cons_of_mem _ ho)) h
      refine ⟨?_, k2, ?_⟩
      · rw [k1, hc.1]; rfl
      · rcases he with he | ⟨d, hd, he⟩
        · rw [he] at k3; exact k3
        · rcases k3 with k3 | ⟨d2, hd2, k3⟩
          · rw [k3]; exact .inr ⟨d, hd, he⟩
          · exact .inr ⟨d2, hd2, by rw [← edit_edit he d2]; exact k3⟩
    · rename_i c1 e hne h1
      cases h
      exact (hne rfl).elim

/-- An object that has unpublished edits, or was never published, can be edited. -/
theorem runSeq_ok {S : Sys} (hS : S.Good) (hro : S.env.readonly = false) : ∀ (ops : List PathOp) {c : Client}, CInv S c →
    (∀ o ∈ ops, o.legal) → (c.st = .dirty ∨ c.seqno = 0) →
    ∃ c', runSeq S c ops = (c', .ok ()) ∧ (c'.st = .dirty ∨ c'.seqno = 0)
  | [], c, _, _, hc => ⟨c, rfl, hc⟩
  | o :: t, c, hi, hl, hc => by
    have ho := hl o (List.mem_cons_self ..)
    have hok : ∃ c1, o.run S c = (c1, .ok ()) ∧ CInv S c1 ∧ (c1.st = .dirty ∨ c1.seqno = 0) := by
      rcases PathOp.run_cases (S := S) hi.wf.data ho with ⟨h1, _⟩ | h1
      · exact ⟨c, h1, hi, hc⟩
      · have hdo : (c.dirty S).2 = .ok () := by
          unfold Client.dirty
          by_cases hd : c.st = .dirty
          · rw [if_pos hd, if_pos (hi.isMut hd)]
          · rw [if_neg hd, hro]
            have h0 : c.conf.m.seqno = 0 := hc.resolve_left hd
            rw [h0]
            rfl
        have hi2 := hi.edit hS (PathOp.on_typed ho (hi.dirty hS).wf.data)
        rw [edit_eq_ok hdo] at h1 hi2
        exact ⟨_, h1, hi2, .inl (dirty_ok hdo).1⟩
    obtain ⟨c1, h1, h2, h3⟩ := hok
    obtain ⟨c', h4, h5⟩ := runSeq_ok hS hro t h2 (fun o ho => hl o (List.mem_cons_of_mem _ ho)) h3
    refine ⟨c', ?_, h5⟩
    simp only [runSeq, h1]
    exact h4

/-! ### The calls there are -/

/-- one write of a record -/
def writeOp (w : List Bytes × Option Val) : PathOp := match w.2 with
  | some v => .assign w.1 v
  | none => .erase w.1

theorem write_run (S : Sys) (c : Client) (w : List Bytes × Option Val) : c.write S w.1 w.2 = (writeOp w).run S c := by
  obtain ⟨p, v⟩ := w
  cases v <;> rfl

theorem writeOp_legal {w : List Bytes × Option Val} (h : wfO w.2 = true) : (writeOp w).legal := by
  obtain ⟨p, v⟩ := w
  cases v with
  | none => trivial
  | some v =>
    have h : v.wf = true := h
    simp only [Val.wf, Bool.and_eq_true] at h
    exact h.1

theorem writeAll_run (S : Sys) : ∀ (ws : List (List Bytes × Option Val)) (c : Client),
    c.writeAll S ws = runSeq S c (ws.map writeOp)
  | [], _ => rfl
  | (p, v) :: t, c => by
    have h := write_run S c (p, v)
    simp only [Client.writeAll, List.map_cons, runSeq]
    rw [← h]
    show (match c.write S p v with | (c1, .ok ()) => _ | (c1, e) => _) = _
    dsimp only
    generalize c.write S p v = x
    obtain ⟨c1, e⟩ := x
    cases e with
    | ok u => exact writeAll_run S t c1
    | err e => rfl
    | hang => rfl
    | ub => rfl

theorem Planned.op {S : Sys} {o : PathOp} (ho : o.legal) : Planned S (o.run S) := by
  refine ⟨fun _ => some [o], ?_, ?_⟩
  · intro d ops _ h x hx
    rw [← Option.some.inj h] at hx
    rw [List.mem_singleton.1 hx]; exact ho
  · intro c _
    show o.run S c = runSeq S c [o]
    simp only [runSeq]
    generalize o.run S c = x
    obtain ⟨c1, e⟩ := x
    cases e <;> rfl

theorem Planned.fails {S : Sys} {f : Api} (h : ∀ c, (f c).2 ≠ .ok ()) : Planned S f :=
  ⟨fun _ => none, fun _ _ _ h => (by cases h), fun c _ => h c⟩

theorem Planned.writes {S : Sys} {ws : List (List Bytes × Option Val)} (h : ∀ w ∈ ws, wfO w.2 = true) :
    Planned S fun c => c.writeAll S ws := by
  refine ⟨fun _ => some (ws.map writeOp), ?_, ?_⟩
  · intro d ops _ h2 x hx
    rw [← Option.some.inj h2] at hx
    obtain ⟨w, hw, rfl⟩ := List.mem_map.1 hx
    exact writeOp_legal (h w hw)
  · intro c _
    exact writeAll_run S ws c

theorem Planned.write {S : Sys} {p : List Bytes} {v : Option Val} (h : wfO v = true) : Planned S fun c => c.write S p v := by
  have := Planned.op (S := S) (o := writeOp (p, v)) (writeOp_legal h)
  rwa [show (writeOp (p, v)).run S = fun c => c.write S p v from funext fun c => (write_run S c (p, v)).symm] at this

/-- Calls whose writes are a matter of the content -/
theorem Planned.chosen {S : Sys} {f : Api} (g : Dict → Option (List (List Bytes × Option Val)))
    (hw : ∀ d ws, typedD d = true → g d = some ws → ∀ w ∈ ws, wfO w.2 = true)
    (h : ∀ c, CInv S c → match g c.content with
      | some ws => f c = c.writeAll S ws
      | none => (f c).2 ≠ .ok ()) : Planned S f := by
  refine ⟨fun d => (g d).map (·.map writeOp), ?_, ?_⟩
  · intro d ops hd h2 x hx
    obtain ⟨ws, h3, rfl⟩ := Option.map_eq_some_iff.1 h2
    obtain ⟨w, hw2, rfl⟩ := List.mem_map.1 hx
    exact writeOp_legal (hw d ws hd h3 w hw2)
  · intro c hc
    have h := h c hc
    cases hg : g c.content with
    | none =>
      rw [hg] at h
      simp only [hg, Option.map_none]
      exact h
    | some ws =>
      rw [hg] at h
      simp only [hg, Option.map_some]
      exact Eq.trans h (writeAll_run S ws c)

/-- the answer of a call, without the value it returns -/
def unitOut {α : Type} (r : Client × Out α) : Client × Out Unit := (r.1, r.2.bind fun _ => .ok ())

theorem Planned.setRec {S : Sys} {P : List Bytes} {pre id : Bytes} {fs : Bytes → List (Bytes × Option Val)}
    (h : ∀ pk, ∀ f ∈ fs pk, wfO f.2 = true) : Planned S fun c => c.setRec S P pre id fs := by
  unfold Client.setRec
  cases hid : idBytes id pre with
  | ok pk =>
    refine Planned.writes fun w hw => ?_
    obtain ⟨f, hf, rfl⟩ := List.mem_map.1 hw
    exact h pk f hf
  | err e => exact Planned.fails fun c h => by cases h
  | hang => exact Planned.fails fun c h => by cases h
  | ub => exact Planned.fails fun c h => by cases h

theorem Planned.eraseImpl {S : Sys} (p : List Bytes) : Planned S fun c => unitOut (c.eraseImpl S p) := by
  have := Planned.op (S := S) (o := .erase p) trivial
  rwa [show (PathOp.erase p).run S = fun c => unitOut (c.eraseImpl S p) from funext fun c => by
    show c.erase S p = _
    unfold Client.eraseImpl
    generalize c.erase S p = x
    obtain ⟨c1, e⟩ := x
    cases e <;> rfl] at this

theorem Planned.eraseRec {S : Sys} (P : List Bytes) (pre id : Bytes) : Planned S fun c => unitOut (c.eraseRec S P pre id) := by
  unfold Client.eraseRec
  cases hid : idBytes id pre with
  | ok pk => exact Planned.eraseImpl _
  | err e => exact Planned.fails fun c h => by cases h
  | hang => exact Planned.fails fun c h => by cases h
  | ub => exact Planned.fails fun c h => by cases h

/-- an object with that data, to read from -/
def viewOf (S : Sys) (d : Dict) : Client :=
  { Client.new S with conf := { (Client.new S).conf with m := { (Client.new S).conf.m with data := d } } }

theorem viewOf_get {S : Sys} {c : Client} (hi : CInv S c) (p : List Bytes) : (viewOf S c.content).get p = pruneO (c.get p) :=
  valAt_prune hi.wf.data p

theorem intOf_pruneO (o : Option Val) : intOf (pruneO o) = intOf o := by
  cases o with
  | none => rfl
  | some v =>
    cases v with
    | scalar x => rfl
    | set s =>
      show intOf (if (Val.set s).emptyVal = true then none else some (.set s)) = none
      split <;> rfl
    | dict e =>
      rw [pruneO_dict]
      split <;> rfl

theorem Contact.load_nil (id : Bytes) : Contact.load id [] = { id := id } := by
  unfold Contact.load loadPic loadExp
  simp only [maybeInt, maybeStr, mget]
  refine Contact.mk.injEq .. |>.mpr ⟨rfl, ?_⟩
  decide +kernel

theorem viewOf_contact {S : Sys} {c : Client} (hi : CInv S c) (id : Bytes) :
    (viewOf S c.content).getOrConstruct id = c.getOrConstruct id := by
  unfold Client.getOrConstruct Client.getContact
  unfold idBytes
  by_cases hid : checkId id pre05 = true
  · simp only [hid, if_true, Out.bind]
    rw [viewOf_get hi]
    cases hg : c.get (pathC ++ [fromHex id]) with
    | none => rfl
    | some v =>
      cases v with
      | scalar x => rfl
      | set s =>
        have hp : pruneO (some (Val.set s)) = none ∨ pruneO (some (Val.set s)) = some (.set s) := by
          show (if (Val.set s).emptyVal = true then none else some (Val.set s)) = _ ∨ _
          by_cases h : (Val.set s).emptyVal = true
          · exact .inl (if_pos h)
          · exact .inr (if_neg h)
        rcases hp with hp | hp <;> rw [hp]
      | dict e =>
        have hte : typedD e = true := by simpa [Val.typed] using valAt_typed _ hi.wf.data hg
        rw [pruneO_dict]
        by_cases hn : pruneD e = []
        · rw [if_pos hn]
          show Out.ok _ = Out.ok _
          rw [← Contact.load_nil id, ← hn, load_congr (maybe_of_pruned hte)]
        · rw [if_neg hn]
          show Out.ok _ = Out.ok _
          rw [load_congr (maybe_of_pruned hte)]
  · simp only [hid, if_false, Out.bind, Bool.false_eq_true]

theorem getOrConstruct_range {S : Sys} {d : Dict} (hd : typedD d = true) {id : Bytes} {r : Contact}
    (hg : (viewOf S d).getOrConstruct id = .ok r) : r.inRange = true := by
  unfold Client.getOrConstruct Client.getContact idBytes at hg
  by_cases hid : checkId id pre05 = true
  · simp only [hid, if_true, Out.bind] at hg
    cases hv : (viewOf S d).get (pathC ++ [fromHex id]) with
    | none => rw [hv] at hg; cases hg; rfl
    | some v =>
      rw [hv] at hg
      cases v with
      | scalar x => cases hg; rfl
      | set s => cases hg; rfl
      | dict e =>
        have hg := Out.ok.inj hg
        have ht : (Val.dict e).typed = true := valAt_typed (d := d) _ hd hv
        have hint : ∀ k, int64Ok ((maybeInt e k).getD 0) = true := by
          intro k
          unfold maybeInt
          split
          · rename_i i hi
            have := typed_of_mget (by simpa [Val.typed] using ht) hi
            simpa [Val.typed, Scalar.ok] using this
          · decide
        rw [← hg]
        unfold Contact.inRange Contact.load loadExp
        simp only [toInt32_ok, hint, Bool.true_and, Bool.and_true]
        split
        · rfl
        · split
          · rfl
          · exact int32_int64 (toInt32_ok _)
  · simp only [hid, if_false, Out.bind, Bool.false_eq_true] at hg
    cases hg

theorem Planned.updContact {S : Sys} {id : Bytes} {upd : Contact → Out Contact}
    (hrange : ∀ r r', r.inRange = true → upd r = .ok r' → r'.inRange = true) : Planned S fun c => c.updContact S id upd := by
  refine Planned.chosen (fun d => match ((viewOf S d).getOrConstruct id).bind upd with
    | .ok r => match idBytes r.id pre05 with
      | .ok pk => some (entries (pathC ++ [pk]) r.fields)
      | _ => none
    | _ => none) ?_ ?_
  · intro d ws hd h w hw
    cases hg : (viewOf S d).getOrConstruct id with
    | ok r0 =>
      rw [hg, show (Out.ok r0).bind upd = upd r0 from rfl] at h
      cases hu : upd r0 with
      | ok r =>
        rw [hu] at h
        have hr := hrange r0 r (getOrConstruct_range hd hg) hu
        cases hp : idBytes r.id pre05 with
        | ok pk =>
          simp only [hp] at h
          rw [← Option.some.inj h] at hw
          obtain ⟨f, hf, rfl⟩ := List.mem_map.1 hw
          exact contact_fields_wf hr f hf
        | err e => simp only [hp] at h; cases h
        | hang => simp only [hp] at h; cases h
        | ub => simp only [hp] at h; cases h
      | err e => rw [hu] at h; cases h
      | hang => rw [hu] at h; cases h
      | ub => rw [hu] at h; cases h
    | err e => rw [hg] at h; cases h
    | hang => rw [hg] at h; cases h
    | ub => rw [hg] at h; cases h
  · intro c hc
    rw [viewOf_contact hc]
    unfold Client.updContact Client.setContact
    cases hx : (c.getOrConstruct id).bind upd with
    | ok r =>
      dsimp only
      cases hp : idBytes r.id pre05 with
      | ok pk => rfl
      | err e => intro h; cases h
      | hang => intro h; cases h
      | ub => intro h; cases h
    | err e => intro h; cases h
    | hang => intro h; cases h
    | ub => intro h; cases h

theorem Planned.setBase {S : Sys} {now : Int} {p : List Bytes} {x : Convo} (hx : int64Ok x.lastRead = true) :
    Planned S fun c => c.setBase S now p x := by
  have hfix : ∀ c, CInv S c → (viewOf S c.content).readWrites now p x = c.readWrites now p x := by
    intro c hc
    unfold Client.readWrites
    rw [viewOf_get hc, intOf_pruneO]
  refine Planned.chosen (fun d => match (viewOf S d).readWrites now p x with
    | .ok ws => some (ws ++ [(p ++ [[117]], fFlag x.unread)])
    | _ => none) ?_ ?_
  · intro d ws _ h w hw
    have hwf : wfO (some (Val.scalar (.int x.lastRead))) = true := by
      simp [wfO, Val.wf, Val.typed, Val.full, Scalar.ok, hx]
    have hfl : wfO (fFlag x.unread) = true := by
      unfold fFlag; split <;> rfl
    have hall : ∀ l, (viewOf S d).readWrites now p x = .ok l → ∀ w ∈ l, wfO w.2 = true := by
      intro l hl w hw
      unfold Client.readWrites at hl
      split at hl
      · cases hl
        rw [List.mem_singleton.1 hw]; exact hwf
      · split at hl
        · cases hl
          split at hw
          · rw [List.mem_singleton.1 hw]; exact hwf
          · cases hw
        · cases hl
    cases hr : (viewOf S d).readWrites now p x with
    | ok l =>
      rw [hr] at h
      rw [← Option.some.inj h] at hw
      rcases List.mem_append.1 hw with hw | hw
      · exact hall l hr w hw
      · rw [List.mem_singleton.1 hw]; exact hfl
    | err e => rw [hr] at h; cases h
    | hang => rw [hr] at h; cases h
    | ub => rw [hr] at h; cases h
  · intro c hc
    rw [hfix c hc]
    unfold Client.setBase
    cases c.readWrites now p x with
    | ok ws => rfl
    | err e => intro h; cases h
    | hang => intro h; cases h
    | ub => intro h; cases h

/-- First the one call, then the other -/
theorem Planned.andThen {S : Sys} (hS : S.Good) {f g : Api} (hf : Planned S f) (hg : Planned S g) :
    Planned S fun c => match f c with
      | (c1, .ok ()) => g c1
      | (c1, e) => (c1, e) := by
  obtain ⟨p1, l1, h1⟩ := hf
  obtain ⟨p2, l2, h2⟩ := hg
  have hfold : ∀ (ops : List PathOp) (d : Dict), typedD d = true → (∀ o ∈ ops, o.legal) → typedD (ops.foldl (fun d o => pruneD (PathOp.on d o)) d) = true := by
    intro ops
    induction ops with
    | nil => intro d hd _; exact hd
    | cons o t ih =>
      intro d hd hl
      exact ih _ (pruneD_typed _ (PathOp.on_typed (hl o (List.mem_cons_self ..)) hd)) fun o ho => hl o (List.mem_cons_of_mem _ ho)
  have happ : ∀ (o1 o2 : List PathOp) (c : Client), runSeq S c (o1 ++ o2) = match runSeq S c o1 with
      | (c1, .ok ()) => runSeq S c1 o2
      | (c1, e) => (c1, e) := by
    intro o1 o2
    induction o1 with
    | nil => intro c; rfl
    | cons o t ih =>
      intro c
      simp only [List.cons_append, runSeq]
      generalize o.run S c = x
      obtain ⟨c1, e⟩ := x
      cases e with
      | ok u => exact ih c1
      | err e => rfl
      | hang => rfl
      | ub => rfl
  refine ⟨fun d => match p1 d with
    | some o1 => (p2 (o1.foldl (fun d o => pruneD (PathOp.on d o)) d)).map (o1 ++ ·)
    | none => none, ?_, ?_⟩
  · intro d ops hd h o ho
    cases hp : p1 d with
    | none => simp only [hp] at h; cases h
    | some o1 =>
      simp only [hp] at h
      obtain ⟨o2, h3, rfl⟩ := Option.map_eq_some_iff.1 h
      have hl1 := l1 d o1 hd hp
      rcases List.mem_append.1 ho with ho | ho
      · exact hl1 o ho
      · exact l2 _ o2 (hfold o1 d hd hl1) h3 o ho
  · intro c hc
    have h1c := h1 c hc
    cases hp : p1 c.content with
    | none =>
      rw [hp] at h1c
      simp only [hp]
      intro h
      cases hx : f c with
      | mk c1 e =>
        rw [hx] at h h1c
        cases e with
        | ok u => exact h1c rfl
        | err e => cases h
        | hang => cases h
        | ub => cases h
    | some o1 =>
      rw [hp] at h1c
      have hl1 := l1 _ o1 (pruneD_typed _ hc.wf.data) hp
      cases hx : runSeq S c o1 with
      | mk c1 e =>
        have h1c : f c = (c1, e) := Eq.trans h1c hx
        have hother : e ≠ .ok () → ∀ o2, runSeq S c (o1 ++ o2) = (c1, e) := by
          intro hne o2
          rw [happ, hx]
          cases e with
          | ok u => exact absurd rfl hne
          | err e => rfl
          | hang => rfl
          | ub => rfl
        have hbad : e ≠ .ok () → (match f c with | (c1, .ok ()) => g c1 | (c1, e) => (c1, e)) = (c1, e) := by
          intro hne
          rw [h1c]
          cases e with
          | ok u => exact absurd rfl hne
          | err e => rfl
          | hang => rfl
          | ub => rfl
        by_cases he : e = .ok ()
        · subst he
          obtain ⟨k1, k2, _⟩ := runSeq_done hS o1 hc hl1 hx
          have h2c := h2 c1 k2
          rw [k1] at h2c
          cases hq : p2 (o1.foldl (fun d o => pruneD (PathOp.on d o)) c.content) with
          | none =>
            rw [hq] at h2c
            simp only [hp, hq, Option.map_none]
            rw [h1c]
            exact h2c
          | some o2 =>
            rw [hq] at h2c
            simp only [hp, hq, Option.map_some]
            rw [h1c, happ, hx]
            exact h2c
        · cases hq : p2 (o1.foldl (fun d o => pruneD (PathOp.on d o)) c.content) with
          | none =>
            simp only [hp, hq, Option.map_none]
            rw [hbad he]
            exact he
          | some o2 =>
            simp only [hp, hq, Option.map_some]
            rw [hbad he, hother he]

/-- The calls of the user's and of group configs: the fields of any config; contacts; the profile; groups, legacy groups and
communities (also as a `community` object in any state); the conversations; members and information of a group.  (Removing a community is not among them: `community_removal_depends`.) -/
inductive AccountCall (S : Sys) : Api → Prop
  | field (o : PathOp) : o.legal → AccountCall S (o.run S)
  | contact (r : Contact) : r.inRange = true → AccountCall S fun c => c.setContact S r
  | noContact (id : Bytes) : AccountCall S fun c => unitOut (c.eraseContact S id)
  | contactName (id n : Bytes) : AccountCall S fun c => c.setContactName S id n
  | contactNick (id n : Bytes) : AccountCall S fun c => c.setContactNick S id n
  | contactPic (id u k : Bytes) : AccountCall S fun c => c.setContactPic S id u k
  | contactApproved (id : Bytes) (b : Bool) : AccountCall S fun c => c.setContactApproved S id b
  | contactApprovedMe (id : Bytes) (b : Bool) : AccountCall S fun c => c.setContactApprovedMe S id b
  | contactBlocked (id : Bytes) (b : Bool) : AccountCall S fun c => c.setContactBlocked S id b
  | contactPriority (id : Bytes) (p : Int) : int32Ok p = true → AccountCall S fun c => c.setContactPriority S id p
  | contactNotify (id : Bytes) (n : Notify) : AccountCall S fun c => c.setContactNotify S id n
  | contactExpiry (id : Bytes) (m : ExpMode) (t : Int) : int64Ok t = true → AccountCall S fun c => c.setContactExpiry S id m t
  | contactCreated (id : Bytes) (t : Int) : int64Ok t = true → AccountCall S fun c => c.setContactCreated S id t
  | name (n : Bytes) : AccountCall S fun c => c.setName S n
  | pic (u k : Bytes) : AccountCall S fun c => c.setPic S u k
  | ntsPriority (i : Int) : int64Ok i = true → AccountCall S fun c => c.setNtsPriority S i
  | ntsExpiry (i : Int) : int64Ok i = true → AccountCall S fun c => c.setNtsExpiry S i
  | msgreqs (b : Option Bool) : AccountCall S fun c => c.setMsgreqs S b
  | group (g : Group) : g.base.inRange = true → AccountCall S fun c => c.setGroup S g
  | noGroup (id : Bytes) : AccountCall S fun c => unitOut (c.eraseGroup S id)
  | legacy (g : Legacy) : g.inRange = true → AccountCall S fun c => c.setLegacy S g
  | noLegacy (id : Bytes) : AccountCall S fun c => unitOut (c.eraseLegacy S id)
  | community (x : Comm) : x.info.inRange = true → AccountCall S fun c => c.setUComm S x
  | convo (now : Int) (k : ConvoKind) (id : Bytes) (x : Convo) : int64Ok x.lastRead = true →
      AccountCall S fun c => c.setConvo S now k id x
  | noConvo (k : ConvoKind) (id : Bytes) : AccountCall S fun c => unitOut (c.eraseConvo S k id)
  | commConvo (now : Int) (base room pk : Bytes) (x : Convo) : int64Ok x.lastRead = true →
      AccountCall S fun c => c.setComm S now base room pk x
  | communityObj (o : CommObj) (info : GroupBase) : info.inRange = true → AccountCall S fun c => c.setUObj S o info
  | commConvoObj (now : Int) (o : CommObj) (x : Convo) : int64Ok x.lastRead = true → AccountCall S fun c => c.setCObj S now o x
  | member (m : GMember) : m.inRange = true → AccountCall S fun c => c.setMember S m
  | noMember (id : Bytes) : AccountCall S fun c => unitOut (c.eraseGMember S id)
  | infoName (n : Bytes) : AccountCall S fun c => c.setInfoName S n
  | infoDescr (n : Bytes) : AccountCall S fun c => c.setInfoDescr S n
  | infoExpiry (i : Int) : int64Ok i = true → AccountCall S fun c => c.setInfoExpiry S i
  | infoCreated (i : Int) : int64Ok i = true → AccountCall S fun c => c.setInfoCreated S i
  | infoDeleteBefore (i : Int) : int64Ok i = true → AccountCall S fun c => c.setInfoDeleteBefore S i
  | infoDeleteAttach (i : Int) : int64Ok i = true → AccountCall S fun c => c.setInfoDeleteAttach S i
  | infoDestroy : AccountCall S fun c => c.destroyInfo S

theorem Planned.updField {S : Sys} (id : Bytes) (f : Contact → Contact)
    (h : ∀ r : Contact, r.inRange = true → (f r).inRange = true) : Planned S fun c => c.updContact S id fun r => .ok (f r) :=
  Planned.updContact fun r r' hr e => by rw [← Out.ok.inj e]; exact h r hr

theorem Planned.positive {S : Sys} {p : List Bytes} {i : Int} (hi : int64Ok i = true) : Planned S fun c => c.setPositive S p i := by
  have := Planned.write (S := S) (p := p) (wfO_pos hi)
  rwa [show (fun c : Client => c.write S p (fPos i)) = fun c => c.setPositive S p i from
    funext fun c => (setPositive_eq S c p i).symm] at this

theorem Planned.nonempty {S : Sys} (p : List Bytes) (n : Bytes) : Planned S fun c => c.setNonempty S p n := by
  have := Planned.write (S := S) (p := p) (wfO_nestr n)
  rwa [show (fun c : Client => c.write S p (fStr n)) = fun c => c.setNonempty S p n from
    funext fun c => (setNonempty_eq S c p n).symm] at this

theorem AccountCall.planned {S : Sys} (hS : S.Good) {f : Api} (h : AccountCall S f) : Planned S f := by
  have hentries : ∀ {P : List Bytes} {fs : List (Bytes × Option Val)}, (∀ f ∈ fs, wfO f.2 = true) →
      ∀ w ∈ entries P fs, wfO w.2 = true := by
    intro P fs h w hw
    obtain ⟨f, hf, rfl⟩ := List.mem_map.1 hw
    exact h f hf
  cases h with
  | field o ho => exact Planned.op ho
  | contact r hr =>
    unfold Client.setContact
    cases hid : idBytes r.id pre05 with
    | ok pk => exact Planned.writes (hentries (contact_fields_wf hr))
    | err e => exact Planned.fails fun c h => by cases h
    | hang => exact Planned.fails fun c h => by cases h
    | ub => exact Planned.fails fun c h => by cases h
  | noContact id => exact Planned.eraseRec (S := S) pathC pre05 id
  | contactName id n =>
    exact Planned.updContact fun r r' hr e => by split at e; cases e; rw [← Out.ok.inj e]; exact hr
  | contactNick id n =>
    exact Planned.updContact fun r r' hr e => by split at e; cases e; rw [← Out.ok.inj e]; exact hr
  | contactPic id u k => exact Planned.updField id (fun r => { r with url := u, key := k }) fun _ h => h
  | contactApproved id b => exact Planned.updField id (fun r => { r with approved := b }) fun _ h => h
  | contactApprovedMe id b => exact Planned.updField id (fun r => { r with approvedMe := b }) fun _ h => h
  | contactBlocked id b => exact Planned.updField id (fun r => { r with blocked := b }) fun _ h => h
  | contactPriority id p hp =>
    refine Planned.updField id (fun r => { r with priority := p }) fun r h => ?_
    simp only [Contact.inRange, Bool.and_eq_true] at h ⊢
    exact ⟨⟨⟨hp, h.1.1.2⟩, h.1.2⟩, h.2⟩
  | contactNotify id n => exact Planned.updField id (fun r => { r with notify := n }) fun _ h => h
  | contactExpiry id m t ht =>
    refine Planned.updField id (fun r => { r with exp := m, timer := if m = .none then 0 else t }) fun r h => ?_
    simp only [Contact.inRange, Bool.and_eq_true] at h ⊢
    exact ⟨⟨⟨h.1.1.1, h.1.1.2⟩, by split; rfl; exact ht⟩, h.2⟩
  | contactCreated id t ht =>
    refine Planned.updField id (fun r => { r with created := t }) fun r h => ?_
    simp only [Contact.inRange, Bool.and_eq_true] at h ⊢
    exact ⟨⟨⟨h.1.1.1, h.1.1.2⟩, h.1.2⟩, ht⟩
  | name n => exact Planned.nonempty _ _
  | member m hm => exact Planned.setRec fun _ => gmember_fields_wf hm
  | noMember id => exact Planned.eraseRec _ _ _
  | infoName n => exact Planned.nonempty _ _
  | infoDescr n => exact Planned.nonempty _ _
  | infoExpiry i hi => exact Planned.positive hi
  | infoCreated i hi => exact Planned.positive hi
  | infoDeleteBefore i hi => exact Planned.positive hi
  | infoDeleteAttach i hi => exact Planned.positive hi
  | infoDestroy =>
    have := Planned.write (S := S) (p := [[33]]) (wfO_flag true)
    rwa [show (fun c : Client => c.write S [[33]] (fFlag true)) = fun c => c.destroyInfo S from
      funext fun c => (setFlag_eq S c [[33]] true).symm] at this
  | pic u k =>
    refine Planned.writes fun w hw => ?_
    rcases List.mem_cons.1 hw with rfl | hw
    · show wfO (if picOk u k = true then _ else _) = true
      split <;> rfl
    · rw [List.mem_singleton.1 hw]
      show wfO (if picOk u k = true then _ else _) = true
      split <;> rfl
  | ntsPriority i hi =>
    have := Planned.write (S := S) (p := [[43]]) (wfO_nonzero hi)
    rwa [show (fun c : Client => c.write S [[43]] (fNonzero i)) = fun c => c.setNtsPriority S i from
      funext fun c => (setNonzero_eq S c [[43]] i).symm] at this
  | ntsExpiry i hi => exact Planned.positive hi
  | msgreqs b =>
    refine Planned.write ?_
    rcases b with _ | _ | _ <;> rfl
  | group g hg => exact Planned.setRec fun pk => group_fields_wf hg pk
  | noGroup id => exact Planned.eraseRec _ _ _
  | legacy g hg => exact Planned.setRec fun _ => legacy_fields_wf hg
  | noLegacy id => exact Planned.eraseRec _ _ _
  | community x hx =>
    unfold Client.setUComm
    cases hb : canonUrl x.base with
    | ok b =>
      cases hr : canonRoom x.room with
      | ok r =>
        by_cases hl : x.pubkey.length = 32
        · simp only [if_pos hl]
          refine Planned.writes fun w hw => ?_
          rcases List.mem_cons.1 hw with rfl | hw
          · rfl
          · exact hentries (comm_fields_wf hx) w hw
        · simp only [if_neg hl]
          exact Planned.fails fun c h => by cases h
      | err e => exact Planned.fails fun c h => by cases h
      | hang => exact Planned.fails fun c h => by cases h
      | ub => exact Planned.fails fun c h => by cases h
    | err e => exact Planned.fails fun c h => by cases h
    | hang => exact Planned.fails fun c h => by cases h
    | ub => exact Planned.fails fun c h => by cases h
  | convo now k id x hx =>
    unfold Client.setConvo
    cases hid : idBytes id k.pre with
    | ok pk => exact Planned.setBase hx
    | err e => exact Planned.fails fun c h => by cases h
    | hang => exact Planned.fails fun c h => by cases h
    | ub => exact Planned.fails fun c h => by cases h
  | noConvo k id =>
    unfold Client.eraseConvo
    cases hid : idBytes id k.pre with
    | ok pk => exact Planned.eraseImpl _
    | err e => exact Planned.fails fun c h => by cases h
    | hang => exact Planned.fails fun c h => by cases h
    | ub => exact Planned.fails fun c h => by cases h
  | commConvo now base room pk x hx =>
    unfold Client.setComm
    cases hb : canonUrl base with
    | ok b =>
      cases hr : canonRoom room with
      | ok r =>
        by_cases hl : pk.length = 32
        · simp only [if_pos hl]
          exact Planned.andThen hS (Planned.write (v := some (.scalar (.str pk))) rfl) (Planned.setBase hx)
        · simp only [if_neg hl]
          exact Planned.fails fun c h => by cases h
      | err e => exact Planned.fails fun c h => by cases h
      | hang => exact Planned.fails fun c h => by cases h
      | ub => exact Planned.fails fun c h => by cases h
    | err e => exact Planned.fails fun c h => by cases h
    | hang => exact Planned.fails fun c h => by cases h
    | ub => exact Planned.fails fun c h => by cases h
  | communityObj o info hx =>
    refine Planned.writes fun w hw => ?_
    rcases List.mem_cons.1 hw with rfl | hw
    · rfl
    · exact hentries (comm_fields_wf (x := ⟨o.base, o.shown, o.pubkey, info⟩) hx) w hw
  | commConvoObj now o x hx =>
    exact Planned.andThen hS (Planned.write (v := some (.scalar (.str o.pubkey))) rfl) (Planned.setBase hx)

/-! ### Devices taking turns -/

/-- A turn of a device: it makes these calls, all of which succeed; in between and afterwards anything that leaves its content as it
is (pushes, confirmations, dumps, changes of keys). -/
inductive Sitting (S : Sys) (W : Bytes → Prop) (c : Client) : List Api → Client → Prop
  | start : Sitting S W c [] c
  | call {fs : List Api} {c' : Client} {f : Api} : Sitting S W c fs c' → AccountCall S f → (f c').2 = .ok () →
      W ((f c').1.plain S) → Sitting S W c (fs ++ [f]) (f c').1
  | other {fs : List Api} {c' c'' : Client} : Sitting S W c fs c' → LocalStep S c' c'' → c''.content = c'.content → W (c''.plain S) →
      Sitting S W c fs c''

/-- What the devices published, taking turns, and all calls they made, in order: each device starts its turn when it was given a
version that is the newest of all, and publishes at its end. -/
inductive Sittings (S : Sys) (W : Bytes → Prop) : (Client → Prop) → List Api → Prop
  | none : Sittings S W (fun _ => False) []
  | take {V : Client → Prop} {fs turn : List Api} {l : List Bytes} {c w : Client} : Sittings S W V fs → Follower S W V l c →
      (∀ v, V v → ∃ b ∈ l, ∃ m, parseMsg S.env false b = .ok m ∧ v.seqno ≤ m.seqno) →
      Sitting S W c turn w → w.st ≠ .dirty → w.seqno ≠ 0 → int64Ok (w.seqno + S.env.lag) = true →
      Sittings S W (fun v => V v ∨ v = w) (fs ++ turn)

/-- One device makes all these calls itself, and all of them succeed. -/
inductive Alone (S : Sys) : List Api → Client → Prop
  | none : Alone S [] (Client.new S)
  | call {fs : List Api} {s : Client} {f : Api} : Alone S fs s → (f s).2 = .ok () → Alone S (fs ++ [f]) (f s).1

/-- what is kept along the way -/
structure Shadow (S : Sys) (fs : List Api) (d : Dict) (s : Client) : Prop where
  alone : Alone S fs s
  reach : Reach S s
  fresh : s.st = .dirty ∨ s.seqno = 0
  same : s.content = d

/-- A call that succeeds on an object with that content succeeds on the one device and makes the same of the content. -/
theorem Planned.shadow {S : Sys} (hS : S.Good) (hro : S.env.readonly = false) {f : Api} (hf : Planned S f) {c : Client}
    (hi : CInv S c) (hok : (f c).2 = .ok ()) :
    ((f c).1 = c ∨ LocalStep S c (f c).1) ∧
    ∀ {fs : List Api} {s : Client}, Shadow S fs c.content s → Shadow S (fs ++ [f]) (f c).1.content (f s).1 := by
  obtain ⟨plan, hl, hp⟩ := hf
  have hpc := hp c hi
  cases hx : plan c.content with
  | none => rw [hx] at hpc; exact absurd hok hpc
  | some ops =>
    rw [hx] at hpc
    have hlo := hl _ ops (pruneD_typed _ hi.wf.data) hx
    have hr : runSeq S c ops = ((f c).1, .ok ()) := by rw [← hpc, ← hok]
    obtain ⟨h1, _, h3⟩ := runSeq_done hS ops hi hlo hr
    refine ⟨?_, fun {fs s} hs => ?_⟩
    · rcases h3 with h3 | ⟨d, hd, h3⟩
      · exact .inl h3
      · have := LocalStep.edit (S := S) c d hd (by rw [h3]; rfl)
        rw [h3] at this
        exact .inr this
    · have hps := hp s (hs.reach.inv hS)
      rw [hs.same, hx] at hps
      obtain ⟨s', h4, h5⟩ := runSeq_ok hS hro ops (hs.reach.inv hS) hlo hs.fresh
      obtain ⟨k1, _, k2⟩ := runSeq_done hS ops (hs.reach.inv hS) hlo h4
      have k2 : Reach S s' := by
        rcases k2 with k2 | ⟨d, hd, k2⟩
        · rw [k2]; exact hs.reach
        · have := Reach.step hs.reach (Step.edit s d hd (by rw [k2]; rfl))
          rw [k2] at this
          exact this
      have he : f s = (s', .ok ()) := Eq.trans hps h4
      have ha := Alone.call (f := f) hs.alone (by rw [he])
      rw [he] at ha ⊢
      exact ⟨ha, k2, h5, by rw [k1, h1, hs.same]⟩

theorem Sitting.done {S : Sys} (hS : S.Good) (hro : S.env.readonly = false) {W : Bytes → Prop} (hW : Collisionless S W) {c w : Client}
    (hc : Node S W c) {turn : List Api} (h : Sitting S W c turn w) :
    Onward S W c w ∧ ∀ {fs : List Api} {s : Client}, Shadow S fs c.content s → ∃ s', Shadow S (fs ++ turn) w.content s' := by
  induction h with
  | start => exact ⟨.start, fun {fs s} hs => ⟨s, by rw [List.append_nil]; exact hs⟩⟩
  | @call turn c' f _ hf hok hw ih =>
    obtain ⟨h1, h2⟩ := ih
    have hi := (((h1.node hc).peer hW).inv hS hro).reach.inv hS
    obtain ⟨h3, h4⟩ := (hf.planned hS).shadow hS hro hi hok
    refine ⟨?_, fun {fs s} hs => ?_⟩
    · rcases h3 with h3 | h3
      · rw [h3]; exact h1
      · exact .call h1 h3 hw
    · obtain ⟨s1, hs1⟩ := h2 hs
      have := h4 hs1
      rw [List.append_assoc] at this
      exact ⟨_, this⟩
  | other _ hs hc2 hw ih =>
    obtain ⟨h1, h2⟩ := ih
    exact ⟨.call h1 hs hw, fun hs => by rw [hc2]; exact h2 hs⟩

theorem sittings_inv {S : Sys} (hS : S.Good) (hro : S.env.readonly = false) {W : Bytes → Prop} (hW : Collisionless S W)
    {V : Client → Prop} {fs : List Api} (h : Sittings S W V fs) :
    Turns S W V ∧ (fs = [] ∨ ∃ v, V v) ∧
    ∃ d, (∀ v, V v → (∀ u, V u → u.seqno ≤ v.seqno) → v.content = d) ∧ ∃ s, Shadow S fs d s := by
  induction h with
  | none =>
    refine ⟨.none, .inl rfl, [], fun _ h => h.elim, Client.new S, .none, Reach.new, .inr rfl, rfl⟩
  | @take V fs turn l c w _ hc hnew ht hd h0 hr ih =>
    obtain ⟨hT, hne, d, hcon, s, hs⟩ := ih
    have hV := turns_in_turn hS hro hW hT
    have hf := turn_follows hS hro hW hV hc
    obtain ⟨hon, hsh⟩ := ht.done hS hro hW hf.node
    have hw : Node S W w := hon.node hf.node
    have hcc : ∃ s, Shadow S fs c.content s := by
      rcases hf.holds with ⟨_, h2, h3⟩ | ⟨_, v, hv, he⟩
      · rcases hne with hne | ⟨v, hv⟩
        · rw [h2, hne]
          exact ⟨Client.new S, .none, Reach.new, .inr rfl, rfl⟩
        · obtain ⟨b, hb, m, hm, _⟩ := hnew v hv
          exact absurd hm (h3 b hb m)
      · obtain ⟨e1, e2⟩ := same_plain hS hro hW hf.node (hV.node v hv) he
        rw [e1, hcon v hv fun u hu => ?_]
        · exact ⟨s, hs⟩
        · obtain ⟨b, hb, m, hm, hle⟩ := hnew u hu
          rw [← e2]
          exact le_trans hle (hf.newest b hb m hm)
    obtain ⟨s1, hs1⟩ := hcc
    refine ⟨.take hT hc hnew hon hd h0 hr, .inr ⟨w, .inr rfl⟩, w.content, ?_, hsh hs1⟩
    intro v hv hmax
    rcases hv with hv | hv
    · rcases turn_newest hS hro hW hT hc hnew hon hv with h1 | h1
      · exact ((same_plain hS hro hW hw (hV.node v hv) h1).1).symm
      · exact absurd (hmax w (.inr rfl)) (not_le_of_gt h1)
    · rw [hv]

/-! ## C157 -/

/-- C157.  One device could have made all calls of all devices itself, all of them succeed, and the newest version has the content
it then has. -/
theorem calls_as_one {S : Sys} (hS : S.Good) (hro : S.env.readonly = false) {W : Bytes → Prop} (hW : Collisionless S W)
    {V : Client → Prop} {fs : List Api} (h : Sittings S W V fs) :
    ∃ s, Alone S fs s ∧ Reach S s ∧ (∀ v, V v → (∀ u, V u → u.seqno ≤ v.seqno) → v.content = s.content) ∧
      ∀ l c v, Follower S W V l c → V v → v.plain S ∈ l → (∀ u, V u → u.seqno ≤ v.seqno) →
        c.content = s.content ∧ Reach S c ∧ c.needsPush = false := by
  obtain ⟨hT, _, d, h1, s, h2⟩ := sittings_inv hS hro hW h
  refine ⟨s, h2.alone, h2.reach, fun v hv hm => (h1 v hv hm).trans h2.same.symm, fun l c v hf hv hin hm => ?_⟩
  obtain ⟨k1, k2, _⟩ := turns_settle hS hro hW hT hf hv hin hm
  have hn := (turn_follows hS hro hW (turns_in_turn hS hro hW hT) hf).node
  exact ⟨k2.trans ((h1 v hv hm).trans h2.same.symm), ((hn.peer hW).inv hS hro).reach, k1⟩

/-- the one device is determined by the calls -/
theorem Alone.unique {S : Sys} {fs : List Api} {s s' : Client} (h : Alone S fs s) (h' : Alone S fs s') : s = s' := by
  induction h generalizing s' with
  | none =>
    generalize hx : ([] : List Api) = x at h'
    cases h' with
    | none => rfl
    | call _ _ => simp at hx
  | @call fs s f _ _ ih =>
    generalize hx : fs ++ [f] = x at h'
    cases h' with
    | none => simp at hx
    | call h2 _ =>
      obtain ⟨e1, e2⟩ := List.append_inj' hx rfl
      rw [← e1] at h2
      rw [ih h2, (List.cons.inj e2).1]

theorem strOf_pruneO (o : Option Val) : strOf (pruneO o) = strOf o := by
  cases o with
  | none => rfl
  | some v =>
    cases v with
    | scalar x => rfl
    | set s =>
      show strOf (if (Val.set s).emptyVal = true then none else some (.set s)) = none
      split <;> rfl
    | dict e =>
      rw [pruneO_dict]
      split <;> rfl

/-- C157.  Objects with the same content show the same contacts, profile and conversations when asked for them by id. -/
theorem same_content_reads {S : Sys} (hS : S.Good) {a b : Client} (ha : Reach S a) (hb : Reach S b) (h : a.content = b.content) :
    (∀ id, a.getOrConstruct id = b.getOrConstruct id) ∧ a.getName = b.getName ∧ a.getPic = b.getPic ∧
    a.getNtsPriority = b.getNtsPriority ∧ a.getNtsExpiry = b.getNtsExpiry ∧ a.getMsgreqs = b.getMsgreqs ∧
    ∀ p, intOf (a.get p) = intOf (b.get p) ∧ strOf (a.get p) = strOf (b.get p) := by
  have hia := ha.inv hS
  have hib := hb.inv hS
  have hp : ∀ p, intOf (a.get p) = intOf (b.get p) ∧ strOf (a.get p) = strOf (b.get p) := by
    intro p
    have e : pruneO (a.get p) = pruneO (b.get p) := by rw [← viewOf_get hia, ← viewOf_get hib, h]
    exact ⟨by rw [← intOf_pruneO (a.get p), e, intOf_pruneO], by rw [← strOf_pruneO (a.get p), e, strOf_pruneO]⟩
  refine ⟨fun id => by rw [← viewOf_contact hia, ← viewOf_contact hib, h], ?_, ?_, ?_, ?_, ?_, hp⟩
  · unfold Client.getName Client.strAt; rw [(hp _).2]
  · unfold Client.getPic Client.strAt; rw [(hp _).2, (hp _).2]
  · unfold Client.getNtsPriority Client.intAt; rw [(hp _).1]
  · unfold Client.getNtsExpiry Client.intAt; rw [(hp _).1]
  · unfold Client.getMsgreqs Client.intAt; rw [(hp _).1]

/-- C157.  Objects with the same content and nothing unpublished show the same of everything, lists and sizes included. -/
theorem same_content_shows {S : Sys} (hS : S.Good) {a b : Client} (ha : Reach S a) (hb : Reach S b) (h : a.content = b.content)
    (hda : a.st ≠ .dirty) (hdb : b.st ≠ .dirty) (pub : Bytes → Bytes) :
    a.contacts = b.contacts ∧ (∀ id, a.getContact id = b.getContact id) ∧ a.contactsSize = b.contactsSize ∧
    a.allGroups pub = b.allGroups pub ∧ (∀ base room, a.getUComm base room = b.getUComm base room) ∧
    (∀ id, a.getGroup pub id = b.getGroup pub id) ∧ (∀ id, a.getLegacy id = b.getLegacy id) ∧
    (∀ k, a.convos k = b.convos k) ∧ a.comms = b.comms ∧ a.members = b.members ∧
    (∀ id, a.getMember id = b.getMember id) ∧ ∀ p, a.get p = b.get p := by
  have hd : a.conf.m.data = b.conf.m.data := by
    have h1 : a.content = a.conf.m.data := pruneD_of_wf (ha.neat hS hda)
    have h2 : b.content = b.conf.m.data := pruneD_of_wf (hb.neat hS hdb)
    rw [← h1, ← h2]; exact h
  have hg : ∀ p, a.get p = b.get p := fun p => by unfold Client.get; rw [hd]
  have ht : ∀ p, a.table p = b.table p := fun p => by unfold Client.table; rw [hg]
  have hr : ∀ {R : Type} P x (L : Bytes → Dict → R), a.recs P x L = b.recs P x L := fun P x L => by
    unfold Client.recs; rw [ht]
  refine ⟨?_, ?_, ?_, ?_, ?_, ?_, ?_, ?_, ?_, ?_, ?_, hg⟩
  · unfold Client.contacts; rw [ht]
  · intro id; unfold Client.getContact; simp only [hg]
  · unfold Client.contactsSize; rw [ht]
  · unfold Client.allGroups Client.groups Client.legacies Client.ucomms; simp only [ht, hr]
  · intro base room; unfold Client.getUComm Client.serverKey; simp only [hg]
  · intro id; unfold Client.getGroup Client.getRec; simp only [hg]
  · intro id; unfold Client.getLegacy Client.getRec; simp only [hg]
  · intro k; unfold Client.convos; rw [ht]
  · unfold Client.comms; rw [ht]
  · unfold Client.members; rw [ht]
  · intro id; unfold Client.getMember Client.getRec; simp only [hg]

/-! ### A concrete case: one device sets a priority and stores a contact; another one takes that over and changes the
priority; the first takes that over -/

def exFriend : Contact := { id := exId, name := [66] }

def exSaveCall : Api := fun c => c.setContact exSys exFriend
def exPriorityCall : Api := fun c => c.setNtsPriority exSys 5
def exPriority2Call : Api := fun c => c.setNtsPriority exSys 6

theorem exCalls_account : AccountCall exSys exPriorityCall ∧ AccountCall exSys exSaveCall ∧ AccountCall exSys exPriority2Call :=
  ⟨.ntsPriority _ (by decide +kernel), .contact _ (by decide +kernel), .ntsPriority _ (by decide +kernel)⟩

def exH1 : Client := (exPriorityCall exC0).1
def exH2 : Client := (exSaveCall exH1).1
def exH3 : Client := ((exH2.push exSys).1).confirm 1 [104]
def exJ1 : Client := (exC0.merge exSys [([104], pushedMsg exSys exH3)]).1
def exJ2 : Client := (exPriority2Call exJ1).1
def exJ3 : Client := (exJ2.push exSys).1
def exH4 : Client := (exH3.merge exSys [([105], pushedMsg exSys exJ3)]).1

def exWorld3 : Bytes → Prop := fun b => b ∈ [(Client.new exSys).plain exSys, exH1.plain exSys, exH2.plain exSys, exJ2.plain exSys]

theorem exWorld3_free : Collisionless exSys exWorld3 := by
  have : ∀ a ∈ [(Client.new exSys).plain exSys, exH1.plain exSys, exH2.plain exSys, exJ2.plain exSys],
      ∀ b ∈ [(Client.new exSys).plain exSys, exH1.plain exSys, exH2.plain exSys, exJ2.plain exSys],
      exSys.env.H a = exSys.env.H b → a = b := by decide +kernel
  exact fun a b ha hb => this a ha b hb

theorem inWorld3 {b : Bytes} (h : [(Client.new exSys).plain exSys, exH1.plain exSys, exH2.plain exSys,
    exJ2.plain exSys].contains b = true) : exWorld3 b := by
  unfold exWorld3; rwa [List.contains_iff_mem] at h

def exQ1 : Client → Prop := fun v => False ∨ v = exH3
def exQ2 : Client → Prop := fun v => exQ1 v ∨ v = exJ3

theorem exC0_follower3 (V : Client → Prop) : Follower exSys exWorld3 V [] exC0 :=
  .call (.new (inWorld3 (by decide +kernel))) (.addKey _ _ _ _ (by decide +kernel)) (by decide +kernel) (inWorld3 (by decide +kernel))

theorem exH3_sitting : Sitting exSys exWorld3 exC0 [exPriorityCall, exSaveCall] exH3 :=
  .other (.other (.call (fs := [exPriorityCall]) (f := exSaveCall) (.call (fs := []) (f := exPriorityCall) .start exCalls_account.1
      (by decide +kernel) (inWorld3 (by decide +kernel))) exCalls_account.2.1 (by decide +kernel) (inWorld3 (by decide +kernel)))
    (.push _) (by decide +kernel) (inWorld3 (by decide +kernel))) (.confirm _ 1 [104]) (by decide +kernel) (inWorld3 (by decide +kernel))

theorem exQ1_sittings : Sittings exSys exWorld3 exQ1 [exPriorityCall, exSaveCall] :=
  .take (fs := []) .none (exC0_follower3 _) (fun _ h => h.elim) exH3_sitting (by decide +kernel) (by decide +kernel) (by decide +kernel)

theorem exJ1_follower : Follower exSys exWorld3 exQ1 [exH3.plain exSys] exJ1 := by
  have hg : (gather exSys exC0.keys [([104], pushedMsg exSys exH3)]).map (·.2) = [exH3.plain exSys] := by decide +kernel
  have h := Follower.merge (exC0_follower3 exQ1) (from_one (W := exWorld3) (V := exQ1) hg (fun b hb => by
    rw [List.mem_singleton.1 hb]; exact ⟨exH3, .inr rfl, rfl, inWorld3 (by decide +kernel)⟩))
    (by decide +kernel) (inWorld3 (by decide +kernel))
  rw [hg] at h
  exact h

theorem exQ2_sittings : Sittings exSys exWorld3 exQ2 [exPriorityCall, exSaveCall, exPriority2Call] := by
  refine .take (fs := [exPriorityCall, exSaveCall]) (turn := [exPriority2Call]) exQ1_sittings exJ1_follower ?_
    (.other (.call (fs := []) (f := exPriority2Call) .start exCalls_account.2.2 (by decide +kernel) (inWorld3 (by decide +kernel)))
      (.push _) (by decide +kernel) (inWorld3 (by decide +kernel)))
    (by decide +kernel) (by decide +kernel) (by decide +kernel)
  rintro v (h | h)
  · exact h.elim
  · rw [h]
    have hf := (turn_follows exSys_good (by decide +kernel) exWorld3_free
          (turns_in_turn exSys_good (by decide +kernel) exWorld3_free .none) (exC0_follower3 _)).node
    have hn : Node exSys exWorld3 exH3 := (exH3_sitting.done exSys_good (by decide +kernel) exWorld3_free hf).1.node hf
    exact ⟨_, List.mem_singleton.2 rfl, _, ((hn.peer exWorld3_free).inv exSys_good (by decide +kernel)).read exSys_good
      (by decide +kernel), le_of_eq (ownMsg_seqno ..).symm⟩

theorem exH4_follower : Follower exSys exWorld3 exQ2 [exH3.plain exSys, exJ3.plain exSys] exH4 := by
  have hg : (gather exSys exH3.keys [([105], pushedMsg exSys exJ3)]).map (·.2) = [exJ3.plain exSys] := by decide +kernel
  have h := Follower.merge (Follower.wrote (S := exSys) (W := exWorld3) (V := exQ2) (v := exH3) (.inl (.inr rfl)) (by decide +kernel))
    (from_one (W := exWorld3) (V := exQ2) hg (fun b hb => by
      rw [List.mem_singleton.1 hb]; exact ⟨exJ3, .inr rfl, rfl, inWorld3 (by decide +kernel)⟩))
    (by decide +kernel) (inWorld3 (by decide +kernel))
  rw [hg] at h
  exact h

/-- what the theorem says of it -/
example : ∃ s, Alone exSys [exPriorityCall, exSaveCall, exPriority2Call] s ∧ exH4.content = s.content ∧
    exH4.getOrConstruct exId = s.getOrConstruct exId ∧ exH4.getNtsPriority = s.getNtsPriority := by
  obtain ⟨s, h1, h2, _, h4⟩ := calls_as_one exSys_good (by decide +kernel) exWorld3_free exQ2_sittings
  obtain ⟨k1, k2, _⟩ := h4 _ exH4 exJ3 exH4_follower (.inr rfl) (List.mem_cons_of_mem _ (List.mem_singleton.2 rfl)) (by
    rintro u ((h | h) | h)
    · exact h.elim
    · rw [h]; decide +kernel
    · rw [h])
  obtain ⟨r1, _, _, r2, _⟩ := same_content_reads exSys_good k2 h2 k1
  exact ⟨s, h1, k1, r1 exId, r2⟩

example : exH4.getContact exId = .ok (some exFriend) ∧ exH4.getNtsPriority = 6 ∧ exH4.seqno = 2 ∧
    exH3.content ≠ exH4.content := by
  refine ⟨by decide +kernel, by decide +kernel, by decide +kernel, by decide +kernel⟩

/-! ### Removing a community is not such a call -/

/-- "http://a.bc" -/
def exBUrlA : Bytes := [104, 116, 116, 112, 58, 47, 47, 97, 46, 98, 99]

def exTwoRooms : Client :=
  let base := exBUrlA
  let a := (exC0.setComm exSys exNow base [82] (List.replicate 32 1) ⟨0, true⟩).1
  let a := (a.setComm exSys exNow base [83] (List.replicate 32 1) ⟨0, true⟩).1
  (a.setComm exSys exNow base [83] (List.replicate 32 1) ⟨0, false⟩).1

def exTwoRooms2 : Client := ((exTwoRooms.push exSys).1).confirm 1 [104]

/-- C157.  What removing a community makes of the content does not depend on the content only: with the same content, the server
stays if the other room, of which nothing is left, was not published yet, and goes if it was. -/
theorem community_removal_depends : exTwoRooms.content = exTwoRooms2.content ∧
    (exTwoRooms.eraseComm exSys exBUrlA [82]).2 = .ok true ∧
    (exTwoRooms2.eraseComm exSys exBUrlA [82]).2 = .ok true ∧
    (exTwoRooms2.eraseComm exSys exBUrlA [82]).1.content = [] ∧
    (exTwoRooms.eraseComm exSys exBUrlA [82]).1.content ≠ [] := by
  refine ⟨by decide +kernel, by decide +kernel, by decide +kernel, by decide +kernel, by decide +kernel⟩

end Verif
