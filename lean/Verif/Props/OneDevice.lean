import Verif.Props.Turns
import Verif.Props.Client
import Verif.Proxy

/-!
# An account whose devices take turns behaves as one device (C156)
-/

namespace Verif

/-! ### What an edit makes of the content depends on the content only -/

/-- the pruned value, or none -/
def pruneO (o : Option Val) : Option Val := o.bind fun v => if v.prune.emptyVal then none else some v.prune

theorem pruneD_ext {a b : Dict} (ha : typedD a = true) (hb : typedD b = true)
    (h : ∀ k, pruneO (mget k a) = pruneO (mget k b)) : pruneD a = pruneD b := by
  refine map_ext (typedD_sorted (pruneD_typed a ha)) (typedD_sorted (pruneD_typed b hb)) fun k => ?_
  rw [mget_pruneD (typedD_sorted ha), mget_pruneD (typedD_sorted hb)]
  exact h k

theorem pruneD_idem {d : Dict} (hd : typedD d = true) : pruneD (pruneD d) = pruneD d := pruneD_of_wf (pruneD_wf hd)

theorem mget_prune {d : Dict} (hd : typedD d = true) (k : Bytes) : mget k (pruneD d) = pruneO (mget k d) :=
  mget_pruneD (typedD_sorted hd) k

theorem pruneO_pruneO {d : Dict} (hd : typedD d = true) (k : Bytes) : pruneO (mget k (pruneD d)) = pruneO (mget k d) := by
  have h := mget_prune (pruneD_typed d hd) k
  rw [pruneD_idem hd, mget_prune hd] at h
  rw [mget_prune hd]; exact h.symm

theorem pruneO_dict (e : Dict) : pruneO (some (Val.dict e)) = if pruneD e = [] then none else some (Val.dict (pruneD e)) := by
  show (if (Val.dict (pruneD e)).emptyVal = true then none else some (Val.dict (pruneD e))) = _
  simp [Val.emptyVal]

theorem prune_putAt {v : Val} (hv : v.typed = true) : ∀ (p : List Bytes) {d : Dict}, typedD d = true →
    pruneD (putAt (pruneD d) v p) = pruneD (putAt d v p)
  | [], d, hd => pruneD_idem hd
  | [k], d, hd => by
    have hp := pruneD_typed d hd
    refine pruneD_ext (putAt_typed hv [k] hp) (putAt_typed hv [k] hd) fun x => ?_
    show pruneO (mget x (mput k v _)) = pruneO (mget x (mput k v _))
    rw [mget_mput (typedD_sorted hp), mget_mput (typedD_sorted hd)]
    split
    · rfl
    · exact pruneO_pruneO hd x
  | k :: k2 :: ps, d, hd => by
    have hp := pruneD_typed d hd
    refine pruneD_ext (putAt_typed hv _ hp) (putAt_typed hv _ hd) fun x => ?_
    show pruneO (mget x (mput k _ _)) = pruneO (mget x (mput k _ _))
    rw [mget_mput (typedD_sorted hp), mget_mput (typedD_sorted hd)]
    split
    · rw [pruneO_dict, pruneO_dict, curDict_pruneD hd, prune_putAt hv (k2 :: ps) (curDict_mget_typed hd k)]
    · exact pruneO_pruneO hd x

theorem delAt_nil : ∀ p : List Bytes, delAt [] p = []
  | [] => rfl
  | [_] => rfl
  | _ :: _ :: _ => rfl

theorem prune_delAt : ∀ (p : List Bytes) {d : Dict}, typedD d = true → pruneD (delAt (pruneD d) p) = pruneD (delAt d p)
  | [], d, hd => pruneD_idem hd
  | [k], d, hd => by
    have hp := pruneD_typed d hd
    refine pruneD_ext (delAt_typed [k] hp) (delAt_typed [k] hd) fun x => ?_
    show pruneO (mget x (mdel k _)) = pruneO (mget x (mdel k _))
    rw [mget_mdel (typedD_sorted hp), mget_mdel (typedD_sorted hd)]
    split
    · rfl
    · exact pruneO_pruneO hd x
  | k :: k2 :: ps, d, hd => by
    have hp := pruneD_typed d hd
    have hm := mget_prune hd k
    cases hg : mget k d with
    | none =>
      rw [hg] at hm
      have e1 : delAt d (k :: k2 :: ps) = d := by unfold delAt; rw [hg]
      have e2 : delAt (pruneD d) (k :: k2 :: ps) = pruneD d := by unfold delAt; rw [hm]; rfl
      rw [e1, e2]; exact pruneD_idem hd
    | some w =>
      cases w with
      | scalar y =>
        rw [hg] at hm
        have e1 : delAt d (k :: k2 :: ps) = d := by unfold delAt; rw [hg]
        have e2 : delAt (pruneD d) (k :: k2 :: ps) = pruneD d := by unfold delAt; rw [hm]; rfl
        rw [e1, e2]; exact pruneD_idem hd
      | set s =>
        rw [hg] at hm
        have e1 : delAt d (k :: k2 :: ps) = d := by unfold delAt; rw [hg]
        have e2 : delAt (pruneD d) (k :: k2 :: ps) = pruneD d := by
          unfold delAt; rw [hm]
          show (match (if (Val.set s).emptyVal = true then none else some (Val.set s)) with
            | some (.dict e) => _ | _ => _) = _
          split <;> simp_all
        rw [e1, e2]; exact pruneD_idem hd
      | dict e =>
        have he : typedD e = true := by
          have := typed_of_mget hd hg
          simpa [Val.typed] using this
        have ih := prune_delAt (k2 :: ps) he
        have e1 : delAt d (k :: k2 :: ps) = mput k (.dict (delAt e (k2 :: ps))) d := by
          show (match mget k d with | some (.dict e) => _ | _ => _) = _
          rw [hg]
        rw [hg, pruneO_dict] at hm
        by_cases hn : pruneD e = []
        · rw [if_pos hn] at hm
          have e2 : delAt (pruneD d) (k :: k2 :: ps) = pruneD d := by
            show (match mget k (pruneD d) with | some (.dict e) => _ | _ => _) = _
            rw [hm]
          rw [hn, delAt_nil] at ih
          rw [e2]
          refine pruneD_ext hp (delAt_typed _ hd) fun x => ?_
          rw [e1, mget_mput (typedD_sorted hd), pruneO_pruneO hd]
          split
          · rename_i hx
            rw [pruneO_dict, ← ih, hx, hg, pruneO_dict, if_pos hn]; rfl
          · rfl
        · rw [if_neg hn] at hm
          have e2 : delAt (pruneD d) (k :: k2 :: ps) = mput k (.dict (delAt (pruneD e) (k2 :: ps))) (pruneD d) := by
            show (match mget k (pruneD d) with | some (.dict e) => _ | _ => _) = _
            rw [hm]
          refine pruneD_ext (delAt_typed _ hp) (delAt_typed _ hd) fun x => ?_
          rw [e1, e2, mget_mput (typedD_sorted hp), mget_mput (typedD_sorted hd)]
          split
          · rw [pruneO_dict, pruneO_dict, ih]
          · exact pruneO_pruneO hd x

theorem valAt_prune {d : Dict} (hd : typedD d = true) (p : List Bytes) : valAt (pruneD d) p = pruneO (valAt d p) :=
  valAt_pruneD p hd

theorem curSet_pruneO (o : Option Val) : curSet (pruneO o) = curSet o := by
  cases o with
  | none => rfl
  | some v =>
    cases v with
    | scalar x => rfl
    | set s =>
      show curSet (if (Val.set s).emptyVal = true then none else some (.set s)) = s
      split
      · rename_i h
        simp [Val.emptyVal] at h
        rw [h]; rfl
      · rfl
    | dict e =>
      rw [pruneO_dict]
      split <;> rfl

theorem prune_insAt {x : Scalar} (hx : x.ok = true) (p : List Bytes) {d : Dict} (hd : typedD d = true) :
    pruneD (insAt (pruneD d) p x) = pruneD (insAt d p x) := by
  unfold insAt
  rw [valAt_prune hd, curSet_pruneO]
  refine prune_putAt ?_ p hd
  obtain ⟨h1, h2⟩ := curSet_typed (c := valAt d p) fun w hw => valAt_typed p hd hw
  simp only [Val.typed, Bool.and_eq_true, decide_eq_true_eq]
  exact ⟨h1.sput x, sput_all hx h2⟩

/-- Putting what is there changes nothing, nor does putting an empty value where there is one that prunes to nothing. -/
theorem prune_putAt_same {v : Val} (hv : v.typed = true) : ∀ (p : List Bytes) {d : Dict}, typedD d = true →
    ∀ {w : Val}, valAt d p = some w → pruneO (some v) = pruneO (some w) → pruneD (putAt d v p) = pruneD d
  | [], d, _, w, h, _ => by cases h
  | [k], d, hd, w, h, hvw => by
    refine pruneD_ext (putAt_typed hv [k] hd) hd fun x => ?_
    show pruneO (mget x (mput k v _)) = _
    rw [mget_mput (typedD_sorted hd)]
    split
    · rename_i hx
      have h : mget k d = some w := h
      rw [hx, h, hvw]
    · rfl
  | k :: k2 :: ps, d, hd, w, h, hvw => by
    have h0 := h
    simp only [valAt] at h
    split at h
    · rename_i e he
      have hte : typedD e = true := by simpa [Val.typed] using typed_of_mget hd he
      refine pruneD_ext (putAt_typed hv _ hd) hd fun x => ?_
      show pruneO (mget x (mput k _ _)) = _
      rw [mget_mput (typedD_sorted hd)]
      split
      · rename_i hx
        rw [hx, he]
        show pruneO (some (.dict (putAt e v (k2 :: ps)))) = _
        rw [pruneO_dict, pruneO_dict, prune_putAt_same hv (k2 :: ps) hte h hvw]
      · rfl
    · cases h

theorem prune_remAt {x : Scalar} (p : List Bytes) {d : Dict} (hd : typedD d = true) :
    pruneD (remAt (pruneD d) p x) = pruneD (remAt d p x) := by
  have hp := pruneD_typed d hd
  have hv := valAt_prune hd p
  have gone : ∀ {w : Val} {s : List Scalar}, valAt d p = some w → pruneO (some w) = none → (Val.set s).typed = true →
      pruneO (some (.set s)) = none → pruneD (pruneD d) = pruneD (putAt d (.set s) p) := fun h1 h2 h3 h4 => by
    rw [prune_putAt_same h3 p hd h1 (h4.trans h2.symm), pruneD_idem hd]
  have st : ∀ s, valAt d p = some (.set s) → (Val.set (sdel x s)).typed = true := by
    intro s hs
    have := valAt_typed p hd hs
    simp only [Val.typed, Bool.and_eq_true, decide_eq_true_eq] at this ⊢
    refine ⟨this.1.sdel x, ?_⟩
    have h2 := this.2
    simp only [List.all_eq_true] at h2 ⊢
    exact fun y hy => h2 y ((sdel_sublist x s).subset hy)
  cases hg : valAt d p with
  | none =>
    rw [hg] at hv
    have e1 : remAt d p x = d := by unfold remAt; rw [hg]
    have e2 : remAt (pruneD d) p x = pruneD d := by unfold remAt; rw [hv]; rfl
    rw [e1, e2]; exact pruneD_idem hd
  | some w =>
    rw [hg] at hv
    cases w with
    | scalar y =>
      have e1 : remAt d p x = putAt d (.set []) p := by unfold remAt; rw [hg]
      have e2 : remAt (pruneD d) p x = putAt (pruneD d) (.set []) p := by unfold remAt; rw [hv]; rfl
      rw [e1, e2]; exact prune_putAt rfl p hd
    | dict e =>
      have e1 : remAt d p x = putAt d (.set []) p := by unfold remAt; rw [hg]
      rw [pruneO_dict] at hv
      by_cases hn : pruneD e = []
      · rw [if_pos hn] at hv
        have e2 : remAt (pruneD d) p x = pruneD d := by unfold remAt; rw [hv]
        rw [e1, e2]
        exact gone hg (by rw [pruneO_dict, if_pos hn]) rfl rfl
      · rw [if_neg hn] at hv
        have e2 : remAt (pruneD d) p x = putAt (pruneD d) (.set []) p := by unfold remAt; rw [hv]
        rw [e1, e2]; exact prune_putAt rfl p hd
    | set s =>
      have e1 : remAt d p x = putAt d (.set (sdel x s)) p := by unfold remAt; rw [hg]
      have e0 : pruneO (some (Val.set s)) = if s = [] then none else some (Val.set s) := by
        show (if (Val.set s).emptyVal = true then none else some (Val.set s)) = _
        simp [Val.emptyVal]
      by_cases hn : s = []
      · rw [e0, if_pos hn] at hv
        have e2 : remAt (pruneD d) p x = pruneD d := by unfold remAt; rw [hv]
        rw [e1, e2]
        refine gone hg (by rw [e0, if_pos hn]) (st s hg) ?_
        rw [hn]; rfl
      · rw [e0, if_neg hn] at hv
        have e2 : remAt (pruneD d) p x = putAt (pruneD d) (.set (sdel x s)) p := by unfold remAt; rw [hv]
        rw [e1, e2]; exact prune_putAt (st s hg) p hd

/-! ### The edits of fields -/

/-- The ways to edit a field of a config. -/
inductive PathOp where
  | assign (p : List Bytes) (v : Val)
  | erase (p : List Bytes)
  | insert (p : List Bytes) (x : Scalar)
  | remove (p : List Bytes) (x : Scalar)

/-- values that can be written -/
def PathOp.legal : PathOp → Prop
  | .assign _ v => v.typed = true
  | .insert _ x => x.ok = true
  | _ => True

def PathOp.run (S : Sys) (c : Client) : PathOp → Client × Out Unit
  | .assign p v => c.assign S p v
  | .erase p => c.erase S p
  | .insert p x => c.setInsert S p x
  | .remove p x => c.setErase S p x

/-- what the edit makes of the data -/
def PathOp.on (d : Dict) : PathOp → Dict
  | .assign p v => if v.emptyVal then delAt d p else putAt d v p
  | .erase p => delAt d p
  | .insert p x => insAt d p x
  | .remove p x => remAt d p x

theorem PathOp.on_typed {o : PathOp} (ho : o.legal) {d : Dict} (hd : typedD d = true) : typedD (o.on d) = true := by
  cases o with
  | assign p v =>
    show typedD (if v.emptyVal = true then delAt d p else putAt d v p) = true
    split
    · exact delAt_typed p hd
    · exact putAt_typed ho p hd
  | erase p => exact delAt_typed p hd
  | insert p x => exact insAt_typed hd p ho
  | remove p x => exact remAt_typed hd p x

theorem PathOp.on_prune {o : PathOp} (ho : o.legal) {d : Dict} (hd : typedD d = true) :
    pruneD (o.on (pruneD d)) = pruneD (o.on d) := by
  cases o with
  | assign p v =>
    show pruneD (if v.emptyVal = true then delAt (pruneD d) p else putAt (pruneD d) v p) =
      pruneD (if v.emptyVal = true then delAt d p else putAt d v p)
    split
    · exact prune_delAt p hd
    · exact prune_putAt ho p hd
  | erase p => exact prune_delAt p hd
  | insert p x => exact prune_insAt ho p hd
  | remove p x => exact prune_remAt p hd

theorem delAt_none : ∀ (p : List Bytes) {d : Dict}, typedD d = true → valAt d p = none → pruneD (delAt d p) = pruneD d
  | [], d, _, _ => rfl
  | [k], d, hd, h => by
    refine pruneD_ext (delAt_typed [k] hd) hd fun x => ?_
    show pruneO (mget x (mdel k _)) = _
    rw [mget_mdel (typedD_sorted hd)]
    split
    · rename_i hx
      have h : mget k d = none := h
      rw [hx, h]
    · rfl
  | k :: k2 :: ps, d, hd, h => by
    show pruneD (match mget k d with | some (.dict e) => mput k (.dict (delAt e (k2 :: ps))) d | _ => d) = _
    simp only [valAt] at h
    split
    · rename_i e he
      rw [he] at h
      have hte : typedD e = true := by simpa [Val.typed] using typed_of_mget hd he
      have hte2 := delAt_typed (k2 :: ps) hte
      refine pruneD_ext (typedD_mput hd k (by simpa [Val.typed] using hte2)) hd fun x => ?_
      rw [mget_mput (typedD_sorted hd)]
      split
      · rename_i hx
        rw [hx, he, pruneO_dict, pruneO_dict, delAt_none (k2 :: ps) hte h]
      · rfl
    · rfl

/-- what can happen: nothing, when nothing would change, or an edit -/
theorem PathOp.run_cases {S : Sys} {c : Client} (hd : typedD c.conf.m.data = true) {o : PathOp} (ho : o.legal) :
    (o.run S c = (c, .ok ()) ∧ pruneD (o.on c.conf.m.data) = c.content) ∨
    o.run S c = c.edit S (o.on (c.dirty S).1.conf.m.data) := by
  have er : ∀ p, (c.erase S p = (c, .ok ()) ∧ pruneD (delAt c.conf.m.data p) = c.content) ∨
      c.erase S p = c.edit S (delAt (c.dirty S).1.conf.m.data p) := by
    intro p
    unfold Client.erase
    split
    · rename_i h
      exact .inl ⟨rfl, delAt_none p hd h.2⟩
    · exact .inr rfl
  cases o with
  | assign p v =>
    show (c.assign S p v = _ ∧ pruneD (if v.emptyVal then delAt _ p else putAt _ v p) = _) ∨
      c.assign S p v = c.edit S (if v.emptyVal then delAt _ p else putAt _ v p)
    unfold Client.assign
    by_cases hv : v.emptyVal = true
    · simp only [if_pos hv]; exact er p
    · simp only [if_neg hv]
      split
      · rename_i h
        exact .inl ⟨rfl, prune_putAt_same ho p hd h.2 rfl⟩
      · exact .inr rfl
  | erase p => exact er p
  | insert p x =>
    show (c.setInsert S p x = _ ∧ pruneD (insAt _ p x) = _) ∨ c.setInsert S p x = c.edit S (insAt _ p x)
    unfold Client.setInsert
    split
    · rename_i h
      left
      refine ⟨rfl, ?_⟩
      have hm := h.2
      rw [memberAt_eq] at hm
      unfold insAt
      cases hg : valAt c.conf.m.data p with
      | none => rw [hg] at hm; simp [curSet] at hm
      | some w =>
        rw [hg] at hm
        cases w with
        | scalar y => simp [curSet] at hm
        | dict e => simp [curSet] at hm
        | set s =>
          have hx : x ∈ s := of_decide_eq_true hm
          have hty := valAt_typed p hd hg
          have hs : sput x s = s := by
            simp only [Val.typed, Bool.and_eq_true, decide_eq_true_eq] at hty
            refine set_ext (hty.1.sput x) hty.1 fun y => ?_
            rw [mem_sput]
            exact ⟨fun h => h.elim (fun h => by rw [h]; exact hx) id, .inr⟩
          show pruneD (putAt _ (.set (sput x s)) p) = _
          rw [hs]
          exact prune_putAt_same hty p hd hg rfl
    · exact .inr rfl
  | remove p x =>
    show (c.setErase S p x = _ ∧ pruneD (remAt _ p x) = _) ∨ c.setErase S p x = c.edit S (remAt _ p x)
    unfold Client.setErase
    cases hg : valAt c.conf.m.data p with
    | none => exact .inr rfl
    | some w =>
      cases w with
      | scalar y => exact .inr rfl
      | dict e => exact .inr rfl
      | set s =>
        simp only
        split
        · rename_i h
          left
          refine ⟨rfl, ?_⟩
          have hty := valAt_typed p hd hg
          have hs : sdel x s = s := by
            simp only [Val.typed, Bool.and_eq_true, decide_eq_true_eq] at hty
            refine set_ext (hty.1.sdel x) hty.1 fun y => ?_
            rw [mem_sdel hty.1]
            exact ⟨fun h => h.2, fun hy => ⟨fun e => h.2 (e ▸ hy), hy⟩⟩
          unfold remAt; rw [hg]
          show pruneD (putAt _ (.set (sdel x s)) p) = _
          rw [hs]
          exact prune_putAt_same hty p hd hg rfl
        · exact .inr rfl

theorem dirty_content {S : Sys} {c : Client} (hi : CInv S c) : (c.dirty S).1.content = c.content := by
  rcases dirty_fst (S := S) (c := c) with h1 | ⟨_, _, _, h1⟩
  · rw [h1]
  · rw [h1]
    show pruneD (c.conf.increment S.env).m.data = pruneD c.conf.m.data
    rcases incr_data S.env c.conf with h2 | h2 <;> rw [h2]
    exact pruneD_of_wf (pruneD_wf hi.wf.data)

/-- An edit of a field is nothing or an edit of the data, and what it makes of the content is a matter of the content. -/
theorem PathOp.run_content {S : Sys} (hS : S.Good) {c : Client} (hi : CInv S c) {o : PathOp} (ho : o.legal)
    (hok : (o.run S c).2 = .ok ()) :
    (o.run S c).1.content = pruneD (o.on c.content) ∧ ((o.run S c).1 = c ∨ LocalStep S c (o.run S c).1) := by
  have hd := hi.wf.data
  rcases PathOp.run_cases (S := S) hd ho with ⟨h1, h2⟩ | h1
  · rw [h1]
    refine ⟨?_, .inl rfl⟩
    show c.content = pruneD (o.on (pruneD c.conf.m.data))
    rw [PathOp.on_prune ho hd]; exact h2.symm
  · have hdd := (hi.dirty hS).wf.data
    rw [h1] at hok ⊢
    have hdo : (c.dirty S).2 = .ok () := by
      by_contra hne
      rw [edit_eq_err hne] at hok
      exact hne hok
    refine ⟨?_, .inr (.edit _ _ (PathOp.on_typed ho hdd) (by rw [hok]; rfl))⟩
    rw [edit_eq_ok hdo]
    show pruneD (o.on (c.dirty S).1.conf.m.data) = pruneD (o.on c.content)
    rw [← dirty_content (S := S) hi]
    exact (PathOp.on_prune ho hdd).symm

/-! ### One device doing all the edits -/

/-- One device makes these edits, one after the other. -/
def runAll (S : Sys) (ops : List PathOp) : Client := ops.foldl (fun c o => (o.run S c).1) (Client.new S)

theorem one_device {S : Sys} (hS : S.Good) (hro : S.env.readonly = false) (ops : List PathOp) (hl : ∀ o ∈ ops, o.legal) :
    (runAll S ops).content = ops.foldl (fun d o => pruneD (o.on d)) [] := by
  have key : ∀ (ops : List PathOp) (c : Client), (∀ o ∈ ops, o.legal) → CInv S c → (c.st = .dirty ∨ c.seqno = 0) →
      (ops.foldl (fun c o => (o.run S c).1) c).content = ops.foldl (fun d o => pruneD (o.on d)) c.content := by
    intro ops
    induction ops with
    | nil => intro c _ _ _; rfl
    | cons o t ih =>
      intro c hl hi hc
      have ho := hl o (List.mem_cons_self ..)
      have hok : (o.run S c).2 = .ok () ∧ CInv S (o.run S c).1 ∧ ((o.run S c).1.st = .dirty ∨ (o.run S c).1.seqno = 0) := by
        rcases PathOp.run_cases (S := S) hi.wf.data ho with ⟨h1, _⟩ | h1
        · rw [h1]; exact ⟨rfl, hi, hc⟩
        · have hdo : (c.dirty S).2 = .ok () := by
            unfold Client.dirty
            by_cases hd : c.st = .dirty
            · rw [if_pos hd, if_pos (hi.isMut hd)]
            · rw [if_neg hd, hro]
              have h0 : c.conf.m.seqno = 0 := hc.resolve_left hd
              rw [h0]
              rfl
          have hdd := (hi.dirty hS).wf.data
          rw [h1]
          refine ⟨by rw [edit_eq_ok hdo], hi.edit hS (PathOp.on_typed ho hdd), .inl ?_⟩
          rw [edit_eq_ok hdo]
          exact (dirty_ok hdo).1
      obtain ⟨h1, h2, h3⟩ := hok
      show (t.foldl _ (o.run S c).1).content = _
      rw [ih _ (fun o ho => hl o (List.mem_cons_of_mem _ ho)) h2 h3, (PathOp.run_content hS hi ho h1).1]
      rfl
  exact key ops _ hl ((Reach.new (S := S)).inv hS) (.inr rfl)

/-! ### Devices taking turns -/

/-- A turn of a device: it makes these edits, all of which succeed; in between and afterwards any calls that leave its content as
it is (pushes, confirmations, dumps, changes of keys). -/
inductive Turn (S : Sys) (W : Bytes → Prop) (c : Client) : List PathOp → Client → Prop
  | start : Turn S W c [] c
  | edit {ops : List PathOp} {c' : Client} {o : PathOp} : Turn S W c ops c' → o.legal → (o.run S c').2 = .ok () →
      W ((o.run S c').1.plain S) → Turn S W c (ops ++ [o]) (o.run S c').1
  | call {ops : List PathOp} {c' c'' : Client} : Turn S W c ops c' → LocalStep S c' c'' → c''.content = c'.content → W (c''.plain S) →
      Turn S W c ops c''

/-- What the devices published, taking turns, and all edits they made, in order: each device starts its turn when it was given a
version that is the newest of all, and publishes at its end. -/
inductive Played (S : Sys) (W : Bytes → Prop) : (Client → Prop) → List PathOp → Prop
  | none : Played S W (fun _ => False) []
  | take {V : Client → Prop} {ops turn : List PathOp} {l : List Bytes} {c w : Client} : Played S W V ops → Follower S W V l c →
      (∀ v, V v → ∃ b ∈ l, ∃ m, parseMsg S.env false b = .ok m ∧ v.seqno ≤ m.seqno) →
      Turn S W c turn w → w.st ≠ .dirty → w.seqno ≠ 0 → int64Ok (w.seqno + S.env.lag) = true →
      Played S W (fun v => V v ∨ v = w) (ops ++ turn)

theorem Turn.done {S : Sys} (hS : S.Good) (hro : S.env.readonly = false) {W : Bytes → Prop} (hW : Collisionless S W) {c w : Client}
    (hc : Node S W c) {ops : List PathOp} (h : Turn S W c ops w) :
    Onward S W c w ∧ (∀ o ∈ ops, o.legal) ∧ w.content = ops.foldl (fun d o => pruneD (o.on d)) c.content := by
  induction h with
  | start => exact ⟨.start, fun _ h => (by cases h), rfl⟩
  | @edit ops c' o _ ho hok hw ih =>
    obtain ⟨h1, h2, h3⟩ := ih
    have hi := (((h1.node hc).peer hW).inv hS hro).reach.inv hS
    obtain ⟨h4, h5⟩ := PathOp.run_content hS hi ho hok
    refine ⟨?_, ?_, ?_⟩
    · rcases h5 with h5 | h5
      · rw [h5]; exact h1
      · exact .call h1 h5 hw
    · intro x hx
      rcases List.mem_append.1 hx with hx | hx
      · exact h2 x hx
      · rw [List.mem_singleton.1 hx]; exact ho
    · rw [h4, h3, List.foldl_append]; rfl
  | call _ hs hc2 hw ih =>
    obtain ⟨h1, h2, h3⟩ := ih
    exact ⟨.call h1 hs hw, h2, hc2.trans h3⟩

theorem same_plain {S : Sys} (hS : S.Good) (hro : S.env.readonly = false) {W : Bytes → Prop} (hW : Collisionless S W) {a b : Client}
    (ha : Node S W a) (hb : Node S W b) (h : a.plain S = b.plain S) : a.content = b.content ∧ a.seqno = b.seqno := by
  have h1 := ((ha.peer hW).inv hS hro).read hS hro
  rw [h, ((hb.peer hW).inv hS hro).read hS hro] at h1
  have h1 := Out.ok.inj h1
  have e1 := congrArg Msg.seqno h1
  have e2 := congrArg Msg.data h1
  rw [ownMsg_seqno, ownMsg_seqno] at e1
  rw [ownMsg_data ((ha.peer hW).inv hS hro |>.reach.inv hS).wf, ownMsg_data ((hb.peer hW).inv hS hro |>.reach.inv hS).wf] at e2
  exact ⟨e2.symm, e1.symm⟩

theorem played_inv {S : Sys} (hS : S.Good) (hro : S.env.readonly = false) {W : Bytes → Prop} (hW : Collisionless S W)
    {V : Client → Prop} {ops : List PathOp} (h : Played S W V ops) :
    Turns S W V ∧ (∀ o ∈ ops, o.legal) ∧ (ops = [] ∨ ∃ v, V v) ∧
    ∀ v, V v → (∀ u, V u → u.seqno ≤ v.seqno) → v.content = ops.foldl (fun d o => pruneD (o.on d)) [] := by
  induction h with
  | none => exact ⟨.none, fun _ h => (by cases h), .inl rfl, fun _ h => h.elim⟩
  | @take V ops turn l c w _ hc hnew ht hd h0 hr ih =>
    obtain ⟨hT, hl, hne, hcon⟩ := ih
    have hV := turns_in_turn hS hro hW hT
    have hf := turn_follows hS hro hW hV hc
    obtain ⟨hon, hl2, hwc⟩ := ht.done hS hro hW hf.node
    have hw : Node S W w := hon.node hf.node
    have hcc : c.content = ops.foldl (fun d o => pruneD (o.on d)) [] := by
      rcases hf.holds with ⟨_, h2, h3⟩ | ⟨_, v, hv, he⟩
      · rcases hne with hne | ⟨v, hv⟩
        · rw [h2, hne]; rfl
        · obtain ⟨b, hb, m, hm, _⟩ := hnew v hv
          exact absurd hm (h3 b hb m)
      · obtain ⟨e1, e2⟩ := same_plain hS hro hW hf.node (hV.node v hv) he
        rw [e1]
        refine hcon v hv fun u hu => ?_
        obtain ⟨b, hb, m, hm, hle⟩ := hnew u hu
        rw [← e2]
        exact le_trans hle (hf.newest b hb m hm)
    have hwc2 : w.content = (ops ++ turn).foldl (fun d o => pruneD (o.on d)) [] := by
      rw [hwc, hcc, List.foldl_append]
    refine ⟨.take hT hc hnew hon hd h0 hr, ?_, .inr ⟨w, .inr rfl⟩, ?_⟩
    · intro o ho
      exact (List.mem_append.1 ho).elim (hl o) (hl2 o)
    · intro v hv hmax
      rcases hv with hv | hv
      · rcases turn_newest hS hro hW hT hc hnew hon hv with h1 | h1
        · rw [← (same_plain hS hro hW hw (hV.node v hv) h1).1]; exact hwc2
        · exact absurd (hmax w (.inr rfl)) (not_le_of_gt h1)
      · rw [hv]; exact hwc2

/-! ## C156 -/

/-- C156.  The newest version has exactly the content that one device would have that made all edits of all devices itself, one after
the other. -/
theorem turns_as_one {S : Sys} (hS : S.Good) (hro : S.env.readonly = false) {W : Bytes → Prop} (hW : Collisionless S W)
    {V : Client → Prop} {ops : List PathOp} (h : Played S W V ops) {v : Client} (hv : V v) (hmax : ∀ u, V u → u.seqno ≤ v.seqno) :
    v.content = (runAll S ops).content := by
  obtain ⟨_, hl, _, hc⟩ := played_inv hS hro hW h
  rw [one_device hS hro ops hl]
  exact hc v hv hmax

/-- C156.  So has every device that was given the newest version, whatever else it was given before or after; and it has nothing to
push. -/
theorem turns_as_one_everywhere {S : Sys} (hS : S.Good) (hro : S.env.readonly = false) {W : Bytes → Prop} (hW : Collisionless S W)
    {V : Client → Prop} {ops : List PathOp} (h : Played S W V ops) {l : List Bytes} {c v : Client} (hf : Follower S W V l c) (hv : V v)
    (hin : v.plain S ∈ l) (hmax : ∀ u, V u → u.seqno ≤ v.seqno) : c.content = (runAll S ops).content ∧ c.needsPush = false := by
  obtain ⟨hT, _⟩ := played_inv hS hro hW h
  obtain ⟨h1, h2, _⟩ := turns_settle hS hro hW hT hf hv hin hmax
  exact ⟨h2.trans (turns_as_one hS hro hW h hv hmax), h1⟩

/-- C156.  There is a newest version once something was published. -/
theorem turns_have_newest {S : Sys} (hS : S.Good) (hro : S.env.readonly = false) {W : Bytes → Prop} (hW : Collisionless S W)
    {V : Client → Prop} {ops : List PathOp} (h : Played S W V ops) : ops = [] ∨ ∃ v, V v ∧ ∀ u, V u → u.seqno ≤ v.seqno := by
  induction h with
  | none => exact .inl rfl
  | @take V ops turn l c w hp hc hnew ht hd h0 hr ih =>
    obtain ⟨hT, _⟩ := played_inv hS hro hW hp
    have hV := turns_in_turn hS hro hW hT
    have hf := turn_follows hS hro hW hV hc
    have hon := (ht.done hS hro hW hf.node).1
    right
    refine ⟨w, .inr rfl, ?_⟩
    rintro u (hu | hu)
    · rcases turn_newest hS hro hW hT hc hnew hon hu with h1 | h1
      · rw [(same_plain hS hro hW (hon.node hf.node) (hV.node u hu) h1).2]
      · exact le_of_lt h1
    · rw [hu]

/-! ### A concrete case: one device sets two fields, another one takes that over, removes one and sets a third; the first takes that
over -/

def exOa : PathOp := .assign [[97]] (.scalar (.int 5))
def exOb : PathOp := .insert [[98], [99]] (.str [1])
def exOc : PathOp := .erase [[97]]

def exG1 : Client := (exOa.run exSys exC0).1
def exG2 : Client := (exOb.run exSys exG1).1
def exG3 : Client := ((exG2.push exSys).1).confirm 1 [104]
def exK1 : Client := (exC0.merge exSys [([104], pushedMsg exSys exG3)]).1
def exK2 : Client := (exOc.run exSys exK1).1
def exK3 : Client := (exK2.push exSys).1
def exG4 : Client := (exG3.merge exSys [([105], pushedMsg exSys exK3)]).1

def exWorld2 : Bytes → Prop := fun b => b ∈ [(Client.new exSys).plain exSys, exG1.plain exSys, exG2.plain exSys, exK2.plain exSys]

theorem exWorld2_free : Collisionless exSys exWorld2 := by
  have : ∀ a ∈ [(Client.new exSys).plain exSys, exG1.plain exSys, exG2.plain exSys, exK2.plain exSys],
      ∀ b ∈ [(Client.new exSys).plain exSys, exG1.plain exSys, exG2.plain exSys, exK2.plain exSys],
      exSys.env.H a = exSys.env.H b → a = b := by decide +kernel
  exact fun a b ha hb => this a ha b hb

theorem inWorld2 {b : Bytes} (h : [(Client.new exSys).plain exSys, exG1.plain exSys, exG2.plain exSys,
    exK2.plain exSys].contains b = true) : exWorld2 b := by
  unfold exWorld2; rwa [List.contains_iff_mem] at h

def exP1 : Client → Prop := fun v => False ∨ v = exG3
def exP2 : Client → Prop := fun v => exP1 v ∨ v = exK3

theorem exC0_follower2 (V : Client → Prop) : Follower exSys exWorld2 V [] exC0 :=
  .call (.new (inWorld2 (by decide +kernel))) (.addKey _ _ _ _ (by decide +kernel)) (by decide +kernel) (inWorld2 (by decide +kernel))

theorem exOps_legal : exOa.legal ∧ exOb.legal ∧ exOc.legal := by
  refine ⟨?_, ?_, trivial⟩
  · show (Val.scalar (.int 5)).typed = true
    decide +kernel
  · show (Scalar.str [1]).ok = true
    decide +kernel

theorem exG3_turn : Turn exSys exWorld2 exC0 [exOa, exOb] exG3 :=
  .call (.call (.edit (ops := [exOa]) (.edit (ops := []) .start exOps_legal.1 (by decide +kernel) (inWorld2 (by decide +kernel)))
      exOps_legal.2.1 (by decide +kernel) (inWorld2 (by decide +kernel)))
    (.push _) (by decide +kernel) (inWorld2 (by decide +kernel))) (.confirm _ 1 [104]) (by decide +kernel) (inWorld2 (by decide +kernel))

theorem exP1_played : Played exSys exWorld2 exP1 [exOa, exOb] :=
  .take (ops := []) .none (exC0_follower2 _) (fun _ h => h.elim) exG3_turn (by decide +kernel) (by decide +kernel) (by decide +kernel)

theorem exK1_follower : Follower exSys exWorld2 exP1 [exG3.plain exSys] exK1 := by
  have hg : (gather exSys exC0.keys [([104], pushedMsg exSys exG3)]).map (·.2) = [exG3.plain exSys] := by decide +kernel
  have h := Follower.merge (exC0_follower2 exP1) (from_one (W := exWorld2) (V := exP1) hg (fun b hb => by
    rw [List.mem_singleton.1 hb]; exact ⟨exG3, .inr rfl, rfl, inWorld2 (by decide +kernel)⟩))
    (by decide +kernel) (inWorld2 (by decide +kernel))
  rw [hg] at h
  exact h

theorem exP2_played : Played exSys exWorld2 exP2 [exOa, exOb, exOc] := by
  refine .take (ops := [exOa, exOb]) (turn := [exOc]) exP1_played exK1_follower ?_
    (.call (.edit (ops := []) .start trivial (by decide +kernel) (inWorld2 (by decide +kernel)))
      (.push _) (by decide +kernel) (inWorld2 (by decide +kernel)))
    (by decide +kernel) (by decide +kernel) (by decide +kernel)
  rintro v (h | h)
  · exact h.elim
  · rw [h]
    have hn : Node exSys exWorld2 exG3 :=
      (exG3_turn.done exSys_good (by decide +kernel) exWorld2_free
        (turn_follows exSys_good (by decide +kernel) exWorld2_free
          (turns_in_turn exSys_good (by decide +kernel) exWorld2_free .none) (exC0_follower2 _)).node).1.node
        (turn_follows exSys_good (by decide +kernel) exWorld2_free
          (turns_in_turn exSys_good (by decide +kernel) exWorld2_free .none) (exC0_follower2 _)).node
    exact ⟨_, List.mem_singleton.2 rfl, _, ((hn.peer exWorld2_free).inv exSys_good (by decide +kernel)).read exSys_good
      (by decide +kernel), le_of_eq (ownMsg_seqno ..).symm⟩

theorem exG4_follower : Follower exSys exWorld2 exP2 [exG3.plain exSys, exK3.plain exSys] exG4 := by
  have hg : (gather exSys exG3.keys [([105], pushedMsg exSys exK3)]).map (·.2) = [exK3.plain exSys] := by decide +kernel
  have h := Follower.merge (Follower.wrote (S := exSys) (W := exWorld2) (V := exP2) (v := exG3) (.inl (.inr rfl)) (by decide +kernel))
    (from_one (W := exWorld2) (V := exP2) hg (fun b hb => by
      rw [List.mem_singleton.1 hb]; exact ⟨exK3, .inr rfl, rfl, inWorld2 (by decide +kernel)⟩))
    (by decide +kernel) (inWorld2 (by decide +kernel))
  rw [hg] at h
  exact h

/-- what the theorem says of it -/
example : exG4.content = (runAll exSys [exOa, exOb, exOc]).content ∧ exG4.needsPush = false :=
  turns_as_one_everywhere exSys_good (by decide +kernel) exWorld2_free exP2_played exG4_follower (.inr rfl)
    (List.mem_cons_of_mem _ (List.mem_singleton.2 rfl)) (by
      rintro u ((h | h) | h)
      · exact h.elim
      · rw [h]; decide +kernel
      · rw [h])

example : exG4.content = [([98], .dict [([99], .set [.str [1]])])] ∧ exG4.seqno = 2 ∧ exG3.content ≠ exG4.content := by decide +kernel

end Verif
