import Verif.Proxy
import Verif.ClientRestore
import Verif.Props.Client

/-!
# An object without unpublished edits holds canonical data

`push` and `merge` prune, so empty dicts and sets exist only while an object is dirty.
-/

namespace Verif

/-- The data is canonical (no empty containers) unless there are unpublished edits. -/
def Client.Neat (c : Client) : Prop := c.st ≠ .dirty → wfD c.conf.m.data = true

theorem refresh_data_wf {c : Conf} (h : ConfWF c) : wfD c.refresh.m.data = true := h.refresh_msg.data

theorem Client.Neat.dirty {S : Sys} {c : Client} (h : c.Neat) : (c.dirty S).1.Neat := by
  rcases dirty_fst (S := S) (c := c) with h1 | ⟨_, _, _, h1⟩
  · rw [h1]; exact h
  · rw [h1]; exact fun hh => absurd rfl hh

theorem Client.Neat.edit {S : Sys} {c : Client} (h : c.Neat) (d : Dict) : (c.edit S d).1.Neat := by
  by_cases hk : (c.dirty S).2 = .ok ()
  · rw [edit_eq_ok hk]
    exact fun hh => absurd (dirty_ok hk).1 hh
  · rw [edit_eq_err hk]; exact h.dirty

theorem Client.Neat.addKey {S : Sys} {c : Client} (h : c.Neat) (k : Bytes) (hi d : Bool) :
    (c.addKey S k hi d).1.Neat := by
  unfold Client.addKey
  split
  · exact h
  split
  · exact h
  split
  · exact h
  dsimp only
  have hr : (c.removeKey S k 1 false).1.Neat := by
    unfold Client.removeKey
    split
    · exact h
    · split
      · exact h
      · exact h
  cases hi
  · have h2 : ({ c with keys := c.keys ++ [k] } : Client).Neat := h
    simp only [Bool.false_eq_true, if_false]
    split
    · exact h2.dirty
    · exact h2
  · have h2 : ({ (c.removeKey S k 1 false).1 with keys := k :: (c.removeKey S k 1 false).1.keys } :
        Client).Neat := hr
    simp only [if_true]
    split
    · exact h2.dirty
    · exact h2

theorem newConf_data (S : Sys) (c : Client) (R : Msg) : (c.newConf S R).m.data = R.data := by
  unfold Client.newConf mutFromMerge incrementImpl
  split
  · split <;> rfl
  · rfl

theorem Client.Neat.step {S : Sys} (hS : S.Good) {c c' : Client} (hi : CInv S c) (h : c.Neat)
    (hs : Step S c c') : c'.Neat := by
  have ht : c.touched.Neat := fun _ => refresh_data_wf hi.wf
  cases hs with
  | edit d => exact h.edit d
  | merge configs hf hn hsafe =>
    unfold Client.merge
    split
    · exact h
    unfold Client.mergeCore
    dsimp only
    have hm : ({ c with conf := if c.hasMine then c.conf.refresh else c.conf } : Client).Neat := by
      cases c.hasMine
      · exact h
      · exact ht
    split
    · rename_i R bad hR
      have hw := mergeMsgs_wf hS.sane hR
      have hnoted : (c.noted (c.allConfs S.env (gather S c.keys configs)) R bad).Neat := hm
      unfold Client.absorb
      dsimp only
      split
      · exact hnoted
      split
      · have hd : (c.mergedConf S R).m.data = R.data := by
          unfold Client.mergedConf
          split
          · exact newConf_data S c R
          · rw [retain_data]; exact newConf_data S c R
        have : ∀ x : Client, x.conf.m.data = R.data → x.Neat := fun x hx _ => by
          rw [hx]; exact hw.pruned rfl
        split
        · exact this _ hd
        · exact fun hh => absurd rfl hh
      split
      · exact hnoted
      split
      · intro _
        show wfD (c.newConf S R).m.data = true
        rw [newConf_data]; exact hw.pruned rfl
      · exact hnoted
    · exact hm
    · exact h
    · exact h
  | push =>
    unfold Client.push
    split
    · exact h
    split
    · split
      · exact ht
      · dsimp only
        split
        · rename_i hd
          intro _
          show wfD (c.touched.setState .waiting).conf.m.data = true
          rw [setState_conf]; exact refresh_data_wf hi.wf
        · exact ht
    · exact ht
    · exact h
    · exact h
  | confirm s x =>
    unfold Client.confirm
    split
    · rename_i hw
      intro _
      show wfD (c.setState .clean).conf.m.data = true
      rw [setState_conf]
      exact h (by rw [hw.1]; exact fun h => CState.noConfusion h)
    · exact h
  | dump => exact ht
  | addKey k hi d => exact h.addKey k hi d
  | removeKey k n d =>
    unfold Client.removeKey
    split
    · exact h
    split
    · exact h
    dsimp only
    have h1 : ({ c with keys := c.keys.take n ++ (c.keys.drop n).filter (· ≠ k) } : Client).Neat := h
    have h2 := Client.Neat.dirty (S := S) h1
    split
    · revert h2
      generalize Client.dirty S _ = x
      obtain ⟨a, b⟩ := x
      intro h2
      cases b <;> exact h2
    · exact h1
  | clearKeys d =>
    unfold Client.clearKeys
    dsimp only
    have h1 : ({ c with keys := [] } : Client).Neat := h
    split
    · exact h1.dirty
    · exact h1
  | replaceKeys ks d =>
    unfold Client.replaceKeys
    split
    · split
      · exact h
      · unfold Client.clearKeys
        dsimp only
        have h1 : ({ c with keys := [] } : Client).Neat := h
        split
        · exact h1.dirty
        · exact h1
    · rename_i k kt _
      split
      · exact h
      · dsimp only
        have : ∀ (l : List Bytes) (x : Client), x.Neat →
            (l.foldl (fun c k => (c.addKey S k false false).1) x).Neat := by
          intro l
          induction l with
          | nil => exact fun x hx => hx
          | cons a l ih => exact fun x hx => ih _ (hx.addKey a false false)
        have h1 : ({ c with keys := [] } : Client).Neat := h
        have h2 := this (k :: kt) _ h1
        split
        · exact Client.Neat.dirty h2
        · exact h2

theorem Reach.neat {S : Sys} (hS : S.Good) {c : Client} (h : Reach S c) : c.Neat := by
  induction h with
  | new => exact fun _ => rfl
  | step hr hs ih => exact (ih hS).step hS (hr.inv hS) hs
  | promote _ hro ih => exact ih (hS.demote hro)
  | @revive S c c' f hr hro hres ih =>
    have hi : CInv (S.as (some f)) c := (hr.inv (hS.demote hro)).promote
    rw [← dumpBytes_as] at hres
    obtain ⟨rfl, _⟩ := restore_inv hS hi List.nodup_nil hres
    intro hd
    have hd' : c.st ≠ .dirty := hd
    unfold Client.reloaded
    simp only [hd', if_false]
    exact refresh_data_wf hi.wf
  | @restore S c c' ord hr hp hres ih =>
    have hord : ord.Nodup := by
      rw [hp.nodup_iff]
      split
      · exact List.nodup_nil
      · exact (hr.inv hS).old
    obtain ⟨rfl, _⟩ := restore_inv hS (hr.inv hS) hord hres
    intro hd
    have hd' : c.st ≠ .dirty := hd
    unfold Client.reloaded
    simp only [hd', if_false]
    exact refresh_data_wf (hr.inv hS).wf

/-- Making an object dirty does not change its data. -/
theorem dirty_data {S : Sys} {c : Client} (hi : CInv S c) (h : c.Neat) :
    (c.dirty S).1.conf.m.data = c.conf.m.data := by
  rcases dirty_fst (S := S) (c := c) with h1 | ⟨hd, _, _, h1⟩
  · rw [h1]
  · rw [h1]
    show (c.conf.increment S.env).m.data = c.conf.m.data
    have hw := h hd
    obtain ⟨⟨m, o⟩, _⟩ := c
    cases o with
    | none => rfl
    | some o =>
      show pruneD m.data = m.data
      exact pruneD_of_wf hw

end Verif
