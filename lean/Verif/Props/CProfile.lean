import Verif.CProfile
import Verif.Props.Profile
import Verif.Props.GroupMembers
import Verif.Props.Promotion
import Verif.Props.CBase

/-!
# The user profile and the description of a group through the C interface (C129)
-/

namespace Verif

/-- What a C program sees of a profile; the picture is what a call of the getter gives -/
structure CProfile where
  name : Option Bytes
  pic : Out (Bytes × Option Bytes)
  priority : Int
  expiry : Int
  msgreqs : Int

def Client.cProfile (c : Client) : CProfile := ⟨c.cName, c.cGetPic, c.cPriority, c.cExpiry, c.cMsgreqs⟩

/-- What a C program sees of a group's description -/
structure CInfo where
  name : Option Bytes
  descr : Option Bytes
  pic : Out (Bytes × Option Bytes)
  expiry : Int
  created : Int
  deleteBefore : Int
  deleteAttach : Int
  destroyed : Bool

def Client.cInfo (c : Client) : CInfo :=
  ⟨c.cInfoName, c.cInfoDescr, c.cInfoPic, c.cInfoExpiry, c.cInfoCreated, c.cInfoDelete, c.cInfoAttach, c.cInfoDestroyed⟩

/-- The C setters of a profile, with their arguments -/
inductive PCall where
  | name (s : Bytes)
  | pic (url key : Bytes)
  | priority (i : Int)
  | expiry (i : Int)
  | msgreqs (i : Int)

/-- The C setters of a group's description -/
inductive ICall where
  | name (s : Bytes)
  | descr (s : Bytes)
  | pic (url key : Bytes)
  | expiry (i : Int)
  | created (i : Int)
  | delete (i : Int)
  | attach (i : Int)
  | destroy

def PCall.run (S : Sys) (c : Client) : PCall → Client × Out Bool
  | .name s => c.cSetName S s
  | .pic u k => c.cSetPic S u k
  | .priority i => c.cSetPriority S i
  | .expiry i => c.cSetExpiry S i
  | .msgreqs i => c.cSetMsgreqs S i

def ICall.run (S : Sys) (c : Client) : ICall → Client × Out Bool
  | .name s => c.cSetInfoName S s
  | .descr s => c.cSetInfoDescr S s
  | .pic u k => c.cSetPic S u k
  | .expiry i => c.cSetInfoExpiry S i
  | .created i => c.cSetInfoCreated S i
  | .delete i => c.cSetInfoDelete S i
  | .attach i => c.cSetInfoAttach S i
  | .destroy => c.cDestroyInfo S

/-- What a struct with a picture can be: 224 bytes with a C string in them, and 32 bytes -/
def PicArg (url key : Bytes) : Prop := url.length = 224 ∧ 0 ∈ url ∧ key.length = 32

/-- Arguments C can express -/
def PCall.Ok : PCall → Prop
  | .pic u k => PicArg u k
  | .priority i => int32Ok i = true
  | .expiry i => int32Ok i = true
  | .msgreqs i => int32Ok i = true
  | _ => True

def ICall.Ok : ICall → Prop
  | .pic u k => PicArg u k
  | .expiry i => int32Ok i = true
  | .created i => int64Ok i = true
  | .delete i => int64Ok i = true
  | .attach i => int64Ok i = true
  | _ => True

/-- What a picture set as such a struct looks like when read -/
def picSays (url key : Bytes) : Out (Bytes × Option Bytes) := .ok (if cStr url = [] then ([], none) else (cStr url, some key))

/-- What the call is for: what a C program sees afterwards -/
def PCall.says (p : CProfile) : PCall → CProfile
  | .name s => { p with name := orNone (cStr s) }
  | .pic u k => { p with pic := picSays u k }
  | .priority i => { p with priority := i }
  | .expiry i => { p with expiry := max 0 i }
  | .msgreqs i => { p with msgreqs := if i < 0 then -1 else if i = 0 then 0 else 1 }

def ICall.says (p : CInfo) : ICall → CInfo
  | .name s => { p with name := orNone ((cStr s).take 100) }
  | .descr s => { p with descr := orNone ((cStr s).take 2000) }
  | .pic u k => { p with pic := picSays u k }
  | .expiry i => { p with expiry := max 0 i }
  | .created i => { p with created := max 0 i }
  | .delete i => { p with deleteBefore := max 0 i }
  | .attach i => { p with deleteAttach := max 0 i }
  | .destroy => { p with destroyed := true }

/-- The functions of type `int` report errors; those of type `void` cannot -/
def ICall.reports : ICall → Bool
  | .name _ => true
  | .descr _ => true
  | .pic _ _ => true
  | _ => false

/-! ### Calls as writes -/

/-- The object can be changed. -/
def CanEdit (S : Sys) (c : Client) : Prop := c.st = .dirty ∨ S.env.readonly = false ∧ int64Ok (c.seqno + 1) = true

abbrev Writes := List (List Bytes × Option Val)

def WfWrites (ws : Writes) : Prop := ∀ w ∈ ws, w.1 ≠ [] ∧ wfO w.2 = true

theorem writeAll_canEdit {S : Sys} (hS : S.Good) {c : Client} (hc : Reach S c) {ws : Writes} (hw : WfWrites ws) (he : CanEdit S c) :
    ∃ c', c.writeAll S ws = (c', .ok ()) ∧ CanEdit S c' := by
  rcases he with hd | ⟨hro, hov⟩
  · obtain ⟨c', h1, h2⟩ := writeAll_dirty_ok hS ws hc hw hd
    exact ⟨c', h1, .inl h2⟩
  · obtain ⟨c', h1⟩ := writeAll_succeeds hS ws hc hw hro hov
    refine ⟨c', h1, ?_⟩
    rcases writeAll_pending hS ws hc hw h1 with rfl | h
    · exact .inr ⟨hro, hov⟩
    · exact .inl h

theorem writeAll_reach {S : Sys} (hS : S.Good) : ∀ (ws : Writes) {c c' : Client}, Reach S c → WfWrites ws →
    c.writeAll S ws = (c', .ok ()) → Reach S c'
  | [], c, c', hr, _, h => by cases h; exact hr
  | (p, v) :: t, c, c', hr, hw, h => by
    simp only [Client.writeAll] at h
    split at h
    · rename_i c1 hc1
      have hr1 := (write_get hS hr (hw (p, v) (by simp)).1 (hw (p, v) (by simp)).2 hc1).2.2
      exact writeAll_reach hS t hr1 (fun w hm => hw w (by simp [hm])) h
    · rename_i c1 e hne hc1
      cases h
      exact (hne rfl).elim

theorem writeAll_readonly {S : Sys} (hS : S.Good) (hro : S.env.readonly = true) : ∀ (ws : Writes) {c : Client}, Reach S c →
    WfWrites ws → c.writeAll S ws = (c, .ok ()) ∨ c.writeAll S ws = (c, .err .foreign)
  | [], c, _, _ => .inl rfl
  | (p, v) :: t, c, hr, hw => by
    have hst : c.st ≠ .dirty := by rw [((hr.inv hS).ro hro).1]; exact fun h => CState.noConfusion h
    have h1 : c.write S p v = (c, .ok ()) ∨ c.write S p v = (c, .err .foreign) := by
      rw [write_eq_field]
      rcases field_cases S c p (opOf v) with ⟨h1, _⟩ | ⟨f, h1⟩
      · exact .inl h1
      · right
        rw [h1]
        have hd : c.dirty S = (c, .err .foreign) := by
          unfold Client.dirty
          rw [if_neg hst, if_pos hro]
        unfold Client.modify Client.edit
        rw [hd]
    simp only [Client.writeAll]
    rcases h1 with h1 | h1
    · rw [h1]
      exact writeAll_readonly hS hro t hr (fun w hm => hw w (by simp [hm]))
    · rw [h1]; exact .inr rfl

theorem write_writeAll (S : Sys) (c : Client) (p : List Bytes) (v : Option Val) : c.write S p v = c.writeAll S [(p, v)] := by
  unfold Client.writeAll Client.writeAll
  rcases h : c.write S p v with ⟨c', o⟩
  cases o <;> rfl

theorem wf_one {p : List Bytes} {v : Option Val} (hp : p ≠ []) (hv : wfO v = true) : WfWrites [(p, v)] := by
  intro w hw
  rw [List.mem_singleton.1 hw]
  exact ⟨hp, hv⟩

theorem wf_pic (u k : Bytes) : WfWrites [([[112]], fIf (picOk u k) (.str u)), ([[113]], fIf (picOk u k) (.str k))] := by
  unfold WfWrites
  simp only [List.mem_cons, List.not_mem_nil, or_false, forall_eq_or_imp, forall_eq]
  exact ⟨⟨by simp, wfO_if _ rfl⟩, by simp, wfO_if _ rfl⟩

theorem int32Ok_max {i : Int} (h : int32Ok i = true) : int32Ok (max 0 i) = true := by
  simp only [int32Ok, Bool.and_eq_true, decide_eq_true_eq] at h ⊢
  omega

theorem int64Ok_max {i : Int} (h : int64Ok i = true) : int64Ok (max 0 i) = true := by
  simp only [int64Ok, Bool.and_eq_true, decide_eq_true_eq] at h ⊢
  omega

/-- A call is a list of writes, reported or not. -/
def IsWrites (S : Sys) (c : Client) (rep : Bool) (r : Client × Out Bool) : Prop :=
  ∃ ws, WfWrites ws ∧ r = (if rep then cStatus (c.writeAll S ws) else cVoid (c.writeAll S ws))

theorem cSetPic_writes {S : Sys} {c : Client} {u k : Bytes} (h : PicArg u k) : IsWrites S c true (c.cSetPic S u k) := by
  unfold Client.cSetPic
  rw [if_pos h.2.1]
  exact ⟨_, wf_pic _ _, rfl⟩

theorem PCall.writes {S : Sys} (c : Client) {p : PCall} (h : p.Ok) : ∃ rep, IsWrites S c rep (p.run S c) := by
  cases p with
  | name s =>
    refine ⟨true, _, wf_one (p := [[110]]) (by simp) (wfO_nestr (cStr s)), ?_⟩
    rw [← write_writeAll, ← setNonempty_eq]; rfl
  | pic u k => exact ⟨true, cSetPic_writes h⟩
  | priority i =>
    refine ⟨false, _, wf_one (p := [[43]]) (by simp) (wfO_nonzero (int32_int64 h)), ?_⟩
    rw [← write_writeAll, ← setNonzero_eq]; rfl
  | expiry i =>
    refine ⟨false, _, wf_one (p := [[101]]) (by simp) (wfO_pos (int32_int64 (int32Ok_max h))), ?_⟩
    rw [← write_writeAll, ← setPositive_eq]; rfl
  | msgreqs i =>
    have hw : ∀ b : Option Bool, wfO (b.map fun b => Val.scalar (.int (if b then 1 else 0))) = true := by
      intro b
      cases b with
      | none => rfl
      | some b => cases b <;> rfl
    refine ⟨false, _, wf_one (p := [[77]]) (by simp) (hw (if i ≥ 0 then some (i != 0) else none)), ?_⟩
    rw [← write_writeAll]; rfl

theorem ICall.writes {S : Sys} (c : Client) {p : ICall} (h : p.Ok) : IsWrites S c p.reports (p.run S c) := by
  cases p with
  | name s =>
    refine ⟨_, wf_one (p := [[110]]) (by simp) (wfO_nestr ((cStr s).take 100)), ?_⟩
    rw [← write_writeAll, ← setNonempty_eq]; rfl
  | descr s =>
    refine ⟨_, wf_one (p := [[111]]) (by simp) (wfO_nestr ((cStr s).take 2000)), ?_⟩
    rw [← write_writeAll, ← setNonempty_eq]; rfl
  | pic u k => exact cSetPic_writes h
  | expiry i =>
    refine ⟨_, wf_one (p := [[69]]) (by simp) (wfO_pos (int32_int64 (int32Ok_max h))), ?_⟩
    rw [← write_writeAll, ← setPositive_eq]; rfl
  | created i =>
    refine ⟨_, wf_one (p := [[99]]) (by simp) (wfO_pos (int64Ok_max h)), ?_⟩
    rw [← write_writeAll, ← setPositive_eq]; rfl
  | delete i =>
    refine ⟨_, wf_one (p := [[100]]) (by simp) (wfO_pos (int64Ok_max h)), ?_⟩
    rw [← write_writeAll, ← setPositive_eq]; rfl
  | attach i =>
    refine ⟨_, wf_one (p := [[68]]) (by simp) (wfO_pos (int64Ok_max h)), ?_⟩
    rw [← write_writeAll, ← setPositive_eq]; rfl
  | destroy =>
    refine ⟨_, wf_one (p := [[33]]) (v := fFlag true) (by simp) rfl, ?_⟩
    rw [← write_writeAll, ← setFlag_eq]; rfl

theorem cStatus_true {r : Client × Out Unit} {c' : Client} (h : cStatus r = (c', .ok true)) : r = (c', .ok ()) := by
  obtain ⟨c, o⟩ := r
  cases o <;> simp [cStatus] at h
  rw [h]

theorem cVoid_true {r : Client × Out Unit} {c' : Client} (h : cVoid r = (c', .ok true)) : r = (c', .ok ()) := by
  obtain ⟨c, o⟩ := r
  cases o <;> simp [cVoid] at h
  rw [h]

/-- What every such call has in common -/
theorem IsWrites.effect {S : Sys} (hS : S.Good) {c : Client} (hc : Reach S c) {rep : Bool} {r : Client × Out Bool}
    (h : IsWrites S c rep r) :
    (r.2 = .ok true → Reach S r.1) ∧ (r.2 ≠ .ok true → r.1 = c) ∧ (CanEdit S c → r.2 = .ok true ∧ CanEdit S r.1) ∧
    (S.env.readonly = true → r.1 = c ∧ (r.2 = .ok true ∨ r.2 = if rep then .ok false else .err .foreign)) := by
  obtain ⟨ws, hw, rfl⟩ := h
  have e := writeAll_error hS ws hc hw
  have g := fun c' => writeAll_reach hS ws (c' := c') hc hw
  have k := writeAll_canEdit hS hc hw
  have q := fun hro => writeAll_readonly hS hro ws hc hw
  rcases hr : c.writeAll S ws with ⟨c', o⟩
  rw [hr] at e g k q
  cases o with
  | ok u =>
    have hx : (if rep then cStatus (c', Out.ok u) else cVoid (c', Out.ok u)) = (c', .ok true) := by cases rep <;> rfl
    rw [hx]
    refine ⟨fun _ => g c' rfl, fun h => absurd rfl h, fun h => ?_, fun h => ?_⟩
    · obtain ⟨_, h1, h2⟩ := k h
      cases h1; exact ⟨rfl, h2⟩
    · rcases q h with h | h <;> cases h
      exact ⟨rfl, .inl rfl⟩
  | err x =>
    have hx : (if rep then cStatus (c', Out.err (α := Unit) x) else cVoid (c', Out.err (α := Unit) x)) =
        (c', if rep then .ok false else .err x) := by cases rep <;> rfl
    rw [hx]
    have e : c' = c := e (fun h => by cases h)
    subst e
    refine ⟨fun h => ?_, fun _ => rfl, fun h => ?_, fun h => ?_⟩
    · cases rep <;> cases h
    · obtain ⟨_, h1, h2⟩ := k h
      cases h1
    · rcases q h with h | h <;> cases h
      exact ⟨rfl, .inr rfl⟩
  | hang =>
    have hx : (if rep then cStatus (c', Out.hang (α := Unit)) else cVoid (c', Out.hang (α := Unit))) = (c', .hang) := by cases rep <;> rfl
    rw [hx]
    have e : c' = c := e (fun h => by cases h)
    subst e
    refine ⟨(fun h => by cases h), fun _ => rfl, fun h => ?_, fun h => ?_⟩
    · obtain ⟨_, h1, h2⟩ := k h
      cases h1
    · rcases q h with h | h <;> cases h
  | ub =>
    have hx : (if rep then cStatus (c', Out.ub (α := Unit)) else cVoid (c', Out.ub (α := Unit))) = (c', .ub) := by cases rep <;> rfl
    rw [hx]
    have e : c' = c := e (fun h => by cases h)
    subst e
    refine ⟨(fun h => by cases h), fun _ => rfl, fun h => ?_, fun h => ?_⟩
    · obtain ⟨_, h1, h2⟩ := k h
      cases h1
    · rcases q h with h | h <;> cases h

/-! ### What is seen afterwards -/

theorem cStr_idem (s : Bytes) : cStr (cStr s) = cStr s := upToNul_eq (cStr_no_nul s)

theorem cStr_take (s : Bytes) (n : Nat) : cStr ((cStr s).take n) = (cStr s).take n :=
  upToNul_eq fun h => cStr_no_nul s (List.mem_of_mem_take h)

/-- What is seen is a function of what the getters of C++ give. -/
def Profile.shown (p : Profile) : CProfile :=
  ⟨if p.name = [] then none else some (cStr p.name), cPic p.pic.1 p.pic.2, p.priority, toInt32 (p.expiry.getD 0),
    match p.msgreqs with
    | some b => if b then 1 else 0
    | none => -1⟩

theorem cProfile_shown (c : Client) : c.cProfile = c.profile.shown := rfl

def GInfo.shown (p : GInfo) : CInfo :=
  ⟨p.name.map cStr, p.descr.map cStr, cPic p.pic.1 p.pic.2,
    match p.expiry with
    | some t => if t > 0 then toInt32 t else 0
    | none => 0, p.created.getD 0, p.deleteBefore.getD 0, p.deleteAttach.getD 0, p.destroyed⟩

theorem cInfo_shown (c : Client) : c.cInfo = c.ginfo.shown := rfl

theorem cStr_length_lt {s : Bytes} (h : 0 ∈ s) : (cStr s).length < s.length := by
  unfold cStr
  induction s with
  | nil => cases h
  | cons a t ih =>
    by_cases ha : a = 0
    · subst ha; simp
    · rw [List.takeWhile_cons_of_pos (by simpa using ha)]
      have := ih (by rcases List.mem_cons.1 h with h | h; exact absurd h.symm ha; exact h)
      simp only [List.length_cons]; omega

theorem pic_shown {u k : Bytes} (h : PicArg u k) :
    (let key := if cStr u = [] then [] else k
     let p := if cStr u ≠ [] ∧ key.length = 32 then (cStr u, key) else ([], [])
     cPic p.1 p.2) = picSays u k := by
  obtain ⟨h1, h2, h3⟩ := h
  dsimp only
  have hl := cStr_length_lt h2
  by_cases he : cStr u = []
  · simp only [he, if_true, picSays]
    rfl
  · have hp : picOk (cStr u) k = true := (picOk_iff _ _).2 ⟨he, h3⟩
    simp only [he, if_false, ne_eq, not_false_eq_true, h3, and_self, if_true, picSays]
    unfold cPic
    rw [if_pos hp, copyCStr, if_pos (by omega)]
    dsimp only [Out.bind]
    rw [readN_exact (by omega), ← h3, List.take_length]

theorem toInt32_max {i : Int} (h : int32Ok i = true) : toInt32 ((posOrNone (max 0 i)).getD 0) = max 0 i := by
  unfold posOrNone
  split
  · exact toInt32_of_ok (int32Ok_max h)
  · have : max 0 i = 0 := by omega
    rw [this]; rfl

theorem getD_max (i : Int) : (posOrNone (max 0 i)).getD 0 = max 0 i := by
  unfold posOrNone
  split
  · rfl
  · show (0 : Int) = max 0 i
    omega

theorem orNone_shown {s : Bytes} (h : cStr s = s) : (if s = [] then none else some (cStr s)) = orNone s := by
  rw [h]; rfl

/-- **C129.** One C setter of the profile, with any arguments C can express: if it returns success a C program sees exactly the change
asked for, and nothing else changed; if not, nothing changed at all; and on an object that can be changed it succeeds. -/
theorem c_profile_call {S : Sys} (hS : S.Good) {c : Client} (hc : Reach S c) {p : PCall} (hp : p.Ok) :
    ((p.run S c).2 = .ok true → (p.run S c).1.cProfile = p.says c.cProfile ∧ Reach S (p.run S c).1) ∧
    ((p.run S c).2 ≠ .ok true → (p.run S c).1 = c) ∧
    (CanEdit S c → (p.run S c).2 = .ok true ∧ CanEdit S (p.run S c).1) := by
  obtain ⟨rep, hw⟩ := PCall.writes (S := S) c hp
  obtain ⟨h1, h2, h3, _⟩ := hw.effect hS hc
  refine ⟨fun h => ⟨?_, h1 h⟩, h2, h3⟩
  obtain ⟨s1, s2, s3, s4, s5⟩ := profile_set hS (c' := (p.run S c).1) hc
  generalize hr : p.run S c = r at *
  obtain ⟨c', o⟩ := r
  dsimp only at h s1 s2 s3 s4 s5 ⊢
  subst h
  rw [cProfile_shown, cProfile_shown]
  cases p with
  | name s =>
    rw [s1 _ (cStatus_true hr)]
    unfold Profile.shown PCall.says
    dsimp only
    rw [orNone_shown (cStr_idem s)]
  | pic u k =>
    have hr : c.cSetPic S u k = _ := hr
    unfold Client.cSetPic at hr
    rw [if_pos hp.2.1] at hr
    rw [s2 _ _ (cStatus_true hr)]
    unfold Profile.shown PCall.says
    dsimp only
    rw [pic_shown hp]
  | priority i => rw [s3 _ hp (cVoid_true hr)]; rfl
  | expiry i =>
    rw [s4 _ (int32_int64 (int32Ok_max hp)) (cVoid_true hr)]
    unfold Profile.shown PCall.says
    dsimp only
    rw [show (if max 0 i > 0 then some (max 0 i) else none) = posOrNone (max 0 i) from rfl, toInt32_max hp]
  | msgreqs i =>
    rw [s5 _ (cVoid_true hr)]
    unfold Profile.shown PCall.says
    dsimp only
    congr 1
    by_cases hi : i ≥ 0
    · rw [if_pos hi, if_neg (by omega)]
      by_cases h0 : i = 0
      · subst h0; rfl
      · simp [h0]
    · rw [if_neg hi, if_pos (by omega)]

/-- **C129.** Any program of such calls: afterwards a C program sees what the calls said, in order. -/
theorem c_profile_run {S : Sys} (hS : S.Good) {c : Client} (hc : Reach S c) (he : CanEdit S c) {l : List PCall} (hl : ∀ p ∈ l, p.Ok) :
    (l.foldl (fun c p => (p.run S c).1) c).cProfile = l.foldl PCall.says c.cProfile := by
  induction l generalizing c with
  | nil => rfl
  | cons p t ih =>
    obtain ⟨h1, _, h3⟩ := c_profile_call hS hc (hl p (by simp))
    obtain ⟨g1, g2⟩ := h3 he
    obtain ⟨k1, k2⟩ := h1 g1
    rw [List.foldl_cons, List.foldl_cons, ih k2 g2 fun q hq => hl q (by simp [hq]), k1]

/-- **C129.** The same for the description of a group.  On the object of a member, who cannot publish, no call changes anything. -/
theorem c_info_call {S : Sys} (hS : S.Good) {c : Client} (hc : Reach S c) {p : ICall} (hp : p.Ok) :
    ((p.run S c).2 = .ok true → (p.run S c).1.cInfo = p.says c.cInfo ∧ Reach S (p.run S c).1) ∧
    ((p.run S c).2 ≠ .ok true → (p.run S c).1 = c) ∧
    (CanEdit S c → (p.run S c).2 = .ok true ∧ CanEdit S (p.run S c).1) ∧
    (S.env.readonly = true → (p.run S c).1 = c) := by
  obtain ⟨h1, h2, h3, h4⟩ := (ICall.writes (S := S) c hp).effect hS hc
  refine ⟨fun h => ⟨?_, h1 h⟩, h2, h3, fun h => (h4 h).1⟩
  obtain ⟨s1, s2, s3, s4, s5, s6, s7, s8⟩ := ginfo_set hS (c' := (p.run S c).1) hc
  generalize hr : p.run S c = r at *
  obtain ⟨c', o⟩ := r
  dsimp only at h s1 s2 s3 s4 s5 s6 s7 s8 ⊢
  subst h
  rw [cInfo_shown, cInfo_shown]
  have hon : ∀ (s : Bytes), cStr s = s → (orNone s).map cStr = orNone s := by
    intro s hs
    unfold orNone
    split
    · rfl
    · show some (cStr s) = _
      rw [hs]
  cases p with
  | name s =>
    rw [s1 _ (cStatus_true hr)]
    unfold GInfo.shown ICall.says
    dsimp only
    rw [hon _ (cStr_take s 100)]
  | descr s =>
    rw [s2 _ (cStatus_true hr)]
    unfold GInfo.shown ICall.says
    dsimp only
    rw [hon _ (cStr_take s 2000)]
  | pic u k =>
    have hr : c.cSetPic S u k = _ := hr
    unfold Client.cSetPic at hr
    rw [if_pos hp.2.1] at hr
    rw [s3 _ _ (cStatus_true hr)]
    unfold GInfo.shown ICall.says
    dsimp only
    rw [pic_shown hp]
  | expiry i =>
    rw [s4 _ (int32_int64 (int32Ok_max hp)) (cVoid_true hr)]
    unfold GInfo.shown ICall.says
    dsimp only
    congr 1
    unfold posOrNone
    by_cases hi : 0 < max 0 i
    · rw [if_pos hi]
      dsimp only
      rw [if_pos hi, toInt32_of_ok (int32Ok_max hp)]
    · rw [if_neg hi]
      dsimp only
      omega
  | created i =>
    rw [s5 _ (int64Ok_max hp) (cVoid_true hr)]
    unfold GInfo.shown ICall.says
    dsimp only
    rw [getD_max]
  | delete i =>
    rw [s6 _ (int64Ok_max hp) (cVoid_true hr)]
    unfold GInfo.shown ICall.says
    dsimp only
    rw [getD_max]
  | attach i =>
    rw [s7 _ (int64Ok_max hp) (cVoid_true hr)]
    unfold GInfo.shown ICall.says
    dsimp only
    rw [getD_max]
  | destroy => rw [s8 (cVoid_true hr)]; rfl

theorem c_info_run {S : Sys} (hS : S.Good) {c : Client} (hc : Reach S c) (he : CanEdit S c) {l : List ICall} (hl : ∀ p ∈ l, p.Ok) :
    (l.foldl (fun c p => (p.run S c).1) c).cInfo = l.foldl ICall.says c.cInfo := by
  induction l generalizing c with
  | nil => rfl
  | cons p t ih =>
    obtain ⟨h1, _, h3, _⟩ := c_info_call hS hc (hl p (by simp))
    obtain ⟨g1, g2⟩ := h3 he
    obtain ⟨k1, k2⟩ := h1 g1
    rw [List.foldl_cons, List.foldl_cons, ih k2 g2 fun q hq => hl q (by simp [hq]), k1]

/-- **C129, what fails.** On the object of a member a call that would change what is seen fails: the functions of type `int` return an
error, but from those of type `void` the exception leaves through the C interface. -/
theorem c_info_member {S : Sys} (hS : S.Good) (hro : S.env.readonly = true) {c : Client} (hc : Reach S c) {p : ICall} (hp : p.Ok)
    (hd : p.says c.cInfo ≠ c.cInfo) : p.run S c = (c, if p.reports then .ok false else .err .foreign) := by
  obtain ⟨h1, h2, h3, h4⟩ := (ICall.writes (S := S) c hp).effect hS hc
  obtain ⟨e1, e2⟩ := h4 hro
  have hne : (p.run S c).2 ≠ .ok true := by
    intro h
    have := ((c_info_call hS hc hp).1 h).1
    rw [e1] at this
    exact hd this.symm
  exact Prod.ext e1 (e2.resolve_left hne)

/-- **C129.** Objects with the same contents show the same through the C interface: with C128, what one C program set another one sees
after a push and a merge, and the same one after a restart. -/
theorem c_shown_by_content {S S' : Sys} (hS : S.Good) (hS' : S'.Good) {c r : Client} (hc : Reach S c) (hr : Reach S' r)
    (h : r.content = c.content) : r.cProfile = c.cProfile ∧ r.cInfo = c.cInfo := by
  have hs : ∀ p, scalarAt r.conf.m.data p = scalarAt c.conf.m.data p := by
    intro p
    rw [← scalarAt_pruneD p _ (hr.inv hS').wf.data, ← scalarAt_pruneD p _ (hc.inv hS).wf.data]
    unfold Client.content at h
    rw [h]
  have key : ∀ p, intOf (r.get p) = intOf (c.get p) ∧ strOf (r.get p) = strOf (c.get p) := fun p => scalars_eq (hs p)
  constructor
  · rw [cProfile_shown, cProfile_shown]
    congr 1
    unfold Client.profile Client.getName Client.getPic Client.getNtsPriority Client.getNtsExpiry
      Client.getMsgreqs Client.strAt Client.intAt
    simp only [(key _).1, (key _).2]
  · rw [cInfo_shown, cInfo_shown]
    congr 1
    unfold Client.ginfo Client.infoName Client.infoDescr Client.infoPic Client.infoExpiry Client.infoCreated
      Client.infoDeleteBefore Client.infoDeleteAttach Client.infoDestroyed Client.getPic Client.strAt Client.intAt
    simp only [(key _).1, (key _).2]

/-- **C129, what fails.** `user_profile_get_pic` and `groups_info_get_pic` write beyond the struct exactly if a picture is stored whose
URL has 224 bytes or more. -/
theorem c_pic_overflow (c : Client) :
    c.cGetPic = .ub ↔ c.getPic.1 ≠ [] ∧ c.getPic.2.length = 32 ∧ 224 ≤ c.getPic.1.length := by
  unfold Client.cGetPic cPic
  by_cases hp : picOk c.getPic.1 c.getPic.2 = true
  · obtain ⟨h1, h2⟩ := (picOk_iff _ _).1 hp
    rw [if_pos hp]
    by_cases hl : c.getPic.1.length < 224
    · rw [copyCStr, if_pos hl]
      dsimp only [Out.bind]
      rw [readN_exact (by omega)]
      refine ⟨(fun h => by cases h), fun h => ?_⟩
      omega
    · rw [copyCStr, if_neg hl]
      exact ⟨fun _ => ⟨h1, h2, by omega⟩, fun _ => rfl⟩
  · rw [if_neg hp]
    refine ⟨(fun h => by cases h), fun h => ?_⟩
    exact absurd ((picOk_iff _ _).2 ⟨h.1, h.2.1⟩) hp

/-- **C129, what fails.** Such a picture can be set, for `set_profile_pic` of C++ checks no length; and a timer beyond the range of `int`
is shown wrong. -/
theorem c_profile_fails : ∃ S c, S.Good ∧ Reach S c ∧
    (c.setPic S (List.replicate 224 97) (List.replicate 32 9)).2 = .ok () ∧
    (c.setPic S (List.replicate 224 97) (List.replicate 32 9)).1.cGetPic = .ub ∧
    (c.setNtsExpiry S (2 ^ 32 - 1)).2 = .ok () ∧ (c.setNtsExpiry S (2 ^ 32 - 1)).1.cExpiry = -1 ∧
    (c.setInfoExpiry S (2 ^ 32 + 5)).2 = .ok () ∧ (c.setInfoExpiry S (2 ^ 32 + 5)).1.cInfoExpiry = 5 :=
  ⟨exSys, exC0, exSys_good, exC0_reach, by decide +kernel⟩

/-! ### Making group objects -/

/-- **C129.** `groups_info_init` and `groups_members_init` without a dump: with the public key alone the object is one of a member, which
verifies with that key and cannot sign; with a secret key whose second half is the public key it is one of an admin, which signs with
it; with any other secret key there is no object and the error is in the caller's buffer. -/
theorem c_group_init {P : GPrims} {S : Sys} {pubkey error what : Bytes} (hpk : 32 ≤ pubkey.length) :
    (∃ k, cGroupInit P S pubkey none none 0 error what = .ok (.inl (k, Client.new S)) ∧
      (k.env P S.env).readonly = true ∧ (k.env P S.env).verifier = some (P.verify (pubkey.take 32))) ∧
    ∀ secret, 64 ≤ secret.length →
      ((secret.take 64).drop 32 = pubkey.take 32 →
        ∃ k, cGroupInit P S pubkey (some secret) none 0 error what = .ok (.inl (k, Client.new S)) ∧
          (k.env P S.env).readonly = false ∧ (k.env P S.env).signer = some (P.sign (secret.take 64)) ∧
          (k.env P S.env).verifier = some (P.verify (P.edPub (secret.take 64)))) ∧
      ((secret.take 64).drop 32 ≠ pubkey.take 32 →
        cGroupInit P S pubkey (some secret) none 0 error what = (initError error what).bind fun e => .ok (.inr e)) := by
  have hl : (pubkey.take 32).length = 32 := by simp; omega
  refine ⟨⟨⟨some (pubkey.take 32), none⟩, ?_, rfl, rfl⟩, fun secret hs => ⟨fun h => ?_, fun h => ?_⟩⟩
  · unfold cGroupInit
    rw [readN_exact hpk]
    dsimp only [Out.bind]
    rw [(sig_init (P := P) (some (pubkey.take 32)) none ⟨some (pubkey.take 32), none⟩).2
      (.inl ⟨rfl, rfl, rfl, fun p hp => by cases hp; exact hl⟩)]
  · refine ⟨⟨some (P.edPub (secret.take 64)), some (secret.take 64)⟩, ?_, rfl, rfl, rfl⟩
    unfold cGroupInit
    rw [readN_exact hpk]
    dsimp only [Out.bind]
    rw [readN_exact hs]
    dsimp only [Out.bind]
    rw [(sig_init (P := P) (some (pubkey.take 32)) (some (secret.take 64)) ⟨some (P.edPub (secret.take 64)), some (secret.take 64)⟩).2
      (.inr ⟨_, rfl, by simp; omega, rfl, rfl, fun p hp => by cases hp; exact h.symm⟩)]
  · unfold cGroupInit
    rw [readN_exact hpk]
    dsimp only [Out.bind]
    rw [readN_exact hs]
    dsimp only [Out.bind]
    have hi : SigKeys.init P (some (pubkey.take 32)) (some (secret.take 64)) = .err .foreign := by
      unfold SigKeys.init
      dsimp only
      rw [if_neg (by simp; omega), if_pos (fun e => h e.symm)]
    rw [hi]

/-- **C129.** And with a dump, whatever follows it in memory: the object holds what the dumped one did. -/
theorem c_group_restart {P : GPrims} {S : Sys} (hS : S.Good) {c : Client} (hc : Reach S c) {ord : List Bytes}
    (ho : ord.Perm (if S.env.readonly then [] else c.old)) (hov : int64Ok (c.seqno + S.env.lag) = true)
    {pubkey more error what : Bytes} {secret : Option Bytes} {k : SigKeys} {x : Client}
    (h0 : cGroupInit P S pubkey secret none 0 error what = .ok (.inl (k, x))) :
    ∃ c', cGroupInit P S pubkey secret (some (c.dumpBytes S ord ++ more)) (c.dumpBytes S ord).length error what = .ok (.inl (k, c')) ∧
      c'.content = c.content ∧ c'.needsPush = c.needsPush ∧ c'.currentHashes = c.currentHashes ∧ c'.old = ord ∧ c'.keys = [] := by
  obtain ⟨y, hy, h1, h2, h3, h4, h5, h6, _⟩ := dump_roundtrip hS hc ho hov
  have hyk : y.keys = [] := by
    have hnd : ord.Nodup := by
      rw [ho.nodup_iff]; split
      · exact List.nodup_nil
      · exact (hc.inv hS).old
    rw [restore_eq S c hnd] at hy
    obtain ⟨cf, _, hy⟩ := Out.bind_eq_ok.1 hy
    cases hy; rfl
  refine ⟨y, ?_, h1, h3, h4, h5, hyk⟩
  have hne : c.dumpBytes S ord ≠ [] := by unfold Client.dumpBytes; simp
  unfold cGroupInit at h0 ⊢
  obtain ⟨pk, hpk, h0⟩ := Out.bind_eq_ok.1 h0
  rw [hpk]
  obtain ⟨sk, hsk, h0⟩ := Out.bind_eq_ok.1 h0
  dsimp only [Out.bind] at h0
  have hob : ∀ {α β : Type} (a : α) (f : α → Out β), Out.bind (.ok a) f = f a := fun _ _ => rfl
  rw [hob, hsk, hob]
  dsimp only
  rw [if_neg (by simpa using hne), readN_append]
  dsimp only [Out.bind]
  rw [hy]
  dsimp only
  cases hi : SigKeys.init P (some pk) sk with
  | ok k' => rw [hi] at h0; cases h0; rfl
  | err e => rw [hi] at h0; obtain ⟨_, _, h0⟩ := Out.bind_eq_ok.1 h0; cases h0
  | hang => rw [hi] at h0; cases h0
  | ub => rw [hi] at h0; cases h0

/-! ### Instances -/

def exPicArg : Bytes := [104, 116, 116, 112] ++ List.replicate 220 0

/-- A program of all the profile setters -/
example : ∀ p ∈ [PCall.name [65, 0, 66], .pic exPicArg (List.replicate 32 9), .priority (-3), .expiry (-5), .msgreqs 7], p.Ok := by
  intro p hp
  simp only [List.mem_cons, List.not_mem_nil, or_false] at hp
  rcases hp with rfl | rfl | rfl | rfl | rfl
  · trivial
  · exact ⟨by decide +kernel, by decide +kernel, by decide +kernel⟩
  · exact (by decide +kernel : int32Ok (-3) = true)
  · exact (by decide +kernel : int32Ok (-5) = true)
  · exact (by decide +kernel : int32Ok 7 = true)

example : Reach exSys exC3 ∧ CanEdit exSys exC3 ∧
    (([PCall.name [65, 0, 66], .pic exPicArg (List.replicate 32 9), .msgreqs 7].foldl (fun c p => (p.run exSys c).1) exC3).cName) = some [65] :=
  ⟨exC3_reach, .inr (by decide +kernel), by decide +kernel⟩

/-- The object of a member: the name returns an error, the creation time throws. -/
example : exSysRO.env.readonly = true ∧ (ICall.run exSysRO exR0 (.name [65, 0])).2 = .ok false ∧
    (ICall.run exSysRO exR0 (.created 5)).2 = .err .foreign ∧ exR0.cInfoCreated = 0 := by decide +kernel

end Verif
