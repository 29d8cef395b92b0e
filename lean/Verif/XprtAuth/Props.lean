import Verif.XprtAuth.Net
import Verif.Access.Model

/-!
# C56: authentication of transports

A process can rely on its transports to a peer only after the peer has shown what the authentication plugin
asks for; the application is told CONNECTED then, and the end of every connection it was told of.
-/

namespace Verif.XprtAuth

/-! ### One transport -/

/-- The application is told CONNECTED only after the peer has shown what the plugin asks for, whatever the
peer sends and in whatever order things happen. -/
theorem connected_needs_proof (g : Cfg) (es : List Ev) (x : X) (h : run g {} es = some x)
    (hc : App.connected ∈ x.out) : Shown g es x.ruid x.rgid := by
  rcases (who_run g es x h).who with a | a
  · exact absurd hc a.1
  · exact a.2.1

/-- Until the application is told CONNECTED the peer is taken for nobody. -/
theorem nobody_before_connected (g : Cfg) (es : List Ev) (x : X) (h : run g {} es = some x)
    (hc : App.connected ∉ x.out) : x.ruid = nobody ∧ x.rgid = nobody := by
  rcases (who_run g es x h).who with a | a
  · exact ⟨a.2.1, a.2.2.1⟩
  · exact absurd a.1 hc

/-- `Access.check` for a peer nobody knows: only what everybody may do is granted -/
theorem nobody_gets (acc ouid ogid perm : Nat) (hu : ouid ≠ nobody) (hg : ogid ≠ nobody)
    (h : Access.check none nobody nobody acc ouid ogid perm = true) : 7 &&& (acc &&& perm) ≠ 0 := by
  unfold Access.check at h
  dsimp only at h
  split at h
  · next h0 => exact absurd h0 (by decide)
  · split at h
    · next h7 => exact h7
    · split at h
      · next h2 => exact absurd h2.2.symm hu
      · split at h
        · next h3 =>
          rcases h3.2 with h3 | h3
          · exact absurd h3.symm hg
          · simp [Access.uidGidCheck] at h3
        · cases h

/-- Every request of the peer that is handled is handled either for nobody, who gets only what everybody may
have (objects of no user or group -1; the system knows no user -1), or for the user and group the peer has
shown to be. -/
theorem handled_as_partial (g : Cfg) (es : List Ev) (x : X) (h : run g {} es = some x) (k : Handled)
    (hk : k ∈ x.handled) : Shown g es k.uid k.gid ∨
      (k.uid = nobody ∧ k.gid = nobody ∧ ∀ acc ouid ogid perm, ouid ≠ nobody → ogid ≠ nobody →
        Access.check none k.uid k.gid acc ouid ogid perm = true → 7 &&& (acc &&& perm) ≠ 0) := by
  rcases (who_run g es x h).handled k hk with a | a
  · refine .inr ⟨a.1, a.2, ?_⟩
    intro acc ouid ogid perm hu hg hc
    rw [a.1, a.2] at hc
    exact nobody_gets acc ouid ogid perm hu hg hc
  · exact .inl a

/-- What the application is told about the connection, whatever the peer does: nothing, or REJECTED, or ERROR,
or CONNECTED, which may be followed by one event that ends it. -/
theorem told_in_order (g : Cfg) (es : List Ev) (x : X) (h : run g {} es = some x) (p : Ph)
    (hp : phase .idle es = some p) :
    conns x.out ∈ [[], [.rejected], [.error], [.connected], [.connected, .disconnected], [.connected, .rejected]] := by
  have := told_run g es x h p hp
  generalize conns x.out = o at this
  generalize x.flag = f at this
  cases this <;> simp

/-- If the peer sends no authentication message after the approval: nothing is told before the connection is
up; once it is gone, the application of an active transport or of a rail was told exactly one of REJECTED,
ERROR, and CONNECTED with DISCONNECTED, and that of a passive one, if it was told CONNECTED, also
DISCONNECTED. -/
theorem told_once_partial (g : Cfg) (es : List Ev) (x : X) (h : run g {} es = some x) (p : Ph)
    (hp : phase .idle es = some p) (hl : NoLateAuth g es) :
    (p = .idle → conns x.out = []) ∧
    (p = .up → conns x.out = [] ∨ conns x.out = [.connected]) ∧
    (p = .done → (conns x.out = [] ∧ g.active = false ∧ g.rail = false) ∨ conns x.out = [.rejected] ∨
      conns x.out = [.error] ∨ conns x.out = [.connected, .disconnected]) := by
  have := told_run g es x h p hp
  generalize conns x.out = o at this
  generalize x.flag = f at this
  cases this <;> simp <;> first | assumption | skip
  all_goals first
    | exact absurd hl (by assumption)
    | (rename_i hh _; exact hh hl)
    | (rename_i hh; exact hh hl)

/-- While the connection is up the application has been told CONNECTED exactly if the peer was approved, and
a transport that is approved or failed has received an answer of the peer (none is needed for `none`). -/
theorem approved_iff_told_partial (g : Cfg) (es : List Ev) (x : X) (h : run g {} es = some x)
    (hp : phase .idle es = some .up) (hl : NoLateAuth g es) :
    x.flag = .approved ↔ conns x.out = [.connected] := by
  have := told_run g es x h .up hp
  generalize conns x.out = o at this
  generalize x.flag = f at this
  generalize hq : Ph.up = p at this
  cases this with
  | t1 _ hf => rcases hf with rfl | rfl <;> simp
  | t2 => simp
  | t3 => simp
  | t4 m ok hm hn => exact absurd hl hn
  | _ => cases hq

/-- REJECTED means that the peer rejected the connection or that a message of it was refused. -/
theorem rejected_means (g : Cfg) (es : List Ev) (x : X) (h : run g {} es = some x) (p : Ph)
    (hp : phase .idle es = some p) (hr : App.rejected ∈ x.out) :
    Ev.rejected ∈ es ∨ ∃ m ok, m.cmd = cmdAuth ∧ Ev.recv m ok ∈ es := by
  have hr : App.rejected ∈ conns x.out := by simp [conns, isConn, hr]
  have := told_run g es x h p hp
  generalize conns x.out = o at this hr
  generalize x.flag = f at this
  cases this <;> simp at hr
  · next m ok hm he => exact .inr ⟨m, ok, hm, he⟩
  · next he => exact .inl he
  · next hl hp' =>
    refine .inr ?_
    unfold NoLateAuth at hl
    false_or_by_contra
    rename_i hno
    apply hl
    intro pre m ok post y he hm
    exact absurd ⟨m, ok, hm, by rw [he]; simp⟩ hno

/-- Nothing the application asks for leaves before it was told CONNECTED: all that was sent is authentication
messages, and no rendezvous is handled. -/
structure Quiet (x : X) : Prop where
  sent : App.connected ∉ x.out → ∀ m ∈ x.sent, m.cmd = cmdAuth
  meets : App.connected ∉ x.out → x.meets = 0
  complete : App.connected ∉ x.out → App.sendComplete ∉ x.out

theorem mem_out_tr (g : Cfg) (x x' : X) (e : Ev) (h : Tr g x e x') (hc : App.connected ∈ x.out) :
    App.connected ∈ x'.out := by
  rw [mem_conns] at hc ⊢
  cases h with
  | quiet _ _ hf hc' hu hg ho => rw [ho]; exact hc
  | wait w c ok _ h0 hf hc' hu hg ho => rw [ho]; exact hc
  | free w c ok _ h0 hp hf hc' hu hg ho => rw [ho, conns_append]; simp [hc]
  | approve m ok _ hm h0 hf hc' hw ho => rw [ho, conns_append]; simp [hc]
  | answer m ok c _ hp hm h0 hx => subst hx; exact hc
  | fail => exact hc
  | last _ t _ he hd hf hc' hu hg ho => rw [ho, conns_append]; simp [hc]

theorem handle_same (x : X) (m : Msg) : (handle x m).meets = x.meets ∧
    (App.sendComplete ∈ (handle x m).out → App.sendComplete ∈ x.out) := by
  unfold handle
  dsimp only
  split
  · simp
  · split <;> simp

theorem authBegin_same (g : Cfg) (x : X) (c : Nat) (ok : Bool) : (authBegin g x c ok).meets = x.meets ∧
    (App.sendComplete ∈ (authBegin g x c ok).out → App.sendComplete ∈ x.out) := by
  unfold authBegin
  split
  · simp
  · dsimp only
    cases g.plugin <;> cases ok <;> simp [authEnd]

theorem recvAuth_same (g : Cfg) (x x' : X) (n : Nat) (b : List Nat) (ok : Bool)
    (h : recvAuth g x n b ok = some x') : x'.meets = x.meets ∧
    (App.sendComplete ∈ x'.out → App.sendComplete ∈ x.out) := by
  unfold recvAuth at h
  repeat' split at h
  all_goals cases h
  all_goals simp [authFail, authEnd]

theorem quiet_run (g : Cfg) : ∀ l x, run g {} l = some x → Quiet x := by
  intro l
  induction l using snoc_induction with
  | nil => intro x h; cases h; exact ⟨(fun _ m hm => by cases hm), fun _ => rfl, by simp⟩
  | snoc l e ih =>
    intro x' h
    obtain ⟨x, hx, hst⟩ := run_snoc h
    have ih := ih x hx
    have t := step_tr g x x' e hst
    have hback : App.connected ∉ x'.out → App.connected ∉ x.out := fun hn hc => hn (mem_out_tr g x x' e t hc)
    have hna : App.connected ∉ x.out → x.flag ≠ .approved := by
      intro hn
      rcases (who_run g l x hx).who with a | a
      · exact a.2.2.2
      · exact absurd a.1 hn
    constructor
    · intro hn
      have hs := ih.sent (hback hn)
      have hadd : ∀ (b : List Nat), ∀ m ∈ x.sent ++ [authMsg b], m.cmd = cmdAuth := by
        intro b m hm
        rcases List.mem_append.mp hm with hm | hm
        · exact hs m hm
        · rw [List.mem_singleton.mp hm]; rfl
      cases t with
      | quiet _ _ hf hc hu hg ho hse =>
        rcases hse with hse | ⟨m, _, _, hap, _⟩
        · rw [hse]; exact hs
        · exact absurd hap (hna (hback hn))
      | wait w c ok _ h0 hf hc hu hg ho hse =>
        rcases hse with hse | ⟨_, hse⟩ | ⟨_, hse⟩ | ⟨_, hse⟩
        · rw [hse]; exact hs
        · rw [hse]; exact hadd _
        · rw [hse]; exact hadd _
        · rw [hse]; exact hadd _
      | free w c ok _ h0 hp hf hc hu hg ho hse => rw [hse]; exact hs
      | approve m ok _ hm h0 hf hc hw ho hse => rw [hse]; exact hs
      | answer m ok c _ hp hm h0 hx => subst hx; exact hadd _
      | fail m ok hm => exact hs
      | last _ t _ he hd hf hc hu hg ho hse => rw [hse]; exact hs
    · intro hn
      have h0 := ih.meets (hback hn)
      cases e with
      | connected w c ok =>
        simp only [step] at hst
        split at hst
        · cases hst; exact h0
        · cases hst; rw [(authBegin_same g x c ok).1]; exact h0
      | connectError => cases hst; exact h0
      | rejected => simp only [step] at hst; split at hst <;> cases hst; exact h0
      | disconnected => simp only [step] at hst; split at hst <;> (cases hst; exact h0)
      | recv m ok =>
        simp only [step, recv] at hst
        split at hst
        · cases hst
        · split at hst
          · cases hst; rw [(handle_same x m).1]; exact h0
          · split at hst
            · rw [(recvAuth_same g x x' _ _ _ hst).1]; exact h0
            · split at hst <;> cases hst; rw [(handle_same x m).1]; exact h0
      | sendComplete a => simp only [step] at hst; split at hst <;> (cases hst; exact h0)
      | rendezvous =>
        simp only [step] at hst
        split at hst
        · next ha => exact absurd ha (hna (hback hn))
        · cases hst; exact h0
      | ask m => simp only [step] at hst; split at hst <;> (cases hst; exact h0)
      | close => cases hst; exact h0
    · intro hn
      have h0 := ih.complete (hback hn)
      cases e with
      | connected w c ok =>
        simp only [step] at hst
        split at hst
        · cases hst; exact h0
        · cases hst; exact fun hc => h0 ((authBegin_same g x c ok).2 hc)
      | connectError => cases hst; simp [h0]
      | rejected => simp only [step] at hst; split at hst <;> cases hst; simp [h0]
      | disconnected =>
        simp only [step] at hst
        split at hst <;> (cases hst)
        · cases x.flag <;> simp [h0, endEvent]
        · exact h0
      | recv m ok =>
        simp only [step, recv] at hst
        split at hst
        · cases hst
        · split at hst
          · cases hst; exact fun hc => h0 ((handle_same x m).2 hc)
          · split at hst
            · exact fun hc => h0 ((recvAuth_same g x x' _ _ _ hst).2 hc)
            · split at hst <;> cases hst; exact fun hc => h0 ((handle_same x m).2 hc)
      | sendComplete a =>
        simp only [step] at hst
        split at hst
        · next ha =>
          simp only [Bool.and_eq_true, decide_eq_true_eq] at ha
          exact absurd ha.2 (hna (hback hn))
        · cases hst; exact h0
      | rendezvous => simp only [step] at hst; split at hst <;> (cases hst; exact h0)
      | ask m => simp only [step] at hst; split at hst <;> (cases hst; exact h0)
      | close => cases hst; exact h0

/-- Before the application is told CONNECTED, only authentication messages have been sent, no rendezvous was
handled and no completion was told. -/
theorem nothing_before_connected (g : Cfg) (es : List Ev) (x : X) (h : run g {} es = some x)
    (hc : App.connected ∉ x.out) :
    (∀ m ∈ x.sent, m.cmd = cmdAuth) ∧ x.meets = 0 ∧ App.sendComplete ∉ x.out :=
  ⟨(quiet_run g es x h).sent hc, (quiet_run g es x h).meets hc, (quiet_run g es x h).complete hc⟩

/-- What the peer or the network did is what is told: a rejection by the peer as REJECTED, a connection that
could not be made as ERROR. -/
theorem refusal_told (g : Cfg) (es : List Ev) (e : Ev) (x : X) (h : run g {} (es ++ [e]) = some x)
    (hp : phase .idle (es ++ [e]) = some .done) :
    (e = .rejected → conns x.out = [.rejected]) ∧ (e = .connectError → conns x.out = [.error]) := by
  obtain ⟨y, hy, hst⟩ := run_snoc h
  obtain ⟨p, hp', hn⟩ := phase_snoc hp
  have ht := told_run g es y hy p hp'
  generalize hf : y.flag = f at ht
  generalize ho : conns y.out = o at ht
  constructor
  · intro he
    subst he
    cases p <;> simp only [next, reduceCtorEq] at hn
    simp only [step] at hst
    split at hst
    · cases hst
      rw [conns_append, ho]
      cases ht
      rfl
    · cases hst
  · intro he
    subst he
    cases p <;> simp only [next, reduceCtorEq] at hn
    cases hst
    rw [conns_append, ho]
    cases ht
    rfl

/-- The application of an active transport is told CONNECTED only if the first message of the peer has the
right version and plugin (`other_plugin_refused`). -/
theorem connected_needs_verified (g : Cfg) (es : List Ev) (x : X) (h : run g {} es = some x)
    (hc : App.connected ∈ x.out) : ∃ w c ok, Ev.connected w c ok ∈ es ∧ (g.active = true → w = true) := by
  suffices ∀ l x, run g {} l = some x → (x.flag = .busy ∨ App.connected ∈ conns x.out) →
      ∃ w c ok, Ev.connected w c ok ∈ l ∧ (g.active = true → w = true) from
    this es x h (.inr ((mem_conns _).mp hc))
  intro l
  induction l using snoc_induction with
  | nil => intro x h hh; cases h; simp [conns] at hh
  | snoc l e ih =>
    intro x' h hh
    obtain ⟨x, hx, hst⟩ := run_snoc h
    have ih := ih x hx
    have back : (x.flag = .busy ∨ App.connected ∈ conns x.out) →
        ∃ w c ok, Ev.connected w c ok ∈ l ++ [e] ∧ (g.active = true → w = true) := by
      intro hb
      obtain ⟨w, c, ok, h1, h2⟩ := ih hb
      exact ⟨w, c, ok, List.mem_append_left _ h1, h2⟩
    have now : ∀ w c ok, e = .connected w c ok → (x.flag = .init → x'.flag ≠ .init) → x.flag = .init →
        ∃ w c ok, Ev.connected w c ok ∈ l ++ [e] ∧ (g.active = true → w = true) := by
      intro w c ok he hne h0
      subst he
      refine ⟨w, c, ok, by simp, ?_⟩
      intro ha
      simp only [step, ha, Bool.true_and] at hst
      split at hst
      · cases hst; exact absurd h0 (hne h0)
      · next hw => simpa using hw
    cases step_tr g x x' e hst with
    | quiet _ _ hf hc hu hg ho => rw [hf, ho] at hh; exact back hh
    | wait w c ok _ h0 hf => exact now w c ok rfl (fun _ => by rw [hf]; simp) h0
    | free w c ok _ h0 hp hf => exact now w c ok rfl (fun _ => by rw [hf]; simp) h0
    | approve m ok _ hm h0 hf => exact back (.inl h0)
    | answer m ok c _ hp hm h0 hx => exact back (.inl h0)
    | fail m ok hm =>
      rcases hh with hh | hh
      · cases hh
      · exact back (.inr hh)
    | last _ t _ he hd hf hc hu hg ho =>
      rw [hf, ho, conns_append] at hh
      rcases hh with hh | hh
      · exact back (.inl hh)
      · rcases List.mem_append.mp hh with hh | hh
        · exact back (.inr hh)
        · rcases he with ⟨_, ht⟩ | ⟨_, ht⟩ | ⟨_, ht, _⟩
          · rw [ht] at hh
            cases hf' : x.flag <;> rw [hf'] at hh <;> simp [conns, isConn, endEvent] at hh
          · rw [ht] at hh; simp [conns, isConn] at hh
          · rw [ht] at hh; simp [conns, isConn] at hh

/-- once authentication has failed, CONNECTED is not told any more -/
theorem failed_stays (g : Cfg) : ∀ (es : List Ev) (x x' : X), x.flag = .failed → run g x es = some x' →
    x'.flag = .failed ∧ (App.connected ∈ x'.out → App.connected ∈ x.out) := by
  intro es
  induction es with
  | nil => intro x x' h0 h; cases h; exact ⟨h0, id⟩
  | cons e es ih =>
    intro x x' h0 h
    simp only [run] at h
    cases hst : step g x e with
    | none => rw [hst] at h; cases h
    | some y =>
      rw [hst] at h
      have key : y.flag = .failed ∧ (App.connected ∈ y.out → App.connected ∈ x.out) := by
        rw [mem_conns y.out, mem_conns x.out]
        cases step_tr g x y e hst with
        | quiet _ _ hf hc hu hg ho => rw [hf, ho]; exact ⟨h0, id⟩
        | wait w c ok _ h1 => rw [h0] at h1; cases h1
        | free w c ok _ h1 => rw [h0] at h1; cases h1
        | approve m ok _ hm h1 => rw [h0] at h1; cases h1
        | answer m ok c _ hp hm h1 => rw [h0] at h1; cases h1
        | fail m ok hm => exact ⟨rfl, id⟩
        | last _ t _ he hd hf hc hu hg ho =>
          rw [hf, ho, conns_append]
          refine ⟨h0, ?_⟩
          intro hh
          rcases List.mem_append.mp hh with hh | hh
          · exact hh
          · rcases he with ⟨_, ht⟩ | ⟨_, ht⟩ | ⟨_, ht, _⟩ <;> rw [ht] at hh <;>
              simp [h0, conns, isConn, endEvent] at hh
      obtain ⟨h1, h2⟩ := ih y x' key.1 h
      exact ⟨h1, fun hc => key.2 (h2 hc)⟩

/-- the plugin `none` answers at once -/
theorem none_never_busy (g : Cfg) (hp : g.plugin = .none) : ∀ l x, run g {} l = some x → x.flag ≠ .busy := by
  intro l
  induction l using snoc_induction with
  | nil => intro x h; cases h; simp
  | snoc l e ih =>
    intro x' h
    obtain ⟨x, hx, hst⟩ := run_snoc h
    have ih := ih x hx
    have t := step_tr g x x' e hst
    cases t with
    | quiet _ _ hf => rw [hf]; exact ih
    | wait w c ok _ h0 hf =>
      simp only [step] at hst
      split at hst
      · cases hst; exact ih
      · cases hst
        unfold authBegin
        split
        · exact ih
        · rw [hp]; simp [authEnd]
    | free w c ok _ h0 hp hf => rw [hf]; simp
    | approve m ok _ hm h0 hf => rw [hf]; simp
    | answer m ok c _ hp hm h0 hx => subst hx; exact ih
    | fail => simp [authFail]
    | last _ t _ he hd hf => rw [hf]; exact ih

/-- A peer has one attempt: after an authentication message that is neither a challenge nor convinces, nothing
it sends makes the application be told CONNECTED, and when the connection ends an active transport or a rail
reports REJECTED. -/
theorem one_attempt (g : Cfg) (pre post : List Ev) (m : Msg) (ok : Bool) (y z : X) (hm : m.cmd = cmdAuth)
    (hch : ∀ c, ¬ IsChal m c) (hy : run g {} (pre ++ [.recv m ok]) = some y) (hn : App.connected ∉ y.out)
    (hp : phase .idle pre = some .up) (hz : run g y post = some z) :
    App.connected ∉ z.out ∧
      ((g.active = true ∨ g.rail = true) → post = [.disconnected] → conns z.out = [.rejected]) := by
  obtain ⟨x, hx, hst⟩ := run_snoc hy
  have hfail : y.flag = .failed := by
    have t := step_tr g x y _ hst
    generalize hev : Ev.recv m ok = e at t
    cases t with
    | quiet _ _ hf hc hu hg ho hs hh h1 h2 h3 h4 =>
      subst hev
      -- only the plugin `none` passes over a message while BUSY, and it is never BUSY
      have hb := h4 m ok rfl hm
      exact absurd hb.1 (none_never_busy g hb.2 pre x hx)
    | wait => cases hev
    | free => cases hev
    | approve m' ok' _ hm' h0 hf hc hw ho => exact absurd (by rw [ho]; simp) hn
    | answer m' ok' c _ hp' hm' h0 hx' => cases hev; exact absurd hm' (hch c)
    | fail => rfl
    | last _ t _ he =>
      subst hev
      rcases he with ⟨he, _⟩ | ⟨he, _⟩ | ⟨he, _⟩ <;> cases he
  refine ⟨fun hc => hn ((failed_stays g post y z hfail hz).2 hc), ?_⟩
  intro ha hpost
  subst hpost
  have hyp : phase .idle (pre ++ [.recv m ok]) = some .up := by
    rw [phase_append, hp]; rfl
  have ht := told_run g _ y hy _ hyp
  rw [hfail] at ht
  have ho : conns y.out = [] := by
    rw [mem_conns] at hn
    generalize conns y.out = o at ht hn
    cases ht with
    | t1 _ hf => rcases hf with hf | hf <;> cases hf
    | t2 => rfl
    | t4 => simp at hn
  simp only [run, step, hfail, endEvent] at hz
  rw [if_pos (by rcases ha with ha | ha <;> simp [ha])] at hz
  cases hz
  rw [conns_append, ho]
  rfl

/-! ### Crashes -/

/-- a message an honest program sends: a known command below the end of the operation table, and
authentication messages that are as long as they claim and as long as their kind needs -/
def WellFormed (m : Msg) : Prop :=
  (isRequest m.cmd = true ∨ (cmdReply < m.cmd ∧ m.cmd < opTbl)) ∨
  (m.cmd = cmdAuth ∧ m.len = m.body.length ∧ m.len < 4294967296 ∧ 8 ≤ m.body.length ∧
    ([1, 0, 0, 0] <+: m.body → 12 ≤ m.body.length))

theorem strcmpEq_some (b h : List Nat) (hz : 0 ∈ b) : ∃ r, strcmpEq b h = some r := by
  induction b generalizing h with
  | nil => cases hz
  | cons k ks ih =>
    simp only [strcmpEq]
    split
    · exact ⟨_, rfl⟩
    · next hk =>
      cases h with
      | nil => exact ⟨_, rfl⟩
      | cons a l =>
        dsimp only
        split
        · exact ih l (by
            rcases List.mem_cons.mp hz with h | h
            · exact absurd h.symm hk
            · exact h)
        · exact ⟨_, rfl⟩

/-- while BUSY, an `ovis` transport has a challenge -/
theorem busy_chal (g : Cfg) (hp : g.plugin = .ovis) : ∀ l x, run g {} l = some x →
    (x.flag = .busy → ∃ c, x.chal = some c) := by
  apply run_ind g (fun _ x => x.flag = .busy → ∃ c, x.chal = some c)
  · intro h; cases h
  · intro l x e x' _ ih t
    cases t with
    | quiet _ _ hf hc => rw [hf, hc]; exact ih
    | wait w c ok _ h0 hf hc => intro _; rw [hc]; exact ⟨c, by simp [hp]⟩
    | free w c ok _ h0 hp' hf => rw [hf]; intro h; cases h
    | approve m ok _ hm h0 hf => rw [hf]; intro h; cases h
    | answer m ok c _ hp' hm h0 hx => subst hx; exact ih
    | fail m ok hm => intro h; cases h
    | last _ t _ he hd hf hc => rw [hf, hc]; exact ih

/-- No history of well-formed messages makes a transport crash (a passive transport is never rejected). -/
theorem no_crash_partial (g : Cfg) (es : List Ev) (hw : ∀ m ok, Ev.recv m ok ∈ es → WellFormed m)
    (hr : Ev.rejected ∈ es → g.active = true) : ∃ x, run g {} es = some x := by
  induction es using snoc_induction with
  | nil => exact ⟨_, rfl⟩
  | snoc l e ih =>
    obtain ⟨x, hx⟩ := ih (fun m ok h => hw m ok (List.mem_append_left _ h))
      (fun h => hr (List.mem_append_left _ h))
    suffices ∃ x', step g x e = some x' by
      obtain ⟨x', hx'⟩ := this
      exact ⟨x', run_snoc_of hx hx'⟩
    cases e with
    | connected w c ok => simp only [step]; split <;> exact ⟨_, rfl⟩
    | connectError => exact ⟨_, rfl⟩
    | rejected => simp only [step, hr (by simp), if_true]; exact ⟨_, rfl⟩
    | disconnected => simp only [step]; split <;> exact ⟨_, rfl⟩
    | sendComplete a => simp only [step]; split <;> exact ⟨_, rfl⟩
    | rendezvous => simp only [step]; split <;> exact ⟨_, rfl⟩
    | ask m => simp only [step]; split <;> exact ⟨_, rfl⟩
    | close => exact ⟨_, rfl⟩
    | recv m ok =>
      simp only [step, recv]
      rcases hw m ok (by simp) with (h | h) | ⟨hc, hlen, hlt, h8, h12⟩
      · obtain ⟨e1, e2, e3⟩ := request_cmd m h
        simp only [e1, e2, e3, if_false, h, if_true]
        exact ⟨_, rfl⟩
      · have e1 : ¬ (m.cmd < 0 ∨ opTbl ≤ m.cmd) := by
          have h1 := h.1
          have h2 := h.2
          simp only [cmdReply, opTbl] at h1 h2 ⊢
          omega
        simp only [e1, h.1, if_false, if_true]
        exact ⟨_, rfl⟩
      · have e1 : ¬ (cmdAuth < 0 ∨ opTbl ≤ cmdAuth) := by decide
        have e2 : ¬ (cmdReply < cmdAuth) := by decide
        simp only [hc, e1, e2, if_false, if_true]
        unfold recvAuth
        split
        · exact ⟨_, rfl⟩
        · next hb =>
          have hb : x.flag = .busy := Decidable.not_not.mp hb
          cases hp : g.plugin with
          | none => exact ⟨_, rfl⟩
          | naive =>
            dsimp only
            split
            · exact ⟨_, rfl⟩
            · rw [if_neg (by omega)]; exact ⟨_, rfl⟩
          | munge =>
            dsimp only
            split <;> exact ⟨_, rfl⟩
          | ovis =>
            dsimp only
            rw [if_neg (by omega)]
            split
            · next h1 =>
              have := h12 (take_eq_prefix 4 _ _ h1)
              rw [if_neg (by omega)]
              split <;> exact ⟨_, rfl⟩
            · split
              · obtain ⟨c, hcc⟩ := busy_chal g hp l x hx hb
                have hi : (m.len + 4294967295) % 4294967296 = m.body.length - 1 := by omega
                have hlt' : m.body.length - 1 < m.body.length := by omega
                rw [hi, List.getElem?_eq_getElem hlt']
                dsimp only
                split
                · exact ⟨_, rfl⟩
                · next hz =>
                  have hz : m.body[m.body.length - 1] = 0 := Decidable.not_not.mp hz
                  rw [hcc]
                  dsimp only
                  have hmem : (0 : Nat) ∈ m.body.drop 4 := by
                    have h' : (m.body.drop 4)[m.body.length - 1 - 4]? = some 0 := by
                      rw [List.getElem?_drop, show 4 + (m.body.length - 1 - 4) = m.body.length - 1 by omega,
                        List.getElem?_eq_getElem hlt', hz]
                    exact List.mem_of_getElem? h'
                  obtain ⟨r, hr'⟩ := strcmpEq_some (m.body.drop 4) (g.H c g.secret) hmem
                  rw [hr']
                  cases r <;> exact ⟨_, rfl⟩
              · exact ⟨_, rfl⟩

/-! ### The secret -/

/-- Whoever convinces a transport of the `ovis` plugin without knowing the secret has had the challenge of
that transport answered by a holder of the secret: some transport with the secret received a challenge with
the same digest. -/
theorem secret_was_used (g : Nat → Cfg) (H : Nat → List Nat → List Nat) (s : List Nat)
    (hg : ∀ i, (g i).plugin = .ovis ∧ (g i).H = H ∧ (g i).secret = s) (hz : ∀ c, 0 ∉ H c s)
    (tr : List (Nat × Ev)) (w : World) (h : wrun g (fun _ => {}) tr = some w) (hn : NoSecret g H s tr) (i : Nat)
    (hi : App.connected ∈ (w i).out) :
    ∃ c v ok, (i, Ev.connected v c ok) ∈ tr ∧
      ∃ j m ok' c', (j, Ev.recv m ok') ∈ tr ∧ IsChal m c' ∧ H c' s = H c s := by
  obtain ⟨hp, hH, hS⟩ := hg i
  have hrun := wrun_proj g tr _ w h i
  have hsh := connected_needs_proof (g i) _ _ hrun hi
  rw [Shown, hp] at hsh
  obtain ⟨_, _, c, v, ok, m, ok', h1, h2, h3⟩ := hsh
  rw [mem_proj] at h1 h2
  rw [hH, hS] at h3
  refine ⟨c, v, ok, h1, ?_⟩
  obtain ⟨pre, post, htr⟩ := List.append_of_mem h2
  obtain ⟨w', j, m', hw', hm', hr'⟩ := hn pre i m ok' post c htr h3
  obtain ⟨hpj, hHj, hSj⟩ := hg j
  have hrj := wrun_proj g pre _ w' hw' j
  obtain ⟨c', m2, ok2, h4, h5, h6⟩ := sent_reply (g j) hpj (by rw [hHj, hSj]; exact hz) _ _ hrj m' hm' c
    (by rw [hHj, hSj]; exact hr')
  rw [mem_proj] at h4
  rw [hHj, hSj] at h6
  exact ⟨j, m2, ok2, c', by rw [htr]; exact List.mem_append_left _ h4, h5, h6⟩

/-- Part of "who does not know the secret is not approved": if digests of different challenges differ, and no
challenge is presented to the transport that issued it, then another transport with the secret took part. -/
theorem another_holder_partial (g : Nat → Cfg) (H : Nat → List Nat → List Nat) (s : List Nat)
    (hg : ∀ i, (g i).plugin = .ovis ∧ (g i).H = H ∧ (g i).secret = s) (hz : ∀ c, 0 ∉ H c s)
    (hinj : ∀ c c', H c s = H c' s → c = c')
    (tr : List (Nat × Ev)) (w : World) (h : wrun g (fun _ => {}) tr = some w) (hn : NoSecret g H s tr)
    (hown : ∀ i v c ok m ok', (i, Ev.connected v c ok) ∈ tr → (i, Ev.recv m ok') ∈ tr → ¬ IsChal m c) (i : Nat)
    (hi : App.connected ∈ (w i).out) :
    ∃ c v ok, (i, Ev.connected v c ok) ∈ tr ∧
      ∃ j m ok', j ≠ i ∧ (j, Ev.recv m ok') ∈ tr ∧ IsChal m c := by
  obtain ⟨c, v, ok, h1, j, m, ok', c', h2, h3, h4⟩ := secret_was_used g H s hg hz tr w h hn i hi
  have hcc := hinj _ _ h4
  subst hcc
  refine ⟨c', v, ok, h1, j, m, ok', ?_, h2, h3⟩
  intro hj
  subst hj
  exact hown _ v c' ok m ok' h1 h2 h3

/-- the digest of the examples: the challenge in front of the secret, in numbers from 1 on -/
def toyH (c : Nat) (s : List Nat) : List Nat := (c + 1) :: s

def ovisCfg (active : Bool) (s : List Nat) : Cfg :=
  { active, rail := false, plugin := .ovis, uid := 0, gid := 0, secret := s, H := toyH, mungeCred := [],
    munge := fun _ => none }

/-- the history of `reflection_defect`: the transport gets its own challenge back, and then its own answer -/
def reflection (c : Nat) (s : List Nat) : List (Nat × Ev) :=
  [(0, .connected true c true), (0, .recv (authMsg (ovisChal c)) true),
   (0, .recv (authMsg (ovisReply (toyH c s))) true)]

theorem wrun_cons (g : Nat → Cfg) (w : World) (i : Nat) (e : Ev) (es : List (Nat × Ev)) (x : X)
    (h : step (g i) (w i) e = some x) :
    wrun g w ((i, e) :: es) = wrun g (fun j => if j = i then x else w j) es := by
  simp only [wrun, wstep, h]

theorem reflect1 (s : List Nat) (c : Nat) : step (ovisCfg false s) {} (.connected true c true) =
    some { flag := .busy, chal := some c, sent := [authMsg (ovisChal c)] } := rfl

theorem reflect2 (s : List Nat) (c : Nat) (hc : c < 256 ^ 8) :
    step (ovisCfg false s) { flag := .busy, chal := some c, sent := [authMsg (ovisChal c)] }
      (.recv (authMsg (ovisChal c)) true) =
    some { flag := .busy, chal := some c, sent := [authMsg (ovisChal c), authMsg (ovisReply (toyH c s))] } :=
  recv_chal (ovisCfg false s) rfl { flag := .busy, chal := some c, sent := [authMsg (ovisChal c)] } rfl c hc

theorem reflect3 (s : List Nat) (hs : 0 ∉ s) (c : Nat) (hl : s.length < 4294967000) :
    step (ovisCfg false s)
      { flag := .busy, chal := some c, sent := [authMsg (ovisChal c), authMsg (ovisReply (toyH c s))] }
      (.recv (authMsg (ovisReply (toyH c s))) true) =
    some { flag := .approved, chal := some c, ruid := 0, rgid := 0, out := [.connected],
           sent := [authMsg (ovisChal c), authMsg (ovisReply (toyH c s))] } := by
  have h0 : 0 ∉ (ovisCfg false s).H c (ovisCfg false s).secret := by simp [ovisCfg, toyH, hs]
  have h1 : ((ovisCfg false s).H c (ovisCfg false s).secret).length < 4294967200 := by
    simp only [ovisCfg, toyH, List.length_cons]; omega
  exact recv_reply (ovisCfg false s) rfl
    { flag := .busy, chal := some c, sent := [authMsg (ovisChal c), authMsg (ovisReply (toyH c s))] } rfl c rfl h0 h1

/-- Who does not know the secret is approved all the same: a peer that returns the challenge it was sent
receives the digest it needs.  Nobody else holds the secret or takes part. -/
theorem reflection_defect (s : List Nat) (hs : 0 ∉ s) (c : Nat) (hc : c < 256 ^ 8)
    (hl : s.length < 4294967000) :
    ∃ w, wrun (fun _ => ovisCfg false s) (fun _ => {}) (reflection c s) = some w ∧
      NoSecret (fun _ => ovisCfg false s) toyH s (reflection c s) ∧
      (w 0).out = [.connected] ∧ (w 0).ruid = 0 := by
  have s1 := reflect1 s c
  have s2 := reflect2 s c hc
  have s3 := reflect3 s hs c hl
  generalize hx1 : X.mk .busy (some c) nobody nobody false [authMsg (ovisChal c)] [] [] 0 = x1 at s1 s2
  generalize hx2 : X.mk .busy (some c) nobody nobody false
    [authMsg (ovisChal c), authMsg (ovisReply (toyH c s))] [] [] 0 = x2 at s2 s3
  generalize hx3 : X.mk .approved (some c) 0 0 false
    [authMsg (ovisChal c), authMsg (ovisReply (toyH c s))] [.connected] [] 0 = x3 at s3
  have w2 : wrun (fun _ => ovisCfg false s) (fun _ => {})
      [(0, .connected true c true), (0, .recv (authMsg (ovisChal c)) true)] =
      some (fun j => if j = 0 then x2 else if j = 0 then x1 else {}) := by
    rw [wrun_cons _ _ _ _ _ _ s1, wrun_cons _ _ _ _ _ _ (by rw [if_pos rfl]; exact s2)]
    rfl
  have w3 : wrun (fun _ => ovisCfg false s) (fun _ => {}) (reflection c s) =
      some (fun j => if j = 0 then x3 else if j = 0 then x2 else if j = 0 then x1 else {}) := by
    rw [reflection, wrun_cons _ _ _ _ _ _ s1, wrun_cons _ _ _ _ _ _ (by rw [if_pos rfl]; exact s2),
      wrun_cons _ _ _ _ _ _ (by rw [if_pos rfl]; exact s3)]
    rfl
  refine ⟨_, w3, ?_, by simp [← hx3], by simp [← hx3]⟩
  intro pre i m ok post d htr hr
  match pre, htr with
  | [], htr => simp [reflection] at htr
  | [p], htr =>
    simp only [reflection, List.cons_append, List.nil_append, List.cons.injEq, Prod.mk.injEq, Ev.recv.injEq] at htr
    obtain ⟨-, ⟨-, rfl, -⟩, -⟩ := htr
    exact absurd hr (chal_not_reply c _)
  | [p, q], htr =>
    simp only [reflection, List.cons_append, List.nil_append, List.cons.injEq, Prod.mk.injEq, Ev.recv.injEq] at htr
    obtain ⟨rfl, rfl, ⟨-, rfl, -⟩, -⟩ := htr
    exact ⟨_, 0, _, w2, by simp [← hx2], hr⟩
  | p :: q :: r :: l, htr =>
    simp [reflection] at htr

/-! ### Two honest ends -/

/-- Two ends with the same secret on a healthy connection: nothing crashes, whatever the order; neither
application is told of a failure; a request is handled only for an approved peer; and when everything sent has
arrived both applications have been told CONNECTED. -/
theorem same_secret_connects (ga gb : Cfg) (hpa : ga.plugin = .ovis) (hpb : gb.plugin = .ovis)
    (hH : gb.H = ga.H) (hS : gb.secret = ga.secret) (hz : ∀ c, 0 ∉ ga.H c ga.secret)
    (hl : ∀ c, (ga.H c ga.secret).length < 4294967200) (es : List PEv) (hd : ∀ e ∈ es, Drawn e) :
    ∃ p, prun ga gb {} es = some p ∧
      (conns p.a.out = [] ∨ conns p.a.out = [.connected]) ∧ (conns p.b.out = [] ∨ conns p.b.out = [.connected]) ∧
      (∀ k ∈ p.a.handled ++ p.b.handled, k.uid = 0 ∧ k.gid = 0) ∧
      (p.a.flag ≠ .init → p.b.flag ≠ .init → p.na = p.b.sent.length → p.nb = p.a.sent.length →
        conns p.a.out = [.connected] ∧ conns p.b.out = [.connected]) := by
  obtain ⟨p, h1, h2⟩ := pinv_run ga gb hpa hpb hH hS hz hl es {} hd
    ⟨.s0 _, .s0 _, Nat.le_refl _, Nat.le_refl _⟩
  have hout : ∀ (g : Cfg) (x : X) (n : Nat) (pc : Option Nat), Side g x n pc →
      (conns x.out = [] ∨ conns x.out = [.connected]) ∧ (∀ k ∈ x.handled, k.uid = 0 ∧ k.gid = 0) := by
    intro g x n pc h
    cases h with
    | s0 => exact ⟨.inl rfl, (fun k hk => by cases hk)⟩
    | s1 => exact ⟨.inl rfl, (fun k hk => by cases hk)⟩
    | s2 => exact ⟨.inl rfl, (fun k hk => by cases hk)⟩
    | s3 c d n x l hc hf hch ht hs hl hn hu ho hh => exact ⟨.inr ho, hh⟩
  refine ⟨p, h1, (hout _ _ _ _ h2.a).1, (hout _ _ _ _ h2.b).1, ?_, ?_⟩
  · intro k hk
    rcases List.mem_append.mp hk with hk | hk
    · exact (hout _ _ _ _ h2.a).2 k hk
    · exact (hout _ _ _ _ h2.b).2 k hk
  · intro fa fb na nb
    have ha := h2.a
    have hb := h2.b
    generalize p.a = a at *
    generalize p.b = b at *
    generalize p.na = n at *
    generalize p.nb = m at *
    generalize hca : a.chal = ca at hb
    generalize hcb : b.chal = cb at ha
    cases ha with
    | s0 => exact absurd rfl fa
    | s1 c hc =>
      cases hb with
      | s0 => exact absurd rfl fb
      | s1 => cases na
      | s2 => cases na
      | s3 c d n x l hc hf hch ht hs => rw [hs] at na; cases na
    | s2 c d hc =>
      cases hb with
      | s0 => exact absurd rfl fb
      | s1 => cases nb
      | s2 => cases na
      | s3 c d n x l hc hf hch ht hs => rw [hs] at na; simp at na
    | s3 c d n x l hc hf hch ht hs hl hn hu ho hh =>
      refine ⟨ho, ?_⟩
      cases hb with
      | s0 => exact absurd rfl fb
      | s1 => rw [hs] at nb; cases nb
      | s2 => rw [hs] at nb; simp at nb
      | s3 c d n x l hc hf hch ht hs hl hn hu ho hh => exact ho

/-- Two ends with different secrets (whose digests differ): neither application is told CONNECTED. -/
theorem different_secrets_refused (ga gb : Cfg) (hpa : ga.plugin = .ovis) (hpb : gb.plugin = .ovis)
    (hza : ∀ c, 0 ∉ ga.H c ga.secret) (hzb : ∀ c, 0 ∉ gb.H c gb.secret)
    (hne : ∀ c c', ga.H c ga.secret ≠ gb.H c' gb.secret) (es : List PEv) (p : Pair)
    (h : prun ga gb {} es = some p) : App.connected ∉ p.a.out ∧ App.connected ∉ p.b.out := by
  obtain ⟨la, lb, hh⟩ := hist_run ga gb es {} p h (hist_init ga gb)
  have core : ∀ (g g' : Cfg) (l l' : List Ev) (x y : X), g.plugin = .ovis → g'.plugin = .ovis →
      (∀ c, 0 ∉ g.H c g.secret) → (∀ c, 0 ∉ g'.H c g'.secret) →
      (∀ c c', g.H c g.secret ≠ g'.H c' g'.secret) → run g {} l = some x → run g' {} l' = some y →
      (∀ m ok, Ev.recv m ok ∈ l → m ∈ y.sent) → App.connected ∉ x.out := by
    intro g g' l l' x y hp hp' hz hz' hne hx hy hr hc
    have hsh := connected_needs_proof g l x hx hc
    rw [Shown, hp] at hsh
    obtain ⟨_, _, c, v, ok, m, ok', _, h2, h3⟩ := hsh
    rcases (sent_run g' hp' l' y hy).sent m (hr m ok' h2) with ⟨d, _, rfl⟩ | ⟨d, m', ok2, _, _, rfl⟩ | h4
    · exact chal_not_reply d _ h3
    · exact hne c d (reply_inj _ _ (hz c) (hz' d) h3)
    · exact isRequest_ne m h4 h3.1
  exact ⟨core ga gb la lb p.a p.b hpa hpb hza hzb hne hh.a hh.b hh.ra,
    core gb ga lb la p.b p.a hpb hpa hzb hza (fun c c' => (hne c' c).symm) hh.b hh.a hh.rb⟩

/-- A connection whose peer names another plugin, or has another version, is not accepted. -/
theorem other_plugin_refused (len : Nat) (ver own name plugin : List Nat)
    (h : connMsgVerify len ver own name plugin = true) : ver = own ∧ name.take 16 = plugin.take 16 ∧ 4 ≤ len := by
  unfold connMsgVerify at h
  split at h
  · cases h
  · split at h
    · cases h
    · next h1 h2 => exact ⟨Decidable.not_not.mp h2, by simpa using h, by omega⟩

/-! ### Where the code falls short -/

/-- a request to list the sets -/
def dirMsg : Msg := ⟨0, 0, []⟩

/-- Requests of a peer that has not been approved, or that failed, are handled: there is no guard in
`recv_cb`.  The application is even handed a message of such a peer. -/
theorem unapproved_request_defect (s : List Nat) (c : Nat) :
    ∃ x, run (ovisCfg false s) {} [.connected true c true, .recv dirMsg true, .recv ⟨cmdSend, 2, [104, 105]⟩ true,
        .recv ⟨cmdAuth, 8, [0, 0, 0, 0, 0, 0, 0, 0]⟩ true, .recv dirMsg true] = some x ∧
      x.flag = .failed ∧ App.connected ∉ x.out ∧ App.recv 2 [104, 105] ∈ x.out ∧
      x.handled = [⟨0, nobody, nobody⟩, ⟨5, nobody, nobody⟩, ⟨0, nobody, nobody⟩] :=
  ⟨⟨.failed, some c, nobody, nobody, true, [authMsg (ovisChal c)], [.recv 2 [104, 105]],
    [⟨0, nobody, nobody⟩, ⟨5, nobody, nobody⟩, ⟨0, nobody, nobody⟩], 0⟩, rfl, rfl, by simp, by simp, rfl⟩

/-- An authentication message after the approval turns the end of the connection into REJECTED; the
application of a passive transport, which was told CONNECTED, is told nothing at all. -/
theorem late_auth_defect (g : Cfg) (hp : g.plugin = .none) :
    ∃ x, run g {} [.connected true 0 true, .recv ⟨cmdAuth, 0, []⟩ true, .disconnected] = some x ∧
      conns x.out = if g.rail || g.active then [.connected, .rejected] else [.connected] := by
  obtain ⟨a, r, p, u, v, s, H, mc, mu⟩ := g
  cases hp
  cases a <;> cases r <;> exact ⟨_, rfl, rfl⟩

/-- A peer that has not been approved can end the process: by a command that is not known, by a negative one,
by an authentication message that is shorter than it claims. -/
theorem crash_defect (s : List Nat) (c : Nat) :
    run (ovisCfg false s) {} [.connected true c true, .recv ⟨8, 0, []⟩ true] = none ∧
    run (ovisCfg false s) {} [.connected true c true, .recv ⟨-1, 0, []⟩ true] = none ∧
    run (ovisCfg false s) {} [.connected true c true, .recv ⟨cmdAuth, 1000000, [2, 0, 0, 0, 0]⟩ true] = none :=
  ⟨rfl, rfl, rfl⟩

/-- Replies an honest peer sends to deletions and stream subscriptions (0x10a to 0x10c) index the operation
table beyond its end. -/
theorem op_table_defect (g : Cfg) (x : X) (cmd : Int) (h : cmd = 0x10a ∨ cmd = 0x10b ∨ cmd = 0x10c) (ok : Bool) :
    step g x (.recv ⟨cmd, 0, []⟩ ok) = none := by
  rcases h with rfl | rfl | rfl <;> rfl

/-! ### The hypotheses are met -/

/-- an `ovis` transport that is approved and then lost -/
def good (s : List Nat) : List Ev :=
  [.connected true 7 true, .recv (authMsg (ovisChal 9)) true, .recv (authMsg (ovisReply (toyH 7 s))) true,
   .ask dirMsg, .sendComplete true, .rendezvous, .disconnected]

example : ∃ x, run (ovisCfg true [5, 6]) {} (good [5, 6]) = some x ∧ phase .idle (good [5, 6]) = some .done ∧
    x.out = [.connected, .sendComplete, .disconnected] ∧ x.sent.length = 3 ∧ x.meets = 1 :=
  ⟨_, rfl, rfl, rfl, rfl, rfl⟩

example : (run (ovisCfg true [5, 6]) {} (good [5, 7])).map (fun x => x.out) = some [.rejected] := by decide

example : ∀ m ok, Ev.recv m ok ∈ good [5, 6, 7] → WellFormed m := by
  intro m ok h
  simp only [good, List.mem_cons, List.not_mem_nil, or_false, reduceCtorEq, false_or, Ev.recv.injEq] at h
  rcases h with ⟨rfl, _⟩ | ⟨rfl, _⟩
  · exact .inr ⟨rfl, by decide, by decide, by decide, by intro _; decide⟩
  · exact .inr ⟨rfl, by decide, by decide, by decide, by rintro ⟨r, hr⟩; simp [authMsg, ovisReply] at hr⟩

/-- a second answer does not help after a wrong first one; hypotheses of `one_attempt` -/
example : ∃ y z, run (ovisCfg true [5, 6]) {} [.connected true 7 true, .recv (authMsg (ovisReply [1])) true] = some y ∧
    run (ovisCfg true [5, 6]) y [.recv (authMsg (ovisReply (toyH 7 [5, 6]))) true, .disconnected] = some z ∧
    App.connected ∉ y.out ∧ z.out = [.rejected] := ⟨_, _, rfl, rfl, by decide, rfl⟩

example : ∀ c, ¬ IsChal (authMsg (ovisReply [1])) c := by
  rintro c ⟨_, ⟨r, hr⟩, _⟩
  simp [authMsg, ovisReply] at hr

example : phase .idle [.rejected] = some .done ∧ phase .idle [.connectError] = some .done := ⟨rfl, rfl⟩

/-- a whole conversation of two ends -/
def talk : List PEv := [.upA 7, .toB, .upB 9, .toB, .toA, .toA, .askA dirMsg, .toB, .toB, .toB]

example : (prun (ovisCfg true [5]) (ovisCfg false [5]) {} talk).map
    (fun p => (p.a.out, p.b.out, p.b.handled, p.na, p.nb)) =
    some ([.connected], [.connected], [⟨0, 0, 0⟩], 2, 3) := by decide

example : (prun (ovisCfg true [5]) (ovisCfg false [6]) {} talk).map
    (fun p => (p.a.out, p.b.out, p.a.flag, p.b.flag)) = some ([], [], .failed, .failed) := by decide

example : ∀ c c', toyH c [5] ≠ toyH c' [6] := by intro c c' h; simp [toyH] at h

example : ∀ c c', toyH c [5] = toyH c' [5] → c = c' := by intro c c' h; simpa [toyH] using h

/-- a relay: transport 0 is convinced with the help of transport 1, which answers the challenge of 0 -/
example : ∃ w, wrun (fun _ => ovisCfg false [5]) (fun _ => {})
    [(0, .connected true 7 true), (1, .connected true 9 true), (1, .recv (authMsg (ovisChal 7)) true),
     (0, .recv (authMsg (ovisReply (toyH 7 [5]))) true)] = some w ∧ (w 0).out = [.connected] ∧
    (w 1).sent.length = 2 := ⟨_, rfl, rfl, rfl⟩

example : connMsgVerify 20 [4, 3, 2, 1] [4, 3, 2, 1] [111, 118] [111, 118] = true := rfl

end Verif.XprtAuth
