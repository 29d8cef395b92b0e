import Verif.Failover.Proofs

namespace Verif.Failover

/-- Every way a step can go. -/
theorem step_elim {f g : F} {v : Ev} (h : step f v = some g) (P : Ev → F → Prop)
    (tConnect : ∀ e, f.svc = .start → f.conn = .disconnected → P (.task e) (tryStart e (connect e f)))
    (tPair : ∀ e, f.svc = .start → f.conn = .pairingRetry → P (.task e) (tryStart e (pair e f)))
    (tReset : ∀ e, f.svc = .start → f.conn = .resetting →
      P (.task e) (tryStart e (resetAndRequest e f).1))
    (tNone : ∀ e, f.svc = .start → f.conn = .connecting ∨ f.conn = .pairing ∨
      f.conn = .configuring ∨ f.conn = .error → P (.task e) (tryStart e f))
    (tPing : ∀ e, f.svc = .start → f.conn = .configured → P (.task e) (tryStart e (ping e f)))
    (tStop : ∀ e, f.svc = .stopping → P (.task e) (tryStop e f))
    (cConn : ∀ e, f.conn = .connecting → P (.connected e) (pair e { f with link := .up }))
    (cDisc : P .disconnected (onDisconnected f))
    (rPairAgain : ∀ e, f.conn = .pairing →
      P (.pairResp e EAGAIN) { answered .pair f with conn := .pairingRetry })
    (rPairErr : ∀ e err, f.conn = .pairing → err ≠ 0 →
      P (.pairResp e err) { answered .pair f with conn := .error })
    (rPairOk : ∀ e, f.conn = .pairing →
      (resetAndRequest e { answered .pair f with conn := .resetting }).2 = true →
      P (.pairResp e 0) (resetAndRequest e { answered .pair f with conn := .resetting }).1)
    (rPairFail : ∀ e, f.conn = .pairing →
      (resetAndRequest e { answered .pair f with conn := .resetting }).2 = false →
      P (.pairResp e 0)
        { (resetAndRequest e { answered .pair f with conn := .resetting }).1 with conn := .error })
    (rCfgErr : ∀ err, err ≠ 0 → P (.peercfgResp err) { answered .peercfg f with conn := .error })
    (rCfgOk : P (.peercfgResp 0) { answered .peercfg f with received := true, conn := .configured })
    (rPing : ∀ e d, P (.pingResp e d) (onPingResp e d (answered .ping f)))
    (rReset : ∀ err, P (.resetResp err) (onResetResp err (answered .reset f)))
    (uStart : ∀ e, P (.startCmd e) (startCmd e f))
    (uStop : P .stopCmd (stopCmd f))
    (uConfig : ∀ c, P (.configCmd c) (configCmd c f))
    (uMod : ∀ b, P (.modCmd b) { f with auto := b })
    (uPStart : ∀ e, P (.peercfgStartCmd e) (peercfgStart e f))
    (uPStop : ∀ e, P (.peercfgStopCmd e) (peercfgStop e f).1)
    (qReset : ∀ e, P (.resetReq e) (resetReq e f))
    (qPrdcr : ∀ e n, isFailover n = true →
      P (.cfgReq e .prdcr n) { f with prdcrs := addObj e n f.prdcrs })
    (qUpdtr : ∀ e n, isFailover n = true →
      P (.cfgReq e .updtr n) { f with updtrs := addObj e n f.updtrs })
    (qStrgp : ∀ e n, isFailover n = true →
      P (.cfgReq e .strgp n) { f with strgps := addObj e n f.strgps }) :
    P v g := by
  cases v with
  | task e =>
    simp only [step, task] at h
    split at h
    · cases h
    · rename_i hs
      unfold activeRoutine at h
      split at h
      · cases h; exact tConnect e hs ‹_›
      · cases h; exact tPair e hs ‹_›
      · cases h; exact tReset e hs ‹_›
      · cases h; exact tNone e hs (by simp [*])
      · cases h; exact tNone e hs (by simp [*])
      · cases h; exact tNone e hs (by simp [*])
      · cases h; exact tNone e hs (by simp [*])
      · cases h; exact tPing e hs ‹_›
      · cases h
    · cases h; exact tStop e ‹_›
  | connected e =>
    simp only [step, onConnected] at h
    split at h
    · cases h; exact cConn e ‹_›
    · cases h
  | disconnected => simp only [step] at h; cases h; exact cDisc
  | pairResp e err =>
    simp only [step, onPairResp] at h
    split at h
    · rename_i hc
      split at h
      · rename_i he; subst he; cases h; exact rPairAgain e hc
      · split at h
        · rename_i he; cases h; exact rPairErr e err hc he
        · rename_i he
          have he : err = 0 := by omega
          subst he
          split at h
          · rename_i f1 hr
            cases h
            have := rPairOk e hc (by rw [hr])
            rwa [hr] at this
          · rename_i f1 hr
            cases h
            have := rPairFail e hc (by rw [hr])
            rwa [hr] at this
    · cases h
  | peercfgResp err =>
    simp only [step, onPeercfgResp, Option.some.injEq] at h
    subst h
    split
    · exact rCfgErr err ‹_›
    · have he : err = 0 := by omega
      subst he; exact rCfgOk
  | pingResp e d => simp only [step, Option.some.injEq] at h; subst h; exact rPing e d
  | resetResp err => simp only [step, Option.some.injEq] at h; subst h; exact rReset err
  | startCmd e => simp only [step, Option.some.injEq] at h; subst h; exact uStart e
  | stopCmd => simp only [step, Option.some.injEq] at h; subst h; exact uStop
  | configCmd c => simp only [step, Option.some.injEq] at h; subst h; exact uConfig c
  | modCmd b => simp only [step, Option.some.injEq] at h; subst h; exact uMod b
  | peercfgStartCmd e => simp only [step, Option.some.injEq] at h; subst h; exact uPStart e
  | peercfgStopCmd e => simp only [step, Option.some.injEq] at h; subst h; exact uPStop e
  | resetReq e => simp only [step, Option.some.injEq] at h; subst h; exact qReset e
  | cfgReq e k n =>
    simp only [step, cfgReq] at h
    split at h
    · rename_i hn
      cases k <;> (simp only [Option.some.injEq] at h; subst h)
      · exact qPrdcr e n hn
      · exact qUpdtr e n hn
      · exact qStrgp e n hn
    · cases h

/-! ## Fields after the operations -/

theorem pair_fields (e : Env) (f : F) : (pair e f).svc = f.svc ∧ (pair e f).our = f.our ∧
    (pair e f).ours = f.ours ∧ (pair e f).activated = f.activated ∧ (pair e f).link = f.link ∧
    (pair e f).rtt = f.rtt ∧ (pair e f).idx = f.idx := by
  unfold pair; split
  · simp
  · split <;> simp

theorem ping_fields (e : Env) (f : F) : (ping e f).svc = f.svc ∧ (ping e f).our = f.our ∧
    (ping e f).ours = f.ours ∧ (ping e f).activated = f.activated ∧ (ping e f).link = f.link ∧
    (ping e f).rtt = f.rtt ∧ (ping e f).idx = f.idx := by
  unfold ping; split
  · simp
  · split <;> simp

theorem connect_fields (e : Env) (f : F) : (connect e f).svc = f.svc ∧ (connect e f).our = f.our ∧
    (connect e f).ours = f.ours ∧ (connect e f).activated = f.activated ∧
    (connect e f).pend = f.pend ∧ (connect e f).rtt = f.rtt ∧ (connect e f).idx = f.idx := by
  unfold connect; split <;> simp

theorem sendReset_fields (e : Env) (f : F) : (sendReset e f).svc = f.svc ∧
    (sendReset e f).our = f.our ∧ (sendReset e f).ours = f.ours ∧
    (sendReset e f).activated = f.activated ∧ (sendReset e f).link = f.link ∧
    (sendReset e f).rtt = f.rtt ∧ (sendReset e f).idx = f.idx ∧
    (sendReset e f).timeout = f.timeout ∧ (sendReset e f).received = f.received ∧
    (sendReset e f).conn = f.conn := by
  unfold sendReset; split
  · simp
  · split <;> simp

/-- What stays the same when the task tries to stop. -/
theorem tryStop_fields (e : Env) (f : F) : (tryStop e f).our = f.our ∧
    (tryStop e f).ours = f.ours ∧ (tryStop e f).rtt = f.rtt ∧ (tryStop e f).idx = f.idx := by
  have h := reset_rest e f
  unfold tryStop
  split
  · rename_i f1 he; rw [he] at h; exact ⟨h.our, h.ours, h.rtt, h.idx⟩
  · rename_i f1 he; rw [he] at h
    have s := sendReset_fields e f1
    have s' := sendReset_fields e { f1 with conn := .unpairing }
    split
    · exact ⟨h.our, h.ours, h.rtt, h.idx⟩
    · exact ⟨s.2.1.trans h.our, s.2.2.1.trans h.ours, s.2.2.2.2.2.1.trans h.rtt,
        s.2.2.2.2.2.2.1.trans h.idx⟩
    · exact ⟨h.our, h.ours, h.rtt, h.idx⟩
    all_goals first
      | exact ⟨s'.2.1.trans h.our, s'.2.2.1.trans h.ours, s'.2.2.2.2.2.1.trans h.rtt,
        s'.2.2.2.2.2.2.1.trans h.idx⟩
      | exact ⟨h.our, h.ours, h.rtt, h.idx⟩

/-- Either the stop failed and nothing but marks changed, or all is off. -/
theorem tryStop_timeout (e : Env) (f : F) :
    (tryStop e f = (peercfgStop e f).1 ∧ (peercfgStop e f).2 = false) ∨
    ((tryStop e f).timeout = none ∧ (tryStop e f).received = false ∧
     (tryStop e f).activated = false ∧ anyStarted (tryStop e f) = false ∧
     (peercfgReset e f).2 = true ∧ ∀ k, objs (tryStop e f) k = objs (peercfgReset e f).1 k) := by
  unfold tryStop
  split
  · rename_i f1 he
    have := reset_false (e := e) (f := f) (by rw [he])
    rw [he] at this
    exact .inl this
  · rename_i f1 he
    right
    have t := reset_true (e := e) (f := f) (by rw [he])
    rw [he] at t
    obtain ⟨t1, t2, t3, t4⟩ := t
    have s := sendReset_fields e f1
    have so := sendReset_objs e f1
    have s' := sendReset_fields e { f1 with conn := .unpairing }
    have so' := sendReset_objs e { f1 with conn := .unpairing }
    have any : ∀ g : F, (∀ k, objs g k = objs f1 k) → anyStarted g = false := by
      intro g hg
      have a := anyStarted_false.1 t4
      exact anyStarted_false.2 ⟨by have := hg .prdcr; simp only [objs] at this; rw [this]; exact a.1,
        by have := hg .updtr; simp only [objs] at this; rw [this]; exact a.2⟩
    have so'' : ∀ k, objs (sendReset e { f1 with conn := .unpairing }) k = objs f1 k :=
      fun k => (so' k).trans (by cases k <;> rfl)
    split
    · exact ⟨t1, t2, t3, t4, by rw [he], fun k => by rw [he]⟩
    · exact ⟨s.2.2.2.2.2.2.2.1.trans t1, s.2.2.2.2.2.2.2.2.1.trans t2, s.2.2.2.1.trans t3, any _ so,
        by rw [he], fun k => by rw [he]; exact so k⟩
    · exact ⟨t1, t2, t3, t4, by rw [he], fun k => by rw [he]; cases k <;> rfl⟩
    all_goals first
      | exact ⟨s'.2.2.2.2.2.2.2.1.trans t1, s'.2.2.2.2.2.2.2.2.1.trans t2, s'.2.2.2.1.trans t3,
          any _ so'', by rw [he], fun k => by rw [he]; exact so'' k⟩
      | exact ⟨t1, t2, t3, t4, by rw [he], fun k => by rw [he]; cases k <;> rfl⟩

theorem heard_rest (e : Env) (f : F) : (heard e f).svc = f.svc ∧ (heard e f).our = f.our ∧
    (heard e f).ours = f.ours ∧ (heard e f).received = f.received ∧
    (heard e f).pend = f.pend ∧ (heard e f).conn = f.conn ∧ (heard e f).link = f.link ∧
    (heard e f).interval = f.interval ∧ (heard e f).num = f.num ∧ (heard e f).den = f.den ∧
    (heard e f).rtt = (record f (roundTrip f.pingTs e.now)).rtt ∧
    (heard e f).idx = (record f (roundTrip f.pingTs e.now)).idx ∧ (heard e f).auto = f.auto := by
  unfold heard
  simp only
  split
  · have h := stop_rest e (record f (roundTrip f.pingTs e.now))
    exact ⟨h.svc, h.our, h.ours, stop_received e _, h.pend, h.conn, h.link, h.interval, h.num,
      h.den, h.rtt, h.idx, h.auto⟩
  · exact ⟨rfl, rfl, rfl, rfl, rfl, rfl, rfl, rfl, rfl, rfl, rfl, rfl, rfl⟩

theorem heard_timeout (e : Env) (f : F) :
    ((heard e f).timeout = none ∧ (heard e f).activated = false ∧ anyStarted (heard e f) = false) ∨
    ((heard e f).timeout = f.timeout ∧ (heard e f).activated = f.activated) := by
  unfold heard
  simp only
  split
  · cases h : (peercfgStop e (record f (roundTrip f.pingTs e.now))).2 with
    | true => exact .inl (stop_true h)
    | false => exact .inr ⟨(stop_false h).1, (stop_false h).2.1⟩
  · exact .inr ⟨rfl, rfl⟩

theorem onPingResp_fields (e : Env) (d : Option Bool) (f : F) :
    (onPingResp e d f).svc = f.svc ∧ (onPingResp e d f).received = f.received ∧
    (onPingResp e d f).pend = f.pend ∧ (onPingResp e d f).conn = f.conn ∧
    (onPingResp e d f).link = f.link ∧ (onPingResp e d f).activated = (heard e f).activated ∧
    (onPingResp e d f).rtt = (heard e f).rtt ∧ (onPingResp e d f).idx = (heard e f).idx ∧
    ∀ k, objs (onPingResp e d f) k = objs (heard e f) k := by
  have h := heard_rest e f
  unfold onPingResp
  split
  · exact ⟨h.1, h.2.2.2.1, h.2.2.2.2.1, h.2.2.2.2.2.1, h.2.2.2.2.2.2.1, rfl, rfl, rfl,
      fun k => by cases k <;> rfl⟩
  · exact ⟨h.1, h.2.2.2.1, h.2.2.2.2.1, h.2.2.2.2.2.1, h.2.2.2.2.2.2.1, rfl, rfl, rfl,
      fun k => by cases k <;> rfl⟩

theorem resetAndRequest_rest (e : Env) (f : F) : (resetAndRequest e f).1.svc = f.svc ∧
    (resetAndRequest e f).1.our = f.our ∧ (resetAndRequest e f).1.ours = f.ours ∧
    (resetAndRequest e f).1.link = f.link ∧ (resetAndRequest e f).1.rtt = f.rtt ∧
    (resetAndRequest e f).1.idx = f.idx := by
  have r := reset_rest e f
  rcases resetAndRequest_cases e f with ⟨_, he, _⟩ | ⟨_, he⟩
  · rw [he]; exact ⟨r.svc, r.our, r.ours, r.link, r.rtt, r.idx⟩
  · rw [he]; unfold requestPeercfg; split <;> exact ⟨r.svc, r.our, r.ours, r.link, r.rtt, r.idx⟩

/-- A request for the configuration of the peer goes out after a reset only. -/
theorem resetAndRequest_pend (e : Env) (f : F) :
    ((resetAndRequest e f).1.timeout = none ∧ (resetAndRequest e f).1.received = false ∧
      (resetAndRequest e f).1.activated = false ∧ anyStarted (resetAndRequest e f).1 = false ∧
      (resetAndRequest e f).1.conn = .configuring ∧ (peercfgReset e f).2 = true ∧
      ((resetAndRequest e f).1.pend = .peercfg :: f.pend ∨ (resetAndRequest e f).1.pend = f.pend)) ∨
    ((resetAndRequest e f).2 = false ∧ (resetAndRequest e f).1 = (peercfgStop e f).1 ∧
      (peercfgStop e f).2 = false) := by
  have r := reset_rest e f
  rcases resetAndRequest_cases e f with ⟨h1, he, h2⟩ | ⟨h2, he⟩
  · obtain ⟨h3, h4⟩ := reset_false h2
    exact .inr ⟨h1, he.trans h3, h4⟩
  · left
    obtain ⟨t1, t2, t3, t4⟩ := reset_true h2
    rw [he]; unfold requestPeercfg; split
    · exact ⟨t1, t2, t3, t4, rfl, h2, .inl (by rw [← r.pend])⟩
    · exact ⟨t1, t2, t3, t4, rfl, h2, .inr r.pend⟩

end Verif.Failover
