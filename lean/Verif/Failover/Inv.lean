import Verif.Failover.Step

namespace Verif.Failover

/-! ## The own configuration -/

/-- The own configuration is started when the flag goes up, which it does once. -/
def OursInv (f : F) : Prop := f.ours = if f.our then 1 else 0

theorem ours_step {f g : F} {v : Ev} (h : step f v = some g) :
    (g.our = f.our ∧ g.ours = f.ours) ∨
    ((v = .disconnected ∨ Good v) ∧ g.our = true ∧ g.ours = if f.our then f.ours else f.ours + 1) := by
  refine step_elim h (fun v g => (g.our = f.our ∧ g.ours = f.ours) ∨
    ((v = .disconnected ∨ Good v) ∧ g.our = true ∧ g.ours = if f.our then f.ours else f.ours + 1))
    ?_ ?_ ?_ ?_ ?_ ?_ ?_ ?_ ?_ ?_ ?_ ?_ ?_ ?_ ?_ ?_ ?_ ?_ ?_ ?_ ?_ ?_ ?_ ?_ ?_ ?_
  · intro e _ _; have t := tryStart_rest e (connect e f); have c := connect_fields e f
    exact .inl ⟨t.our.trans c.2.1, t.ours.trans c.2.2.1⟩
  · intro e _ _; have t := tryStart_rest e (pair e f); have c := pair_fields e f
    exact .inl ⟨t.our.trans c.2.1, t.ours.trans c.2.2.1⟩
  · intro e _ _; have t := tryStart_rest e (resetAndRequest e f).1; have c := resetAndRequest_rest e f
    exact .inl ⟨t.our.trans c.2.1, t.ours.trans c.2.2.1⟩
  · intro e _ _; have t := tryStart_rest e f; exact .inl ⟨t.our, t.ours⟩
  · intro e _ _; have t := tryStart_rest e (ping e f); have c := ping_fields e f
    exact .inl ⟨t.our.trans c.2.1, t.ours.trans c.2.2.1⟩
  · intro e _; have c := tryStop_fields e f; exact .inl ⟨c.1, c.2.1⟩
  · intro e _; have c := pair_fields e { f with link := .up }; exact .inl ⟨c.2.1, c.2.2.1⟩
  · exact .inr ⟨.inl rfl, rfl, rfl⟩
  · intro e _; exact .inl ⟨rfl, rfl⟩
  · intro e err _ _; exact .inl ⟨rfl, rfl⟩
  · intro e _ _; have c := resetAndRequest_rest e { answered .pair f with conn := .resetting }
    exact .inl ⟨c.2.1, c.2.2.1⟩
  · intro e _ _; have c := resetAndRequest_rest e { answered .pair f with conn := .resetting }
    exact .inl ⟨c.2.1, c.2.2.1⟩
  · intro err _; exact .inl ⟨rfl, rfl⟩
  · exact .inl ⟨rfl, rfl⟩
  · intro e d
    have r := heard_rest e (answered .ping f)
    unfold onPingResp
    split
    · exact .inr ⟨.inr ⟨e, rfl⟩, rfl, rfl⟩
    · exact .inl ⟨r.2.1, r.2.2.1⟩
  · intro err; unfold onResetResp; simp only; split <;> exact .inl ⟨rfl, rfl⟩
  · intro e; unfold startCmd; split
    · exact .inl ⟨rfl, rfl⟩
    · split <;> exact .inl ⟨rfl, rfl⟩
  · unfold stopCmd; split <;> exact .inl ⟨rfl, rfl⟩
  · intro c; unfold configCmd; split
    · exact .inl ⟨rfl, rfl⟩
    · split <;> exact .inl ⟨rfl, rfl⟩
  · intro b; exact .inl ⟨rfl, rfl⟩
  · intro e; exact .inl ⟨rfl, rfl⟩
  · intro e; have c := stop_rest e f; exact .inl ⟨c.our, c.ours⟩
  · intro e; unfold resetReq; split
    · have c := reset_rest e { f with svc := .stopping }; exact .inl ⟨c.our, c.ours⟩
    · have c := reset_rest e f; exact .inl ⟨c.our, c.ours⟩
    · exact .inl ⟨rfl, rfl⟩
  all_goals (intro e n _; exact .inl ⟨rfl, rfl⟩)

theorem ours_inv {tr : List Ev} {f : F} (h : Reach tr f) : OursInv f := by
  induction h with
  | init => rfl
  | step v _ _ st ih =>
    unfold OursInv at ih ⊢
    rcases ours_step st with ⟨h1, h2⟩ | ⟨_, h1, h2⟩
    · rw [h1, h2, ih]
    · rw [h1, h2, ih]; split <;> rfl

/-! ## The flag that the peer is told -/

/-- What runs is admitted, and storage policies do not run. -/
def FlagInv (f : F) : Prop := (anyStarted f = true → f.activated = true) ∧ Still f.strgps

/-- `g` tells no less than `f` or runs nothing. -/
def Honest (f g : F) : Prop :=
  g.activated = true ∨ anyStarted g = false ∨ (g.activated = f.activated ∧
    (anyStarted g = true → anyStarted f = true))

theorem anyStarted_objs {f g : F} (h : ∀ k, objs g k = objs f k) : anyStarted g = anyStarted f := by
  have h1 := h .prdcr
  have h2 := h .updtr
  simp only [objs] at h1 h2
  simp only [anyStarted, h1, h2]

theorem anyStarted_shrinks {f g : F} (h : Shrinks f g) (a : anyStarted g = true) :
    anyStarted f = true := by
  simp only [anyStarted, Bool.or_eq_true, List.any_eq_true] at a ⊢
  rcases a with ⟨o, ho, hs⟩ | ⟨o, ho, hs⟩
  · obtain ⟨o', hm, _, hs'⟩ := h .prdcr o ho
    exact .inl ⟨o', hm, hs' hs⟩
  · obtain ⟨o', hm, _, hs'⟩ := h .updtr o ho
    exact .inr ⟨o', hm, hs' hs⟩

theorem Honest.same {f g : F} (h : ∀ k, objs g k = objs f k) (ha : g.activated = f.activated) :
    Honest f g := .inr (.inr ⟨ha, fun a => by rwa [anyStarted_objs h] at a⟩)

theorem tryStart_honest {f g : F} (e : Env) (h : Honest f g) : Honest f (tryStart e g) := by
  rcases tryStart_cases e g with he | ⟨he, _⟩
  · rw [he]; exact h
  · rw [he]; exact .inl rfl

theorem stop_honest (e : Env) (f : F) : Honest f (peercfgStop e f).1 := by
  cases h : (peercfgStop e f).2 with
  | true => exact .inr (.inl (stop_true h).2.2)
  | false => exact .inr (.inr ⟨(stop_false h).2.1, anyStarted_shrinks (stop_shrinks e f)⟩)

theorem reset_honest (e : Env) (f : F) : Honest f (peercfgReset e f).1 := by
  cases h : (peercfgReset e f).2 with
  | true => exact .inr (.inl (reset_true h).2.2.2)
  | false => rw [(reset_false h).1]; exact stop_honest e f

theorem resetAndRequest_honest (e : Env) (f : F) : Honest f (resetAndRequest e f).1 := by
  rcases resetAndRequest_pend e f with h | ⟨_, h, _⟩
  · exact .inr (.inl h.2.2.2.1)
  · rw [h]; exact stop_honest e f

theorem addObj_any {e : Env} {n : Name} {l : List Obj}
    (h : (addObj e n l).any (·.started) = true) : l.any (·.started) = true := by
  simp only [List.any_eq_true] at h ⊢
  obtain ⟨o, ho, hs⟩ := h
  rcases addObj_mem ho with hm | rfl
  · exact ⟨o, hm, hs⟩
  · cases hs

theorem honest_step {f g : F} {v : Ev} (h : step f v = some g) : Honest f g := by
  refine step_elim h (fun _ g => Honest f g)
    ?_ ?_ ?_ ?_ ?_ ?_ ?_ ?_ ?_ ?_ ?_ ?_ ?_ ?_ ?_ ?_ ?_ ?_ ?_ ?_ ?_ ?_ ?_ ?_ ?_ ?_
  · intro e _ _; exact tryStart_honest e (.same (connect_objs e f) (connect_fields e f).2.2.2.1)
  · intro e _ _; exact tryStart_honest e (.same (pair_objs e f) (pair_fields e f).2.2.2.1)
  · intro e _ _; exact tryStart_honest e (resetAndRequest_honest e f)
  · intro e _ _; exact tryStart_honest e (.same (fun _ => rfl) rfl)
  · intro e _ _; exact tryStart_honest e (.same (ping_objs e f) (ping_fields e f).2.2.2.1)
  · intro e _
    rcases tryStop_timeout e f with ⟨h, _⟩ | h
    · rw [h]; exact stop_honest e f
    · exact .inr (.inl h.2.2.2.1)
  · intro e _
    exact .same (fun k => (pair_objs e _ k).trans (by cases k <;> rfl))
      (pair_fields e { f with link := .up }).2.2.2.1
  · exact .same (fun k => by cases k <;> rfl) rfl
  · intro e _; exact .same (fun k => by cases k <;> rfl) rfl
  · intro e err _ _; exact .same (fun k => by cases k <;> rfl) rfl
  · intro e _ _; exact resetAndRequest_honest e { answered .pair f with conn := .resetting }
  · intro e _ _; exact resetAndRequest_honest e { answered .pair f with conn := .resetting }
  · intro err _; exact .same (fun k => by cases k <;> rfl) rfl
  · exact .same (fun k => by cases k <;> rfl) rfl
  · intro e d
    have o := onPingResp_fields e d (answered .ping f)
    have ao := anyStarted_objs o.2.2.2.2.2.2.2.2
    rcases heard_timeout e (answered .ping f) with h | h
    · exact .inr (.inl (ao.trans h.2.2))
    · refine .inr (.inr ⟨o.2.2.2.2.2.1.trans h.2, fun a => ?_⟩)
      rw [ao] at a
      exact anyStarted_shrinks (f := answered .ping f) (heard_shrinks e _) a
  · intro err; unfold onResetResp; simp only
    split <;> exact .same (fun k => by cases k <;> rfl) rfl
  · intro e; unfold startCmd; split
    · exact .same (fun k => by cases k <;> rfl) rfl
    · split <;> exact .same (fun k => by cases k <;> rfl) rfl
  · unfold stopCmd; split <;> exact .same (fun k => by cases k <;> rfl) rfl
  · intro c; unfold configCmd; split
    · exact .same (fun k => by cases k <;> rfl) rfl
    · split <;> exact .same (fun k => by cases k <;> rfl) rfl
  · intro b; exact .same (fun k => by cases k <;> rfl) rfl
  · intro e; exact .inl rfl
  · intro e; exact stop_honest e f
  · intro e; unfold resetReq; split
    · exact reset_honest e { f with svc := .stopping }
    · exact reset_honest e f
    · exact .same (fun k => by cases k <;> rfl) rfl
  · intro e n _
    refine .inr (.inr ⟨rfl, fun a => ?_⟩)
    simp only [anyStarted, Bool.or_eq_true] at a ⊢
    exact a.imp addObj_any id
  · intro e n _
    refine .inr (.inr ⟨rfl, fun a => ?_⟩)
    simp only [anyStarted, Bool.or_eq_true] at a ⊢
    exact a.imp id addObj_any
  · intro e n _; exact .inr (.inr ⟨rfl, fun a => a⟩)

theorem flag_inv {tr : List Ev} {f : F} (h : Reach tr f) : FlagInv f := by
  induction h with
  | init => exact ⟨fun h => (nomatch h), fun o ho => (nomatch ho)⟩
  | step v _ _ st ih =>
    refine ⟨fun a => ?_, fun o ho => ?_⟩
    · rcases honest_step st with h | h | ⟨h, hi⟩
      · exact h
      · rw [h] at a; cases a
      · rw [h]; exact ih.1 (hi a)
    · rcases step_explained st .strgp o ho with ⟨o', hm, _, hs⟩ | ⟨_, _, hs⟩
      · cases hq : o.started with
        | false => rfl
        | true =>
          rcases hs hq with h | ⟨h, _⟩
          · rw [ih.2 o' hm] at h; cases h
          · exact absurd rfl h
      · exact hs

/-! ## `RESETTING` is passed through -/

theorem sendReset_conn (e : Env) (f : F) : (sendReset e f).conn = f.conn :=
  (sendReset_fields e f).2.2.2.2.2.2.2.2.2

theorem pair_conn (e : Env) (f : F) :
    (pair e f).conn = .pairingRetry ∨ (pair e f).conn = .pairing ∨ (pair e f).conn = .error := by
  unfold pair; split
  · simp
  · split <;> simp

theorem ping_conn (e : Env) (f : F) : (ping e f).conn = f.conn ∨ (ping e f).conn = .error := by
  unfold ping; split
  · simp
  · split <;> simp

theorem tryStop_conn (e : Env) (f : F) : (tryStop e f).conn = f.conn ∨
    (tryStop e f).conn = .unpairing ∨ (tryStop e f).conn = .error := by
  have r := reset_rest e f
  unfold tryStop
  split
  · rename_i f1 he; rw [he] at r; exact .inl r.conn
  · rename_i f1 he; rw [he] at r
    split
    · exact .inl r.conn
    · exact .inl ((sendReset_conn e f1).trans r.conn)
    · exact .inr (.inr rfl)
    all_goals first
      | exact .inr (.inl (sendReset_conn e _))
      | exact .inl r.conn

theorem not_resetting {tr : List Ev} {f : F} (h : Reach tr f) : f.conn ≠ .resetting := by
  induction h with
  | init => decide
  | @step tr f f' v _ _ st ih =>
    refine step_elim st (fun _ g => g.conn ≠ .resetting)
      ?_ ?_ ?_ ?_ ?_ ?_ ?_ ?_ ?_ ?_ ?_ ?_ ?_ ?_ ?_ ?_ ?_ ?_ ?_ ?_ ?_ ?_ ?_ ?_ ?_ ?_
    · intro e _ _; rw [(tryStart_rest e _).conn]; unfold connect; split
      · simp
      · exact ih
    · intro e _ _; rw [(tryStart_rest e _).conn]; rcases pair_conn e f with h | h | h <;> rw [h] <;> simp
    · intro e _ hc; exact absurd hc ih
    · intro e _ _; rw [(tryStart_rest e _).conn]; exact ih
    · intro e _ _; rw [(tryStart_rest e _).conn]; rcases ping_conn e f with h | h <;> rw [h]
      · exact ih
      · simp
    · intro e _; rcases tryStop_conn e f with h | h | h <;> rw [h]
      · exact ih
      · simp
      · simp
    · intro e _; rcases pair_conn e { f with link := .up } with h | h | h <;> rw [h] <;> simp
    · simp [onDisconnected]
    · intro e _; simp
    · intro e err _ _; simp
    · intro e _ ht
      rcases resetAndRequest_pend e { answered .pair f with conn := .resetting } with h | ⟨h, _⟩
      · rw [h.2.2.2.2.1]; simp
      · rw [h] at ht; cases ht
    · intro e _ _; simp
    · intro err _; simp
    · simp
    · intro e d; rw [(onPingResp_fields e d _).2.2.2.1]; exact ih
    · intro err; unfold onResetResp; simp only; split
      · exact ih
      · simp
    · intro e; unfold startCmd; split
      · exact ih
      · split <;> exact ih
    · unfold stopCmd; split <;> exact ih
    · intro c; unfold configCmd; split
      · exact ih
      · split <;> exact ih
    · intro b; exact ih
    · intro e; exact ih
    · intro e; rw [(stop_rest e f).conn]; exact ih
    · intro e; unfold resetReq; split
      · rw [(reset_rest e _).conn]; exact ih
      · rw [(reset_rest e _).conn]; exact ih
      · exact ih
    all_goals (intro e n _; exact ih)

/-! ## Where the deadline comes from -/

/-- What a step does to the deadline, to `RECEIVED` and to the request for the
configuration of the peer. -/
structure Tm (f : F) (v : Ev) (g : F) : Prop where
  to : g.timeout = none ∨ g.timeout = f.timeout ∨ Good v
  rc : g.received = true → f.received = true ∨ v = .peercfgResp 0
  pd : .peercfg ∈ g.pend → .peercfg ∈ f.pend ∨ g.timeout = none
  gd : ∀ e, v = .pingResp e (some false) →
    g.timeout = some (e.now + patience e (heard e (answered .ping f)))

theorem Tm.same {f g : F} {v : Ev} (h1 : g.timeout = f.timeout) (h2 : g.received = f.received)
    (h3 : g.pend = f.pend) (h4 : ∀ e, v ≠ .pingResp e (some false)) : Tm f v g :=
  ⟨.inr (.inl h1), fun h => .inl (h2 ▸ h), fun h => .inl (h3 ▸ h), fun e h => absurd h (h4 e)⟩

theorem Tm.off {f g : F} {v : Ev} (h1 : g.timeout = none) (h2 : g.received = false)
    (h4 : ∀ e, v ≠ .pingResp e (some false)) : Tm f v g :=
  ⟨.inl h1, fun h => absurd (h2 ▸ h) (by decide), fun _ => .inr h1, fun e h => absurd h (h4 e)⟩

theorem Tm.stop {f : F} {v : Ev} (e : Env) (h4 : ∀ e, v ≠ .pingResp e (some false)) :
    Tm f v (peercfgStop e f).1 := by
  have r := stop_rest e f
  refine ⟨?_, fun h => .inl (stop_received e f ▸ h), fun h => .inl (r.pend ▸ h),
    fun e h => absurd h (h4 e)⟩
  cases h : (peercfgStop e f).2 with
  | true => exact .inl (stop_true h).1
  | false => exact .inr (.inl (stop_false h).1)

theorem Tm.reset {f : F} {v : Ev} (e : Env) (h4 : ∀ e, v ≠ .pingResp e (some false)) :
    Tm f v (peercfgReset e f).1 := by
  cases h : (peercfgReset e f).2 with
  | true => exact .off (reset_true h).1 (reset_true h).2.1 h4
  | false => rw [(reset_false h).1]; exact .stop e h4

theorem Tm.request {f : F} {v : Ev} (e : Env) (h4 : ∀ e, v ≠ .pingResp e (some false)) :
    Tm f v (resetAndRequest e f).1 := by
  rcases resetAndRequest_pend e f with h | ⟨_, h, _⟩
  · exact .off h.1 h.2.1 h4
  · rw [h]; exact .stop e h4

theorem Tm.before {f f0 g : F} {v : Ev} (h : Tm f0 v g) (h1 : f0.timeout = f.timeout)
    (h2 : f0.received = f.received) (h3 : .peercfg ∈ f0.pend → .peercfg ∈ f.pend)
    (h4 : ∀ e, v ≠ .pingResp e (some false)) : Tm f v g :=
  ⟨by rw [← h1]; exact h.to, fun a => by rw [← h2]; exact h.rc a,
    fun a => (h.pd a).imp h3 id, fun e a => absurd a (h4 e)⟩

theorem Tm.after {f g g' : F} {v : Ev} (h : Tm f v g) (h1 : g'.timeout = g.timeout)
    (h2 : g'.received = g.received) (h3 : .peercfg ∈ g'.pend → .peercfg ∈ g.pend) : Tm f v g' :=
  ⟨by rw [h1]; exact h.to, fun a => h.rc (h2 ▸ a), fun a => by rw [h1]; exact h.pd (h3 a),
    fun e a => by rw [h1]; exact h.gd e a⟩

theorem erase_sub {r : Req} {f : F} (h : .peercfg ∈ (answered r f).pend) : .peercfg ∈ f.pend :=
  List.mem_of_mem_erase h

theorem pair_pend (e : Env) (f : F) : (pair e f).pend = f.pend ∨ (pair e f).pend = .pair :: f.pend := by
  unfold pair; split
  · simp
  · split <;> simp

theorem ping_pend (e : Env) (f : F) : (ping e f).pend = f.pend ∨ (ping e f).pend = .ping :: f.pend := by
  unfold ping; split
  · simp
  · split <;> simp

theorem sendReset_pend (e : Env) (f : F) :
    (sendReset e f).pend = f.pend ∨ (sendReset e f).pend = .reset :: f.pend := by
  unfold sendReset; split
  · simp
  · split <;> simp

theorem Tm.step {f g : F} {v : Ev} (h : step f v = some g) : Tm f v g := by
  refine step_elim h (fun v g => Tm f v g)
    ?_ ?_ ?_ ?_ ?_ ?_ ?_ ?_ ?_ ?_ ?_ ?_ ?_ ?_ ?_ ?_ ?_ ?_ ?_ ?_ ?_ ?_ ?_ ?_ ?_ ?_
  · intro e _ _
    have k := connect_keeps e f
    have t := tryStart_more e (connect e f)
    refine .same (t.1.trans k.2.2) (t.2.trans k.2.1) ?_ (fun _ => by simp)
    exact (tryStart_rest e _).pend.trans (connect_fields e f).2.2.2.2.1
  · intro e _ _
    have k := pair_keeps e f
    refine ((Tm.same (f := f) (g := { f with conn := .pairing }) rfl rfl rfl (fun _ => by simp)).after
      (g' := pair e f) k.2.2 k.2.1 ?_).after (tryStart_more e _).1 (tryStart_more e _).2
      (fun h => (tryStart_rest e _).pend ▸ h)
    intro h; rcases pair_pend e f with hp | hp <;> rw [hp] at h
    · exact h
    · simpa using h
  · intro e _ _
    exact (Tm.request e (fun _ => by simp)).after (tryStart_more e _).1 (tryStart_more e _).2
      (fun h => (tryStart_rest e _).pend ▸ h)
  · intro e _ _
    exact .same (tryStart_more e f).1 (tryStart_more e f).2 (tryStart_rest e f).pend (fun _ => by simp)
  · intro e _ _
    have k := ping_keeps e f
    refine ((Tm.same (f := f) (g := f) rfl rfl rfl (fun _ => by simp)).after
      (g' := ping e f) k.2.2 k.2.1 ?_).after (tryStart_more e _).1 (tryStart_more e _).2
      (fun h => (tryStart_rest e _).pend ▸ h)
    intro h; rcases ping_pend e f with hp | hp <;> rw [hp] at h
    · exact h
    · simpa using h
  · intro e _
    rcases tryStop_timeout e f with ⟨h, _⟩ | h
    · rw [h]; exact .stop e (fun _ => by simp)
    · exact .off h.1 h.2.1 (fun _ => by simp)
  · intro e _
    have k := pair_keeps e { f with link := .up }
    refine (Tm.same (f := f) (g := { f with link := .up }) rfl rfl rfl (fun _ => by simp)).after
      k.2.2 k.2.1 ?_
    intro h; rcases pair_pend e { f with link := .up } with hp | hp <;> rw [hp] at h
    · exact h
    · simpa using h
  · refine (Tm.same (f := f) (g := f) rfl rfl rfl (fun _ => by simp)).after rfl rfl ?_
    intro h; cases h
  · intro e _
    exact (Tm.same (f := f) (g := f) rfl rfl rfl (fun _ => by simp)).after rfl rfl erase_sub
  · intro e err _ _
    exact (Tm.same (f := f) (g := f) rfl rfl rfl (fun _ => by simp)).after rfl rfl erase_sub
  · intro e _ _
    exact (Tm.request e (fun _ => by simp)).before rfl rfl erase_sub (fun _ => by simp)
  · intro e _ _
    have h0 : Tm f (.pairResp e 0)
        (resetAndRequest e { answered .pair f with conn := .resetting }).1 :=
      (Tm.request e (fun _ => by simp)).before rfl rfl erase_sub (fun _ => by simp)
    exact h0.after rfl rfl id
  · intro err _
    exact (Tm.same (f := f) (g := f) rfl rfl rfl (fun _ => by simp)).after rfl rfl erase_sub
  · exact ⟨.inr (.inl rfl), fun _ => .inr rfl, fun h => .inl (erase_sub h), fun e h => by cases h⟩
  · intro e d
    have o := onPingResp_fields e d (answered .ping f)
    refine ⟨?_, fun h => .inl (o.2.1 ▸ h), fun h => .inl (erase_sub (o.2.2.1 ▸ h)), ?_⟩
    · unfold onPingResp
      split
      · exact .inr (.inr ⟨e, rfl⟩)
      · rcases heard_timeout e (answered .ping f) with h | h
        · exact .inl h.1
        · exact .inr (.inl h.1)
    · intro e' h; cases h; rfl
  · intro err; unfold onResetResp; simp only
    split <;> exact (Tm.same (f := f) (g := f) rfl rfl rfl (fun _ => by simp)).after rfl rfl erase_sub
  · intro e; unfold startCmd; split
    · exact .same rfl rfl rfl (fun _ => by simp)
    · split <;> exact .same rfl rfl rfl (fun _ => by simp)
  · unfold stopCmd; split <;> exact .same rfl rfl rfl (fun _ => by simp)
  · intro c; unfold configCmd; split
    · exact .same rfl rfl rfl (fun _ => by simp)
    · split <;> exact .same rfl rfl rfl (fun _ => by simp)
  · intro b; exact .same rfl rfl rfl (fun _ => by simp)
  · intro e; exact .same rfl rfl rfl (fun _ => by simp)
  · intro e; exact .stop e (fun _ => by simp)
  · intro e; unfold resetReq; split
    · exact (Tm.reset (f := { f with svc := .stopping }) e (fun _ => by simp)).before rfl rfl id
        (fun _ => by simp)
    · exact .reset e (fun _ => by simp)
    · exact .same rfl rfl rfl (fun _ => by simp)
  all_goals (intro e n _; exact .same rfl rfl rfl (fun _ => by simp))

/-- The last good answer set the deadline. -/
def Justified (tr : List Ev) (f : F) : Prop :=
  ∀ t, f.timeout = some t → ∃ pre g a post,
    tr = pre ++ .pingResp a (some false) :: post ∧ Reach pre g ∧ (∀ v ∈ post, ¬ Good v) ∧
    t = a.now + patience a (heard a (answered .ping g))

theorem justified_inv {tr : List Ev} {f : F} (h : Reach tr f) :
    Justified tr f ∨ (f.received = false ∧ .peercfg ∉ f.pend) := by
  induction h with
  | init => exact .inr ⟨rfl, by simp [F.init]⟩
  | @step tr f f' v hr en st ih =>
    have tm := Tm.step st
    by_cases hg : Good v
    · obtain ⟨a, rfl⟩ := hg
      left
      intro t ht
      rw [tm.gd a rfl] at ht
      cases ht
      exact ⟨tr, f, a, [], rfl, hr, by simp, rfl⟩
    · have ext : Justified tr f → f'.timeout = f.timeout → Justified (tr ++ [v]) f' := by
        intro j he t ht
        rw [he] at ht
        obtain ⟨pre, g, a, post, h1, h2, h3, h4⟩ := j t ht
        refine ⟨pre, g, a, post ++ [v], by rw [h1]; simp, h2, ?_, h4⟩
        intro w hw
        rcases List.mem_append.1 hw with hw | hw
        · exact h3 w hw
        · simp only [List.mem_singleton] at hw; subst hw; exact hg
      have off : f'.timeout = none → Justified (tr ++ [v]) f' := by
        intro he t ht; rw [he] at ht; cases ht
      rcases tm.to with h | h | h
      · exact .inl (off h)
      · rcases ih with j | ⟨j1, j2⟩
        · exact .inl (ext j h)
        · by_cases hp : .peercfg ∈ f'.pend
          · rcases tm.pd hp with h' | h'
            · exact absurd h' j2
            · exact .inl (off h')
          · refine .inr ⟨?_, hp⟩
            cases hq : f'.received with
            | false => rfl
            | true =>
              rcases tm.rc hq with h' | h'
              · rw [j1] at h'; cases h'
              · subst h'; exact absurd en j2
      · exact absurd h hg

/-- A configuration that counts as received was received. -/
theorem received_inv {tr : List Ev} {f : F} (h : Reach tr f) (hr : f.received = true) :
    .peercfgResp 0 ∈ tr := by
  induction h with
  | init => cases hr
  | step v _ _ st ih =>
    rcases (Tm.step st).rc hr with h | rfl
    · exact List.mem_append_left _ (ih h)
    · simp

end Verif.Failover
