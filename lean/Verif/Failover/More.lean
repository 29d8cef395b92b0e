import Verif.Failover.Inv

namespace Verif.Failover

/-! ## The ring of round trips -/

theorem rtt_step {f g : F} {v : Ev} (h : step f v = some g) :
    (∀ e d, v = .pingResp e d → g.rtt = (record f (roundTrip f.pingTs e.now)).rtt ∧
      g.idx = (record f (roundTrip f.pingTs e.now)).idx) ∧
    ((∀ e d, v ≠ .pingResp e d) → g.rtt = f.rtt ∧ g.idx = f.idx) := by
  have same : ∀ {v : Ev} {g : F}, (∀ e d, v ≠ .pingResp e d) → g.rtt = f.rtt → g.idx = f.idx →
      (∀ e d, v = .pingResp e d → g.rtt = (record f (roundTrip f.pingTs e.now)).rtt ∧
        g.idx = (record f (roundTrip f.pingTs e.now)).idx) ∧
      ((∀ e d, v ≠ .pingResp e d) → g.rtt = f.rtt ∧ g.idx = f.idx) :=
    fun h1 h2 h3 => ⟨fun e d he => absurd he (h1 e d), fun _ => ⟨h2, h3⟩⟩
  refine step_elim h (fun v g =>
      (∀ e d, v = .pingResp e d → g.rtt = (record f (roundTrip f.pingTs e.now)).rtt ∧
        g.idx = (record f (roundTrip f.pingTs e.now)).idx) ∧
      ((∀ e d, v ≠ .pingResp e d) → g.rtt = f.rtt ∧ g.idx = f.idx))
    ?_ ?_ ?_ ?_ ?_ ?_ ?_ ?_ ?_ ?_ ?_ ?_ ?_ ?_ ?_ ?_ ?_ ?_ ?_ ?_ ?_ ?_ ?_ ?_ ?_ ?_
  · intro e _ _; have t := tryStart_rest e (connect e f); have c := connect_fields e f
    exact same (by simp) (t.rtt.trans c.2.2.2.2.2.1) (t.idx.trans c.2.2.2.2.2.2)
  · intro e _ _; have t := tryStart_rest e (pair e f); have c := pair_fields e f
    exact same (by simp) (t.rtt.trans c.2.2.2.2.2.1) (t.idx.trans c.2.2.2.2.2.2)
  · intro e _ _; have t := tryStart_rest e (resetAndRequest e f).1; have c := resetAndRequest_rest e f
    exact same (by simp) (t.rtt.trans c.2.2.2.2.1) (t.idx.trans c.2.2.2.2.2)
  · intro e _ _; have t := tryStart_rest e f; exact same (by simp) t.rtt t.idx
  · intro e _ _; have t := tryStart_rest e (ping e f); have c := ping_fields e f
    exact same (by simp) (t.rtt.trans c.2.2.2.2.2.1) (t.idx.trans c.2.2.2.2.2.2)
  · intro e _; have c := tryStop_fields e f; exact same (by simp) c.2.2.1 c.2.2.2
  · intro e _; have c := pair_fields e { f with link := .up }
    exact same (by simp) c.2.2.2.2.2.1 c.2.2.2.2.2.2
  · exact same (by simp) rfl rfl
  · intro e _; exact same (by simp) rfl rfl
  · intro e err _ _; exact same (by simp) rfl rfl
  · intro e _ _; have c := resetAndRequest_rest e { answered .pair f with conn := .resetting }
    exact same (by simp) c.2.2.2.2.1 c.2.2.2.2.2
  · intro e _ _; have c := resetAndRequest_rest e { answered .pair f with conn := .resetting }
    exact same (by simp) c.2.2.2.2.1 c.2.2.2.2.2
  · intro err _; exact same (by simp) rfl rfl
  · exact same (by simp) rfl rfl
  · intro e d
    have o := onPingResp_fields e d (answered .ping f)
    have r := heard_rest e (answered .ping f)
    refine ⟨fun e' d' he => ?_, fun hn => absurd rfl (hn e d)⟩
    cases he
    exact ⟨o.2.2.2.2.2.2.1.trans r.2.2.2.2.2.2.2.2.2.2.1,
      o.2.2.2.2.2.2.2.1.trans r.2.2.2.2.2.2.2.2.2.2.2.1⟩
  · intro err; unfold onResetResp; simp only; split <;> exact same (by simp) rfl rfl
  · intro e; unfold startCmd; split
    · exact same (by simp) rfl rfl
    · split <;> exact same (by simp) rfl rfl
  · unfold stopCmd; split <;> exact same (by simp) rfl rfl
  · intro c; unfold configCmd; split
    · exact same (by simp) rfl rfl
    · split <;> exact same (by simp) rfl rfl
  · intro b; exact same (by simp) rfl rfl
  · intro e; exact same (by simp) rfl rfl
  · intro e; have c := stop_rest e f; exact same (by simp) c.rtt c.idx
  · intro e; unfold resetReq; split
    · have c := reset_rest e { f with svc := .stopping }; exact same (by simp) c.rtt c.idx
    · have c := reset_rest e f; exact same (by simp) c.rtt c.idx
    · exact same (by simp) rfl rfl
  all_goals (intro e n _; exact same (by simp) rfl rfl)

/-- The ring holds the last eight entries of `l`. -/
def Ring (l rtt : List Nat) (idx : Nat) : Prop :=
  (l.length < 8 ∧ rtt = l ∧ idx = l.length) ∨
  (∃ old a b, l = old ++ (b ++ a) ∧ rtt = a ++ b ∧ a.length = idx ∧ idx < 8 ∧
    a.length + b.length = 8)

theorem ring_record {l : List Nat} {f : F} (h : Ring l f.rtt f.idx) (d : Nat) :
    Ring (l ++ [d]) (record f d).rtt (record f d).idx := by
  unfold record
  rcases h with ⟨h1, h2, h3⟩ | ⟨old, a, b, h1, h2, h3, h4, h5⟩
  · rw [h2, h3, if_pos h1]
    by_cases h8 : l.length = 7
    · right
      exact ⟨[], [], l ++ [d], by simp, by simp, by simp [h8], by simp [h8], by simp [h8]⟩
    · left
      refine ⟨by simp; omega, rfl, ?_⟩
      have : (l ++ [d]).length = l.length + 1 := by simp
      rw [this]; exact Nat.mod_eq_of_lt (by omega)
  · right
    have hl : ¬ f.rtt.length < 8 := by rw [h2]; simp; omega
    simp only [if_neg hl]
    match b, h5 with
    | [], h5 => simp at h5; omega
    | x :: b', h5 =>
      have hs : f.rtt.set f.idx d = a ++ d :: b' := by
        rw [h2, ← h3, List.set_append_right _ _ (Nat.le_refl _)]; simp
      rw [hs]
      simp only [List.length_cons] at h5
      by_cases h8 : f.idx = 7
      · have hb : b' = [] := List.length_eq_zero_iff.1 (by omega)
        subst hb
        exact ⟨old ++ [x], [], a ++ [d], by rw [h1]; simp, by simp, by simp [h8], by simp [h8],
          by simp; omega⟩
      · have hm : (f.idx + 1) % 8 = f.idx + 1 := Nat.mod_eq_of_lt (by omega)
        rw [hm]
        exact ⟨old ++ [x], a ++ [d], b', by rw [h1]; simp, by simp, by simp [h3], by omega,
          by simp; omega⟩

/-- The round trips by the time stamp in the state. -/
def tripsFrom : F → List Ev → List Nat
  | _, [] => []
  | f, v :: tr =>
    (match v with
      | .pingResp e _ => [roundTrip f.pingTs e.now]
      | _ => []) ++
    (match step f v with
      | some f1 => tripsFrom f1 tr
      | none => [])

theorem ring_path {f g : F} {tr : List Ev} (p : Path f tr g) (l : List Nat)
    (h : Ring l f.rtt f.idx) : Ring (l ++ tripsFrom f tr) g.rtt g.idx := by
  induction p generalizing l with
  | nil => simpa [tripsFrom] using h
  | @cons f f1 f' tr v en st p ih =>
    simp only [tripsFrom, st]
    have r := rtt_step st
    by_cases hv : ∃ e d, v = .pingResp e d
    · obtain ⟨e, d, rfl⟩ := hv
      obtain ⟨h1, h2⟩ := r.1 e d rfl
      have := ring_record h (roundTrip f.pingTs e.now)
      rw [← h1, ← h2] at this
      have := ih _ this
      simpa [List.append_assoc] using this
    · have hn : ∀ e d, v ≠ .pingResp e d := fun e d he => hv ⟨e, d, he⟩
      obtain ⟨h1, h2⟩ := r.2 hn
      have := ih l (by rw [h1, h2]; exact h)
      cases v with
      | pingResp e d => exact absurd rfl (hn e d)
      | _ => simpa using this

theorem sendReset_ping (e : Env) (f : F) : (sendReset e f).pingTs = f.pingTs ∧
    (sendReset e f).pend.count .ping = f.pend.count .ping := by
  unfold sendReset; split
  · exact ⟨rfl, rfl⟩
  · split
    · exact ⟨rfl, by simp⟩
    · exact ⟨rfl, rfl⟩

theorem tryStop_ping (e : Env) (f : F) : (tryStop e f).pingTs = f.pingTs ∧
    (tryStop e f).pend.count .ping = f.pend.count .ping := by
  have h := reset_rest e f
  unfold tryStop
  split
  · rename_i f1 he; rw [he] at h; exact ⟨h.pingTs, by rw [h.pend]⟩
  · rename_i f1 he; rw [he] at h
    have h' : f1.pingTs = f.pingTs ∧ f1.pend.count .ping = f.pend.count .ping := ⟨h.pingTs, by rw [h.pend]⟩
    have s := sendReset_ping e f1
    have s' := sendReset_ping e { f1 with conn := .unpairing }
    split
    · exact h'
    · exact ⟨s.1.trans h'.1, s.2.trans h'.2⟩
    · exact h'
    all_goals first
      | exact ⟨s'.1.trans h'.1, s'.2.trans h'.2⟩
      | exact h'

theorem pair_ping (e : Env) (f : F) : (pair e f).pingTs = f.pingTs ∧
    (pair e f).pend.count .ping = f.pend.count .ping := by
  unfold pair; split
  · exact ⟨rfl, rfl⟩
  · split
    · exact ⟨rfl, by simp⟩
    · exact ⟨rfl, rfl⟩

theorem resetAndRequest_ping (e : Env) (f : F) : (resetAndRequest e f).1.pingTs = f.pingTs ∧
    (resetAndRequest e f).1.pend.count .ping = f.pend.count .ping := by
  have r := reset_rest e f
  rcases resetAndRequest_cases e f with ⟨_, he, _⟩ | ⟨_, he⟩
  · rw [he]; exact ⟨r.pingTs, by rw [r.pend]⟩
  · rw [he]; unfold requestPeercfg; split
    · refine ⟨r.pingTs, ?_⟩
      rw [show (peercfgReset e f).1.pend = f.pend from r.pend]; simp
    · exact ⟨r.pingTs, by rw [show (peercfgReset e f).1.pend = f.pend from r.pend]⟩

theorem pingTs_step {f g : F} {v : Ev} (st : step f v = some g) :
    g.pingTs = sentAt f.pingTs f g v := by
  have same : ∀ e : Env, ∀ g : F, (g.pingTs = f.pingTs ∧ g.pend.count .ping = f.pend.count .ping) →
      g.pingTs = if PingSent f g then e.now else f.pingTs := by
    intro e g h
    rw [if_neg (by unfold PingSent; omega)]; exact h.1
  have start : ∀ e : Env, ∀ g : F, (g.pingTs = f.pingTs ∧ g.pend.count .ping = f.pend.count .ping) →
      (tryStart e g).pingTs = if PingSent f (tryStart e g) then e.now else f.pingTs := by
    intro e g h
    have r := tryStart_rest e g
    exact same e _ ⟨r.pingTs.trans h.1, by rw [r.pend]; exact h.2⟩
  refine step_elim st (fun v g => g.pingTs = sentAt f.pingTs f g v)
    ?_ ?_ ?_ ?_ ?_ ?_ ?_ ?_ ?_ ?_ ?_ ?_ ?_ ?_ ?_ ?_ ?_ ?_ ?_ ?_ ?_ ?_ ?_ ?_ ?_ ?_
  · intro e _ _; exact start e _ (by unfold connect; split <;> exact ⟨rfl, rfl⟩)
  · intro e _ _; exact start e _ (pair_ping e f)
  · intro e _ _; exact start e _ (resetAndRequest_ping e f)
  · intro e _ _; exact start e _ ⟨rfl, rfl⟩
  · intro e _ _
    have r := tryStart_rest e (ping e f)
    show _ = if PingSent f (tryStart e (ping e f)) then e.now else f.pingTs
    have hp : PingSent f (tryStart e (ping e f)) ↔ PingSent f (ping e f) := by
      unfold PingSent; rw [r.pend]
    rw [r.pingTs]; simp only [hp]
    unfold ping PingSent
    split
    · simp
    · split <;> simp
  · intro e _; exact same e _ (tryStop_ping e f)
  · intro e _; exact (pair_ping e { f with link := .up }).1
  · rfl
  · intro e _; rfl
  · intro e err _ _; rfl
  · intro e _ _; exact (resetAndRequest_ping e _).1
  · intro e _ _; exact (resetAndRequest_ping e { answered .pair f with conn := .resetting }).1
  · intro err _; rfl
  · rfl
  · intro e d
    show (onPingResp e d (answered .ping f)).pingTs = f.pingTs
    have : (heard e (answered .ping f)).pingTs = f.pingTs := by
      unfold heard; simp only
      split
      · exact (stop_rest e _).pingTs
      · rfl
    unfold onPingResp; split <;> exact this
  · intro err; unfold onResetResp; simp only; split <;> rfl
  · intro e; unfold startCmd; split
    · rfl
    · split <;> rfl
  · unfold stopCmd; split <;> rfl
  · intro c; unfold configCmd; split
    · rfl
    · split <;> rfl
  · intro b; rfl
  · intro e; rfl
  · intro e; exact (stop_rest e f).pingTs
  · intro e; unfold resetReq; split
    · exact (reset_rest e { f with svc := .stopping }).pingTs
    · exact (reset_rest e f).pingTs
    · rfl
  all_goals (intro e n _; rfl)

theorem trip_eq (sent now : Nat) : trip sent now = roundTrip sent now := by
  unfold trip roundTrip
  split
  · rw [if_neg (by omega)]; omega
  · rw [if_pos (by omega)]

theorem trips_eq {f g : F} {tr : List Ev} (p : Path f tr g) : trips f.pingTs f tr = tripsFrom f tr := by
  induction p with
  | nil => rfl
  | cons v en st p ih =>
    simp only [trips, tripsFrom, st, ← pingTs_step st, ih]
    cases v <;> simp only [trip_eq]

theorem trips_snoc {f g : F} {tr : List Ev} (p : Path f tr g) (a : Env) (d : Option Bool) :
    trips f.pingTs f (tr ++ [.pingResp a d]) = tripsFrom f tr ++ [roundTrip g.pingTs a.now] := by
  induction p with
  | nil f => simp [trips, tripsFrom, step, trip_eq]
  | cons v en st _ ih =>
    simp only [List.cons_append, trips, tripsFrom, st, ← pingTs_step st, ih, List.append_assoc]
    cases v <;> simp only [trip_eq]

theorem ring_perm {l rtt : List Nat} {idx : Nat} (h : Ring l rtt idx) :
    rtt.Perm (lastEight l) := by
  unfold lastEight
  rcases h with ⟨h1, h2, _⟩ | ⟨old, a, b, h1, h2, h3, h4, h5⟩
  · rw [h2, show l.length - 8 = 0 by omega, List.drop_zero]
  · have : l.drop (l.length - 8) = b ++ a := by
      rw [h1]
      have : (old ++ (b ++ a)).length - 8 = old.length := by simp; omega
      rw [this, List.drop_left]
    rw [this, h2]
    exact List.perm_append_comm

theorem foldl_max_le (l : List Nat) (m : Nat) : m ≤ l.foldl max m ∧ ∀ d ∈ l, d ≤ l.foldl max m := by
  induction l generalizing m with
  | nil => exact ⟨Nat.le_refl _, by simp⟩
  | cons x l ih =>
    obtain ⟨h1, h2⟩ := ih (max m x)
    simp only [List.foldl_cons]
    refine ⟨Nat.le_trans (Nat.le_max_left _ _) h1, fun d hd => ?_⟩
    rcases List.mem_cons.1 hd with rfl | hd
    · exact Nat.le_trans (Nat.le_max_right _ _) h1
    · exact h2 d hd

theorem patience_ge (e : Env) (f : F) : f.interval ≤ patience e f ∧
    (∀ d ∈ f.rtt, d ≤ patience e f) ∧ f.interval * f.num / f.den ≤ patience e f ∧
    (∀ d ∈ f.rtt, d * f.num / f.den ≤ patience e f) ∧ (∀ b, b = f.interval ∨ b ∈ f.rtt →
      b + e.sd4 ≤ patience e f) := by
  have hm := foldl_max_le f.rtt 0
  have hb : ∀ d ∈ f.rtt, d ≤ max (pingMax f) f.interval := fun d hd =>
    Nat.le_trans (hm.2 d hd) (Nat.le_max_left _ _)
  have hp1 : max (pingMax f) f.interval + e.sd4 ≤ patience e f := Nat.le_max_right _ _
  have hp2 : max (pingMax f) f.interval * f.num / f.den ≤ patience e f := Nat.le_max_left _ _
  have hi : f.interval ≤ max (pingMax f) f.interval := Nat.le_max_right _ _
  refine ⟨by omega, fun d hd => by have := hb d hd; omega,
    Nat.le_trans (Nat.div_le_div_right (Nat.mul_le_mul_right _ hi)) hp2,
    fun d hd => Nat.le_trans (Nat.div_le_div_right (Nat.mul_le_mul_right _ (hb d hd))) hp2, ?_⟩
  rintro b (rfl | h)
  · omega
  · have := hb b h; omega

/-! ## Silence -/

/-- What a quiet step keeps. -/
structure Kept (f g : F) : Prop where
  svc : g.svc = f.svc
  auto : g.auto = f.auto
  received : g.received = f.received
  timeout : g.timeout = f.timeout
  has : ∀ k n, Has f k n → Has g k n

theorem Kept.refl (f : F) : Kept f f := ⟨rfl, rfl, rfl, rfl, fun _ _ h => h⟩

theorem Kept.trans {f g h : F} (a : Kept f g) (b : Kept g h) : Kept f h :=
  ⟨b.svc.trans a.svc, b.auto.trans a.auto, b.received.trans a.received, b.timeout.trans a.timeout,
    fun k n x => b.has k n (a.has k n x)⟩

theorem start_has (e : Env) (f : F) (k : Kind) (n : Name) (h : Has f k n) :
    Has (peercfgStart e f) k n := by
  obtain ⟨o, ho, hn⟩ := h
  cases k
  · obtain ⟨o', hm, hn'⟩ := startObjs_has (e := e) ho; exact ⟨o', hm, hn'.trans hn⟩
  · obtain ⟨o', hm, hn'⟩ := startObjs_has (e := e) ho; exact ⟨o', hm, hn'.trans hn⟩
  · exact ⟨o, ho, hn⟩

theorem Kept.try {f g : F} (e : Env) (h : Kept f g) : Kept f (tryStart e g) := by
  refine h.trans ⟨(tryStart_rest e g).svc, (tryStart_rest e g).auto, (tryStart_more e g).2,
    (tryStart_more e g).1, fun k n hh => ?_⟩
  rcases tryStart_cases e g with he | ⟨he, _⟩
  · rw [he]; exact hh
  · rw [he]; exact start_has e g k n hh

theorem Kept.of {f g : F} (h1 : g.svc = f.svc) (h2 : g.auto = f.auto) (h3 : g.received = f.received)
    (h4 : g.timeout = f.timeout) (h5 : ∀ k, objs g k = objs f k) : Kept f g :=
  ⟨h1, h2, h3, h4, fun k _ ⟨o, ho, hn⟩ => ⟨o, by rw [h5 k]; exact ho, hn⟩⟩

/-- What one run of the task does while the service is on: it deals with the
connection, and then looks at the clock. -/
theorem task_shape {f g : F} {e : Env} (h : step f (.task e) = some g) (hs : f.svc = .start)
    (hr : f.conn ≠ .resetting) : ∃ f1, Kept f f1 ∧ g = tryStart e f1 ∧
      ∀ k, objs f1 k = objs f k := by
  refine step_elim h (fun v g => ∀ e, v = .task e → ∃ f1, Kept f f1 ∧ g = tryStart e f1 ∧
      ∀ k, objs f1 k = objs f k)
    ?_ ?_ ?_ ?_ ?_ ?_ ?_ ?_ ?_ ?_ ?_ ?_ ?_ ?_ ?_ ?_ ?_ ?_ ?_ ?_ ?_ ?_ ?_ ?_ ?_ ?_ e rfl
  · intro e _ _ e' he; cases he
    have k := connect_keeps e f
    exact ⟨_, .of (connect_fields e f).1 k.1 k.2.1 k.2.2 (connect_objs e f), rfl, connect_objs e f⟩
  · intro e _ _ e' he; cases he
    have k := pair_keeps e f
    exact ⟨_, .of (pair_fields e f).1 k.1 k.2.1 k.2.2 (pair_objs e f), rfl, pair_objs e f⟩
  · intro e _ hc; exact absurd hc hr
  · intro e _ _ e' he; cases he; exact ⟨f, .refl f, rfl, fun _ => rfl⟩
  · intro e _ _ e' he; cases he
    have k := ping_keeps e f
    exact ⟨_, .of (ping_fields e f).1 k.1 k.2.1 k.2.2 (ping_objs e f), rfl, ping_objs e f⟩
  · intro e hst; rw [hs] at hst; cases hst
  all_goals (intros; simp_all)

theorem quiet_step {f g : F} {v : Ev} (h : step f v = some g) (hq : Quiet v) (hs : f.svc = .start)
    (hr : f.conn ≠ .resetting) : Kept f g := by
  cases v with
  | task e => obtain ⟨f1, k, rfl, _⟩ := task_shape h hs hr; exact k.try e
  | connected e =>
    simp only [step, onConnected] at h
    split at h
    · cases h
      have k := pair_keeps e { f with link := .up }
      exact .of (pair_fields e { f with link := .up }).1 k.1 k.2.1 k.2.2
        (fun k => (pair_objs e _ k).trans (by cases k <;> rfl))
    · cases h
  | disconnected => simp only [step] at h; cases h; exact .of rfl rfl rfl rfl (fun k => by cases k <;> rfl)
  | _ => exact absurd hq (by simp [Quiet])

theorem quiet_path {f g : F} {tr post : List Ev} (h : Reach tr f) (p : Path f post g)
    (hq : ∀ v ∈ post, Quiet v) (hs : f.svc = .start) : Kept f g := by
  induction p generalizing tr with
  | nil => exact .refl _
  | cons v en st p ih =>
    have k := quiet_step st (hq v (by simp)) hs (not_resetting h)
    exact k.trans (ih (.step v h en st) (fun w hw => hq w (by simp [hw])) (k.svc.trans hs))

theorem start_runs {e : Env} {f : F} {k : Kind} {n : Name} (hk : k ≠ .strgp) (h : Has f k n)
    (hs : Runs f k n ∨ e.startOk n = true) : Runs (peercfgStart e f) k n := by
  have key : ∀ l : List Obj, (∃ o ∈ l, o.name = n) →
      ((∃ o ∈ l, o.name = n ∧ o.started = true) ∨ e.startOk n = true) →
      ∃ o ∈ startObjs e l, o.name = n ∧ o.started = true := by
    rintro l ⟨o, ho, hn⟩ (⟨o', ho', hn', hs'⟩ | hs)
    · obtain ⟨q, h1, h2, h3⟩ := startObjs_runs (e := e) ho' (.inl hs')
      exact ⟨q, h1, h2.trans hn', h3⟩
    · obtain ⟨q, h1, h2, h3⟩ := startObjs_runs (e := e) ho (.inr (hn ▸ hs))
      exact ⟨q, h1, h2.trans hn, h3⟩
  cases k
  · exact key _ h hs
  · exact key _ h hs
  · exact absurd rfl hk

theorem tryStart_runs {e : Env} {f : F} {t : Nat} (ha : f.auto = true) (hr : f.received = true)
    (ht : f.timeout = some t) (hn : t ≤ e.now) : tryStart e f = peercfgStart e f := by
  unfold tryStart
  rw [ha, hr, ht]
  simp only [Bool.not_true, Bool.false_eq_true, if_false]
  rw [if_neg (by omega)]

/-! ## Without stops, no assertion fails -/

/-- What concerns the connection. -/
structure Net where
  conn : Conn
  link : Link
  pend : List Req
  outPing : Bool
  svc : Svc

/-- The part of the state that concerns the connection. -/
def net (f : F) : Net := ⟨f.conn, f.link, f.pend, f.outPing, f.svc⟩

/-- The connection, the requests under way and the state the service thinks it is in
agree. -/
def CalmNet (n : Net) : Prop := n.svc ≠ .stopping ∧
  match n.conn with
  | .disconnected => n.link = .none ∧ n.pend = [] ∧ n.outPing = false
  | .connecting => n.link = .trying ∧ n.pend = [] ∧ n.outPing = false
  | .pairing => n.link = .up ∧ n.pend = [.pair] ∧ n.outPing = false
  | .pairingRetry => n.link = .up ∧ n.pend = [] ∧ n.outPing = false
  | .configuring => n.link = .up ∧ (n.pend = [] ∨ n.pend = [.peercfg]) ∧ n.outPing = false
  | .configured => n.link = .up ∧
      ((n.pend = [] ∧ n.outPing = false) ∨ (n.pend = [.ping] ∧ n.outPing = true))
  | .error => n.link = .up ∧ (n.pend = [] ∨ n.pend = [.ping])
  | .unpairing => False
  | .resetting => False

theorem stop_net (e : Env) (f : F) : net (peercfgStop e f).1 = net f := by
  unfold peercfgStop; split <;> rfl

theorem delete_net (e : Env) (f : F) : net (peercfgDelete e f) = net f := by
  unfold peercfgDelete
  simp only
  split
  · split <;> rfl
  · rfl

theorem reset_net (e : Env) (f : F) : net (peercfgReset e f).1 = net f := by
  unfold peercfgReset
  have h := stop_net e f
  split
  · rename_i f1 he; rw [he] at h; exact h
  · rename_i f1 he; rw [he] at h; exact (delete_net e f1).trans h

theorem tryStart_net (e : Env) (f : F) : net (tryStart e f) = net f := by
  rcases tryStart_cases e f with h | ⟨h, _⟩ <;> rw [h] <;> rfl

theorem heard_net (e : Env) (f : F) : net (heard e f) = net f := by
  unfold heard
  simp only
  split
  · exact (stop_net e _).trans rfl
  · rfl

theorem pair_calm (e : Env) (f : F) (h1 : f.link = .up) (h2 : f.pend = []) (h3 : f.outPing = false)
    (h4 : f.svc ≠ .stopping) : CalmNet (net (pair e f)) := by
  unfold pair
  split
  · simp [CalmNet, net, *]
  · split <;> simp [CalmNet, net, *]

theorem calm_conn {f : F} (h : CalmNet (net f)) : f.svc ≠ .stopping ∧ f.conn ≠ .unpairing ∧
    f.conn ≠ .resetting := by
  refine ⟨h.1, ?_, ?_⟩ <;> (intro hc; simp [CalmNet, net, hc] at h)

theorem requested_calm (e : Env) (f : F) (h1 : f.link = .up) (h2 : f.pend = [])
    (h3 : f.outPing = false) (h4 : f.svc ≠ .stopping) (ht : (resetAndRequest e f).2 = true) :
    CalmNet (net (resetAndRequest e f).1) := by
  have hn := reset_net e f
  rcases resetAndRequest_cases e f with ⟨hf, _⟩ | ⟨_, he⟩
  · rw [hf] at ht; cases ht
  · simp only [net, Net.mk.injEq] at hn
    rw [he]; unfold requestPeercfg; split <;> simp [CalmNet, net, *]

theorem request_net (e : Env) (f : F) (hf : (resetAndRequest e f).2 = false) :
    (resetAndRequest e f).1.link = f.link ∧ (resetAndRequest e f).1.pend = f.pend ∧
    (resetAndRequest e f).1.svc = f.svc := by
  have hn := reset_net e f
  simp only [net, Net.mk.injEq] at hn
  rcases resetAndRequest_cases e f with ⟨_, he, _⟩ | ⟨_, he⟩
  · rw [he]; exact ⟨hn.2.1, hn.2.2.1, hn.2.2.2.2⟩
  · rw [he] at hf ⊢
    unfold requestPeercfg at hf ⊢
    split at hf
    · cases hf
    · rename_i hs; rw [if_neg hs]; exact ⟨hn.2.1, hn.2.2.1, hn.2.2.2.2⟩

theorem calm_pend {f : F} (h : CalmNet (net f)) {r : Req} (hr : r ∈ f.pend) :
    (r = .pair ∧ f.conn = .pairing ∧ f.pend = [.pair]) ∨
    (r = .peercfg ∧ f.conn = .configuring ∧ f.pend = [.peercfg]) ∨
    (r = .ping ∧ (f.conn = .configured ∨ f.conn = .error) ∧ f.pend = [.ping]) := by
  obtain ⟨_, h⟩ := h
  cases hc : f.conn <;> simp only [net, hc] at h
  · rw [h.2.1] at hr; cases hr
  · rw [h.2.1] at hr; cases hr
  · rw [h.2.1] at hr ⊢; simp at hr; simp [hr]
  · rw [h.2.1] at hr; cases hr
  · rcases h.2.1 with h | h <;> rw [h] at hr ⊢
    · cases hr
    · simp at hr; simp [hr]
  · rcases h.2 with ⟨h, _⟩ | ⟨h, _⟩ <;> rw [h] at hr ⊢
    · cases hr
    · simp at hr; simp [hr]
  · rcases h.2 with h | h <;> rw [h] at hr ⊢
    · cases hr
    · simp at hr; simp [hr]

theorem calm_step {f g : F} {v : Ev} (h : step f v = some g) (en : enabled f v) (hc : Calm v)
    (ih : CalmNet (net f)) : CalmNet (net g) := by
  obtain ⟨c1, c2, c3⟩ := calm_conn ih
  revert en hc
  refine step_elim h (fun v g => enabled f v → Calm v → CalmNet (net g))
    ?_ ?_ ?_ ?_ ?_ ?_ ?_ ?_ ?_ ?_ ?_ ?_ ?_ ?_ ?_ ?_ ?_ ?_ ?_ ?_ ?_ ?_ ?_ ?_ ?_ ?_
  · intro e _ hd _ _
    rw [tryStart_net]
    unfold connect
    split
    · simp [CalmNet, net, hd] at ih ⊢; simp [ih]
    · exact ih
  · intro e _ hd _ _
    rw [tryStart_net]
    simp [CalmNet, net, hd] at ih
    exact pair_calm e f ih.2.1 ih.2.2.1 ih.2.2.2 ih.1
  · intro e _ hd; exact absurd hd c3
  · intro e _ _ _ _; rw [tryStart_net]; exact ih
  · intro e _ hd _ _
    rw [tryStart_net]
    simp [CalmNet, net, hd] at ih
    obtain ⟨i1, i2, i3⟩ := ih
    unfold ping
    rcases i3 with ⟨i3, i4⟩ | ⟨i3, i4⟩
    · rw [i4]; simp only [Bool.false_eq_true, if_false]
      split <;> simp [CalmNet, net, hd, i1, i2, i3]
    · rw [i4]; simp [CalmNet, net, hd, i1, i2, i3, i4]
  · intro e hs; exact absurd hs c1
  · intro e hd en _
    simp [CalmNet, net, hd] at ih
    exact pair_calm e _ rfl ih.2.2.1 ih.2.2.2 ih.1
  · intro _ _; simp [CalmNet, net, onDisconnected]; exact c1
  · intro e hd _ _
    simp [CalmNet, net, hd] at ih
    simp [CalmNet, net, answered, ih]
  · intro e err hd _ _ _
    simp [CalmNet, net, hd] at ih
    simp [CalmNet, net, answered, ih]
  · intro e hd ht _ _
    simp [CalmNet, net, hd] at ih
    exact requested_calm e _ ih.2.1 (by simp [answered, ih.2.2.1]) ih.2.2.2 ih.1 ht
  · intro e hd hf _ _
    simp [CalmNet, net, hd] at ih
    have r := request_net e _ hf
    have hp : (answered .pair f).pend = [] := by simp [answered, ih.2.2.1]
    refine ⟨?_, ?_⟩
    · intro hs; exact ih.1 (r.2.2 ▸ hs)
    · exact ⟨r.1.trans ih.2.1, .inl (r.2.1.trans hp)⟩
  · intro err _ en _
    have hcf : f.conn = .configuring := by
      rcases calm_pend ih (r := .peercfg) en with h | h | h
      · cases h.1
      · exact h.2.1
      · cases h.1
    simp [CalmNet, net, hcf] at ih
    have : (answered .peercfg f).pend = [] := by
      rcases ih.2.2.1 with h | h <;> simp [answered, h]
    exact ⟨ih.1, ih.2.1, .inl this⟩
  · intro en _
    have hcf : f.conn = .configuring := by
      rcases calm_pend ih (r := .peercfg) en with h | h | h
      · cases h.1
      · exact h.2.1
      · cases h.1
    simp [CalmNet, net, hcf] at ih
    have : (answered .peercfg f).pend = [] := by
      rcases ih.2.2.1 with h | h <;> simp [answered, h]
    exact ⟨ih.1, ih.2.1, .inl ⟨this, ih.2.2.2⟩⟩
  · intro e d en _
    have en : Req.ping ∈ f.pend := en
    have hn := heard_net e (answered .ping f)
    simp only [net, Net.mk.injEq] at hn
    have hg : net (onPingResp e d (answered .ping f)) =
        ⟨f.conn, f.link, f.pend.erase .ping, false, f.svc⟩ := by
      unfold onPingResp
      split <;> simp only [net, hn] <;> rfl
    rw [hg]
    rcases calm_pend ih en with h | h | ⟨_, h2, h3⟩
    · cases h.1
    · cases h.1
    · have e3 : f.pend.erase .ping = [] := by rw [h3]; rfl
      rw [e3]
      have hl : f.link = .up := by
        rcases h2 with h2 | h2 <;> (have := ih.2; simp only [net, h2] at this; exact this.1)
      refine ⟨c1, ?_⟩
      rcases h2 with h2 | h2 <;> simp [h2, hl]
  · intro err en _
    have en : Req.reset ∈ f.pend := en
    rcases calm_pend ih en with h | h | h <;> cases h.1
  · intro e _ _; unfold startCmd; split
    · exact ih
    · split
      · exact ⟨by simp [net], ih.2⟩
      · exact ih
  · intro _ h; exact h.elim
  · intro c _ _; unfold configCmd; split
    · exact ih
    · split <;> exact ih
  · intro b _ _; exact ih
  · intro e _ _; exact ih
  · intro e _ _; rw [stop_net]; exact ih
  · intro e _ h; exact h.elim
  all_goals (intro e n _ _ _; exact ih)

theorem calm_progress {f : F} {v : Ev} (en : enabled f v) (hc : Calm v) (ih : CalmNet (net f)) :
    ∃ g, step f v = some g := by
  obtain ⟨c1, c2, c3⟩ := calm_conn ih
  cases v with
  | task e =>
    simp only [step, task]
    split
    · rename_i h; exact absurd h en
    · unfold activeRoutine
      split <;> first | exact ⟨_, rfl⟩ | exact absurd ‹_› c2
    · rename_i h; exact absurd h c1
  | connected e =>
    have en : f.link = .trying := en
    have : f.conn = .connecting := by
      cases hd : f.conn <;> simp [CalmNet, net, hd] at ih <;> simp_all
    exact ⟨_, by simp only [step, onConnected]; exact if_pos this⟩
  | pairResp e err =>
    have en : Req.pair ∈ f.pend := en
    have : f.conn = .pairing := by
      rcases calm_pend ih en with h | h | h
      · exact h.2.1
      · cases h.1
      · cases h.1
    simp only [step, onPairResp]
    rw [if_pos (show (answered .pair f).conn = .pairing from this)]
    split
    · exact ⟨_, rfl⟩
    · split
      · exact ⟨_, rfl⟩
      · split <;> exact ⟨_, rfl⟩
  | cfgReq e k n =>
    have hc : isFailover n = true := hc
    simp only [step, cfgReq, hc, if_true]
    cases k <;> exact ⟨_, rfl⟩
  | _ => exact ⟨_, rfl⟩

theorem calm_reach {tr : List Ev} {f : F} (h : Reach tr f) (hc : ∀ v ∈ tr, Calm v) :
    CalmNet (net f) := by
  induction h with
  | init => simp [CalmNet, net, F.init]
  | step v _ en st ih =>
    exact calm_step st en (hc v (by simp)) (ih fun w hw => hc w (by simp [hw]))

end Verif.Failover
