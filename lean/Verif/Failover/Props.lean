import Verif.Failover.More

/-!
# C59: failover takes over, gives back, and does neither without cause

Full statement: with failover in use, (1) a daemon starts the producers and updaters
of its peer by itself only when the peer has not answered a ping for the documented
time, and then it starts all of them; (2) when the peer answers again it stops them;
(3) its own configuration is started once, when the peer is gone or has said that it
does not run it; (4) what it tells its peer about itself is true; (5) after a stop
nothing of the peer runs or remains; (6) the service does not bring the daemon down.

(1)-(4) are proved for every run of one daemon against an arbitrary peer, network
and clock, (1) with the restriction that a good answer to a ping was received: see
`takeover_partial` and `never_answered_defect`.  Of (5), objects the rest of the
daemon refuses to delete remain: `stop_cleans_partial`, `old_object_kept_defect`.  (6)
holds as long as nobody stops the service: `no_abort_partial`, `stop_aborts_defect`.
-/

namespace Verif.Failover

/-! ## Taking over -/

theorem all_trips_snoc {tr : List Ev} {g : F} (h : Reach tr g) (a : Env) (d : Option Bool) :
    allTrips (tr ++ [.pingResp a d]) = tripsFrom F.init tr ++ [roundTrip g.pingTs a.now] :=
  trips_snoc (path_reach h) a d

/-- An object of the peer starts to run only on the command of the user or when the
task finds the peer's answers overdue, with automatic switching on and after the
peer's configuration was transferred. -/
theorem takeover_has_cause (tr : List Ev) (f g : F) (v : Ev) (k : Kind) (n : Name)
    (h : Reach tr f) (st : step f v = some g) (h0 : ¬ Runs f k n) (h1 : Runs g k n) :
    (∃ e, v = .peercfgStartCmd e) ∨
    ∃ e, v = .task e ∧ f.auto = true ∧ .peercfgResp 0 ∈ tr ∧ Overdue tr e.now := by
  obtain ⟨o, ho, hn, hs⟩ := h1
  rcases step_explained st k o ho with ⟨o', hm, hn', hi⟩ | ⟨_, _, hf⟩
  · rcases hi hs with h' | ⟨_, h' | ⟨e, t, hv, _, ha, hr, ht, hnow⟩⟩
    · exact absurd ⟨o', hm, hn'.trans hn, h'⟩ h0
    · exact .inl h'
    · right
      refine ⟨e, hv, ha, received_inv h hr, ?_⟩
      rcases justified_inv h with j | ⟨j, _⟩
      · obtain ⟨pre, g0, a, post, e1, e2, e3, e4⟩ := j t ht
        refine ⟨pre, a, post, g0, e1, e3, e2, ?_⟩
        have r := heard_rest a (answered .ping g0)
        have pg := patience_ge a (heard a (answered .ping g0))
        have ring := ring_record (ring_path (path_reach e2) [] (.inl ⟨by simp, rfl, rfl⟩))
          (roundTrip g0.pingTs a.now)
        have perm := ring_perm ring
        have hrtt : (heard a (answered .ping g0)).rtt =
            (record g0 (roundTrip g0.pingTs a.now)).rtt := r.2.2.2.2.2.2.2.2.2.2.1
        have hi : (heard a (answered .ping g0)).interval = g0.interval := r.2.2.2.2.2.2.2.1
        have hnum : (heard a (answered .ping g0)).num = g0.num := r.2.2.2.2.2.2.2.2.1
        have hden : (heard a (answered .ping g0)).den = g0.den := r.2.2.2.2.2.2.2.2.2.1
        rw [hi, hrtt, hnum, hden] at pg
        rw [all_trips_snoc e2 a]
        simp only [List.nil_append] at perm
        intro b hb
        have hb' : b = g0.interval ∨ b ∈ (record g0 (roundTrip g0.pingTs a.now)).rtt :=
          hb.imp id fun h => perm.mem_iff.2 h
        obtain ⟨p1, p2, p3, p4, p5⟩ := pg
        have q1 := p5 b hb'
        rcases hb' with rfl | hb'
        · refine ⟨?_, ?_, ?_⟩ <;> omega
        · have := p2 b hb'
          have := p4 b hb'
          refine ⟨?_, ?_, ?_⟩ <;> omega
      · rw [j] at hr; cases hr
  · rw [hf] at hs; cases hs

/-- When the peer falls silent after a good answer, the first run of the task after
the deadline starts all its producers and updaters that can be started.  The
deadline is the documented one.
Missing: the peer must have answered a ping after its configuration was
transferred. -/
theorem takeover_partial (pre post : List Ev) (a e : Env) (f g f1 f2 : F)
    (h : Reach pre f) (en : enabled f (.pingResp a (some false)))
    (st : step f (.pingResp a (some false)) = some g)
    (hs : f.svc = .start) (ha : f.auto = true) (hr : f.received = true)
    (p : Path g post f1) (hq : ∀ v ∈ post, Quiet v)
    (ht : step f1 (.task e) = some f2)
    (late : ∀ base, (base = f.interval ∨
        base ∈ lastEight (allTrips (pre ++ [.pingResp a (some false)]))) →
      a.now + base * f.num / f.den ≤ e.now ∧ a.now + (base + a.sd4) ≤ e.now)
    (k : Kind) (n : Name) (hk : k ≠ .strgp) (hh : Has f k n) (ok : e.startOk n = true) :
    Runs f2 k n := by
  have hg := Reach.step _ h en st
  simp only [step, Option.some.injEq] at st
  have r := heard_rest a (answered .ping f)
  have gs : g.svc = .start := by rw [← st]; exact r.1.trans hs
  have ga : g.auto = true := by rw [← st]; exact r.2.2.2.2.2.2.2.2.2.2.2.2.trans ha
  have gr : g.received = true := by rw [← st]; exact r.2.2.2.1.trans hr
  have gt : g.timeout = some (a.now + patience a (heard a (answered .ping f))) := by rw [← st]; rfl
  have gh : Has g k n := by
    obtain ⟨o, ho, hn⟩ := hh
    have ho' : ∃ o' ∈ objs (heard a (answered .ping f)) k, o'.name = o.name := by
      unfold heard
      simp only
      split
      · rw [stop_objs]
        cases k
        · exact stopObjs_has ho
        · exact stopObjs_has ho
        · exact ⟨o, ho, rfl⟩
      · exact ⟨o, by cases k <;> exact ho, rfl⟩
    obtain ⟨o', hm, hn'⟩ := ho'
    refine ⟨o', ?_, hn'.trans hn⟩
    rw [← st]
    rw [(onPingResp_fields a (some false) (answered .ping f)).2.2.2.2.2.2.2.2 k]
    exact hm
  have kept := quiet_path hg p hq gs
  have f1s := kept.svc.trans gs
  obtain ⟨f1', k1, e1, _⟩ := task_shape ht f1s (not_resetting (reach_path hg p))
  have kk := kept.trans k1
  rw [e1, tryStart_runs (kk.auto.trans ga) (kk.received.trans gr) (kk.timeout.trans gt)]
  · exact start_runs hk (kk.has k n gh) (.inr ok)
  · have hrtt : (heard a (answered .ping f)).rtt = (record f (roundTrip f.pingTs a.now)).rtt :=
      r.2.2.2.2.2.2.2.2.2.2.1
    have hi : (heard a (answered .ping f)).interval = f.interval := r.2.2.2.2.2.2.2.1
    have hnum : (heard a (answered .ping f)).num = f.num := r.2.2.2.2.2.2.2.2.1
    have hden : (heard a (answered .ping f)).den = f.den := r.2.2.2.2.2.2.2.2.2.1
    have ring := ring_record (ring_path (path_reach h) [] (.inl ⟨by simp, rfl, rfl⟩))
      (roundTrip f.pingTs a.now)
    have perm := ring_perm ring
    simp only [List.nil_append] at perm
    rw [all_trips_snoc h a] at late
    have key : ∀ l : List Nat, ∀ m, l.foldl max m = m ∨ l.foldl max m ∈ l := by
      intro l
      induction l with
      | nil => intro m; exact .inl rfl
      | cons x l ih =>
        intro m
        rcases ih (max m x) with h | h
        · simp only [List.foldl_cons, h]
          rcases Nat.le_total m x with hx | hx
          · rw [Nat.max_eq_right hx]; exact .inr (by simp)
          · rw [Nat.max_eq_left hx]; exact .inl rfl
        · exact .inr (by simp only [List.foldl_cons]; exact List.mem_cons_of_mem _ h)
    have base : max (pingMax (heard a (answered .ping f))) f.interval = f.interval ∨
        max (pingMax (heard a (answered .ping f))) f.interval ∈
          lastEight (tripsFrom F.init pre ++ [roundTrip f.pingTs a.now]) := by
      rcases Nat.le_total (pingMax (heard a (answered .ping f))) f.interval with hx | hx
      · exact .inl (Nat.max_eq_right hx)
      · rw [Nat.max_eq_left hx]
        unfold pingMax at hx ⊢
        rw [hrtt] at hx ⊢
        rcases key (record f (roundTrip f.pingTs a.now)).rtt 0 with h0 | h0
        · left; rw [h0] at hx ⊢; omega
        · exact .inr (perm.mem_iff.1 h0)
    obtain ⟨l1, l2⟩ := late _ base
    simp only [patience, hi, hnum, hden]
    rcases Nat.le_total
        (max (pingMax (heard a (answered .ping f))) f.interval * f.num / f.den)
        (max (pingMax (heard a (answered .ping f))) f.interval + a.sd4) with hx | hx
    · rw [Nat.max_eq_right hx]; omega
    · rw [Nat.max_eq_left hx]; omega

/-- The round trips the deadline is computed from are those of the last eight answers. -/
theorem last_eight_round_trips (tr : List Ev) (f : F) (h : Reach tr f) :
    f.rtt.Perm (lastEight (allTrips tr)) := by
  have he : allTrips tr = tripsFrom F.init tr := trips_eq (path_reach h)
  rw [he]
  have := ring_path (path_reach h) [] (.inl ⟨by simp, rfl, rfl⟩)
  simpa using ring_perm this

/-! ## Giving back -/

/-- An answer to a ping, whatever it says, stops all that runs of the peer's
configuration, except what refuses to stop. -/
theorem answer_gives_back (f g : F) (e : Env) (d : Option Bool) (k : Kind) (n : Name)
    (tr : List Ev) (h : Reach tr f) (ha : f.auto = true) (st : step f (.pingResp e d) = some g)
    (hr : Runs g k n) : Runs f k n ∧ e.stopOk n = false := by
  simp only [step, Option.some.injEq] at st
  obtain ⟨o, ho, hn, hs⟩ := hr
  rw [← st, (onPingResp_fields e d (answered .ping f)).2.2.2.2.2.2.2.2 k] at ho
  have hh : heard e (answered .ping f) = (peercfgStop e (record (answered .ping f)
      (roundTrip f.pingTs e.now))).1 := by
    unfold heard; simp only; exact if_pos ha
  rw [hh, stop_objs] at ho
  cases k
  · obtain ⟨o', hm, hn', hi⟩ := stopObjs_mem ho
    exact ⟨⟨o', hm, hn'.trans hn, (hi hs).1⟩, hn ▸ (hi hs).2⟩
  · obtain ⟨o', hm, hn', hi⟩ := stopObjs_mem ho
    exact ⟨⟨o', hm, hn'.trans hn, (hi hs).1⟩, hn ▸ (hi hs).2⟩
  · have := (flag_inv h).2 o ho
    rw [this] at hs; cases hs

/-- If nothing refuses to stop, the peer is told from then on that its configuration
does not run here. -/
theorem giving_back_is_told (f g : F) (e : Env) (d : Option Bool) (ha : f.auto = true)
    (st : step f (.pingResp e d) = some g) (hok : ∀ n, e.stopOk n = true) (n : Name)
    (hn : pingAnswer n f ≠ none) : pingAnswer n g = some false := by
  simp only [step, Option.some.injEq] at st
  have hh : heard e (answered .ping f) = (peercfgStop e (record (answered .ping f)
      (roundTrip f.pingTs e.now))).1 := by
    unfold heard; simp only; exact if_pos ha
  have no : ∀ l : List Obj, (stopObjs e l).any (·.started) = false := by
    intro l
    rw [List.any_eq_false]
    intro o ho hs
    obtain ⟨_, _, _, hi⟩ := stopObjs_mem ho
    have := (hi hs).2
    rw [hok] at this; cases this
  have hs : anyStarted (stopAll e (record (answered .ping f) (roundTrip f.pingTs e.now))) = false := by
    unfold anyStarted stopAll
    simp only [no, Bool.or_false]
  have hact : g.activated = false := by
    rw [← st]
    have : (heard e (answered .ping f)).activated = false := by
      rw [hh]; unfold peercfgStop; rw [hs]; rfl
    cases d with
    | none => exact this
    | some b => cases b <;> exact this
  have hpeer : g.peer = f.peer := by
    rw [← st]
    have : (heard e (answered .ping f)).peer = f.peer := by
      rw [hh]; unfold peercfgStop; rw [hs]; rfl
    cases d with
    | none => exact this
    | some b => cases b <;> exact this
  unfold pingAnswer at hn ⊢
  rw [hpeer]
  split
  · rename_i hx; rw [if_pos hx] at hn; exact absurd rfl hn
  · rw [hact]

/-- The command to stop the peer's configuration does the same. -/
theorem stop_command_gives_back (f g : F) (e : Env) (k : Kind) (n : Name)
    (tr : List Ev) (h : Reach tr f) (st : step f (.peercfgStopCmd e) = some g)
    (hr : Runs g k n) : Runs f k n ∧ e.stopOk n = false := by
  simp only [step, Option.some.injEq] at st
  obtain ⟨o, ho, hn, hs⟩ := hr
  rw [← st, stop_objs] at ho
  cases k
  · obtain ⟨o', hm, hn', hi⟩ := stopObjs_mem ho
    exact ⟨⟨o', hm, hn'.trans hn, (hi hs).1⟩, hn ▸ (hi hs).2⟩
  · obtain ⟨o', hm, hn', hi⟩ := stopObjs_mem ho
    exact ⟨⟨o', hm, hn'.trans hn, (hi hs).1⟩, hn ▸ (hi hs).2⟩
  · have := (flag_inv h).2 o ho
    rw [this] at hs; cases hs

/-- Storage policies of the peer are never started: its data goes to the own
policies. -/
theorem policies_never_run (tr : List Ev) (f : F) (h : Reach tr f) (n : Name) :
    ¬ Runs f .strgp n := by
  rintro ⟨o, ho, _, hs⟩
  have := (flag_inv h).2 o ho
  rw [this] at hs; cases hs

/-- A connection to the peer is followed by a pairing request, unless something of the
peer runs and switching is not automatic. -/
theorem connect_pairs (f g : F) (e : Env) (st : step f (.connected e) = some g)
    (hs : e.sendOk = true) (hp : .pair ∉ f.pend) :
    .pair ∈ g.pend ↔ (f.auto = true ∨ ∀ k n, k ≠ .strgp → ¬ Runs f k n) := by
  have hrun : anyStarted f = true ↔ ∃ k n, k ≠ .strgp ∧ Runs f k n := by
    unfold anyStarted
    rw [Bool.or_eq_true, List.any_eq_true, List.any_eq_true]
    constructor
    · rintro (⟨o, ho, h⟩ | ⟨o, ho, h⟩)
      · exact ⟨.prdcr, o.name, by simp, o, ho, rfl, h⟩
      · exact ⟨.updtr, o.name, by simp, o, ho, rfl, h⟩
    · rintro ⟨k, n, hk, o, ho, _, h⟩
      cases k
      · exact .inl ⟨o, ho, h⟩
      · exact .inr ⟨o, ho, h⟩
      · exact absurd rfl hk
  simp only [step, onConnected] at st
  split at st
  · simp only [Option.some.injEq] at st
    rw [← st]
    have hrun' : anyStarted { f with link := .up } = anyStarted f := rfl
    unfold pair
    rw [hrun', hs]
    cases ha : f.auto <;> cases hr : anyStarted f <;> simp only [Bool.not_false, Bool.not_true,
      Bool.and_true, Bool.and_false, Bool.false_eq_true, if_true, if_false, true_or,
      false_or, iff_true]
    · simp only [List.mem_cons, true_or, true_iff]
      intro k n hk hx
      have := hrun.2 ⟨k, n, hk, hx⟩
      rw [hr] at this; cases this
    · constructor
      · intro h; exact absurd h hp
      · intro h
        obtain ⟨k, n, hk, hx⟩ := hrun.1 hr
        exact absurd hx (h k n hk)
    · exact List.mem_cons_self
    · exact List.mem_cons_self
  · cases st

/-- And when it is granted, all that runs of the peer's configuration is stopped,
except what refuses to stop. -/
theorem pairing_gives_back (f g : F) (e : Env) (k : Kind) (n : Name) (tr : List Ev)
    (h : Reach tr f) (st : step f (.pairResp e 0) = some g) (hr : Runs g k n) :
    Runs f k n ∧ e.stopOk n = false := by
  have sub : ∀ o ∈ objs g k, o ∈ objs (peercfgStop e { answered .pair f with conn := .resetting }).1 k := by
    intro o ho
    have hg : ∀ k, objs g k = objs (resetAndRequest e { answered .pair f with conn := .resetting }).1 k := by
      simp only [step, onPairResp] at st
      split at st
      · split at st
        · rename_i he; cases he
        · split at st
          · rename_i he; exact absurd rfl he
          · split at st
            · rename_i f1 he; cases st; intro k; rw [he]
            · rename_i f1 he; cases st; intro k; rw [he]; cases k <;> rfl
      · cases st
    rw [hg k] at ho
    rw [resetAndRequest_objs] at ho
    exact reset_sub ho
  obtain ⟨o, ho, hn, hs⟩ := hr
  have ho := sub o ho
  rw [stop_objs] at ho
  cases k
  · obtain ⟨o', hm, hn', hi⟩ := stopObjs_mem ho
    exact ⟨⟨o', hm, hn'.trans hn, (hi hs).1⟩, hn ▸ (hi hs).2⟩
  · obtain ⟨o', hm, hn', hi⟩ := stopObjs_mem ho
    exact ⟨⟨o', hm, hn'.trans hn, (hi hs).1⟩, hn ▸ (hi hs).2⟩
  · have := (flag_inv h).2 o ho
    rw [this] at hs; cases hs

/-! ## The own configuration -/

/-- The own configuration is started at most once. -/
theorem own_started_once (tr : List Ev) (f : F) (h : Reach tr f) : f.ours ≤ 1 := by
  have := ours_inv h
  unfold OursInv at this
  rw [this]; split <;> simp

/-- It is started when a connection or an attempt to connect ends, or when the peer
answers that it does not run it. -/
theorem own_start_has_cause (f g : F) (v : Ev) (st : step f v = some g) (h : g.ours ≠ f.ours) :
    v = .disconnected ∨ ∃ e, v = .pingResp e (some false) := by
  rcases ours_step st with ⟨_, h2⟩ | ⟨h2, _⟩
  · exact absurd h2 h
  · exact h2

/-- And on these events it is started, if it was not before. -/
theorem own_is_started (tr : List Ev) (f g : F) (v : Ev) (h : Reach tr f) (en : enabled f v)
    (st : step f v = some g) (hv : v = .disconnected ∨ ∃ e, v = .pingResp e (some false)) :
    g.ours = 1 := by
  have inv := ours_inv (.step v h en st)
  unfold OursInv at inv
  rw [inv]
  have : g.our = true := by
    rcases hv with rfl | ⟨e, rfl⟩
    · simp only [step, Option.some.injEq] at st; rw [← st]; rfl
    · simp only [step, Option.some.injEq] at st; rw [← st]; rfl
  simp [this]

/-- Once started it counts as started for ever: nothing in the service stops it. -/
theorem own_never_stopped (f g : F) (v : Ev) (st : step f v = some g) (h : f.our = true) :
    g.our = true := by
  rcases ours_step st with ⟨h1, _⟩ | ⟨_, h1, _⟩
  · rw [h1]; exact h
  · exact h1

/-! ## What the peer is told -/

/-- When the answer to a ping says that the peer's configuration does not run here,
nothing of it does. -/
theorem answer_is_true (tr : List Ev) (f : F) (h : Reach tr f) (n : Name)
    (ha : pingAnswer n f = some false) (k : Kind) (m : Name) : ¬ Runs f k m := by
  have inv := flag_inv h
  have hf : f.activated = false := by
    unfold pingAnswer at ha
    split at ha
    · cases ha
    · exact Option.some.inj ha
  have hs : anyStarted f = false := by
    cases hq : anyStarted f with
    | false => rfl
    | true => rw [inv.1 hq] at hf; cases hf
  obtain ⟨s1, s2⟩ := anyStarted_false.1 hs
  rintro ⟨o, ho, _, hst⟩
  have : o.started = false := by
    cases k
    · exact s1 o ho
    · exact s2 o ho
    · exact inv.2 o ho
  rw [this] at hst; cases hst

/-- Two daemons: when one starts its configuration because of an answer, the other
does not run it at that moment. -/
theorem no_overlap_at_answer (na nb : Name) (a b a' : F) (e : Env) (k : Kind) (m : Name)
    (h : Both na nb a b) (_en : enabled a (.pingResp e (pingAnswer na b)))
    (st : step a (.pingResp e (pingAnswer na b)) = some a') (hs : a'.ours ≠ a.ours) :
    ¬ Runs b k m := by
  have hb : ∃ tr, Reach tr b := by
    clear hs st _en
    induction h with
    | init => exact ⟨[], .init⟩
    | left _ _ _ _ _ ih => exact ih
    | right v _ en st _ ih => obtain ⟨tr, hr⟩ := ih; exact ⟨_, .step v hr en st⟩
  obtain ⟨tr, hr⟩ := hb
  rcases own_start_has_cause a a' _ st hs with h | ⟨e', h⟩
  · cases h
  · cases h' : pingAnswer na b with
    | none => rw [h'] at h; cases h
    | some q => cases q with
      | false => exact answer_is_true tr b hr na h' k m
      | true => rw [h'] at h; cases h

/-! ## Stopping -/

/-- When the service has stopped, nothing of the peer runs, and nothing of it is left
if the rest of the daemon lets it be deleted.
Missing: refusals to delete are not noticed. -/
theorem stop_cleans_partial (tr : List Ev) (f g : F) (v : Ev) (h : Reach tr f) (en : enabled f v)
    (st : step f v = some g) (h0 : f.svc ≠ .stop) (h1 : g.svc = .stop) :
    (∀ k n, ¬ Runs g k n) ∧
    ∃ e, v = .task e ∧ ((∀ n, e.delOk n = true) → ∀ k n, ¬ Has g k n) := by
  have key : ∃ e, v = .task e ∧ f.svc = .stopping ∧ g = tryStop e f := by
    refine step_elim st (fun v g => g.svc = .stop → ∃ e, v = .task e ∧ f.svc = .stopping ∧ g = tryStop e f)
      ?_ ?_ ?_ ?_ ?_ ?_ ?_ ?_ ?_ ?_ ?_ ?_ ?_ ?_ ?_ ?_ ?_ ?_ ?_ ?_ ?_ ?_ ?_ ?_ ?_ ?_ h1
    · intro e _ _ h; rw [(tryStart_rest e _).svc, (connect_fields e f).1] at h; exact absurd h h0
    · intro e _ _ h; rw [(tryStart_rest e _).svc, (pair_fields e f).1] at h; exact absurd h h0
    · intro e _ _ h; rw [(tryStart_rest e _).svc, (resetAndRequest_rest e f).1] at h; exact absurd h h0
    · intro e _ _ h; rw [(tryStart_rest e _).svc] at h; exact absurd h h0
    · intro e _ _ h; rw [(tryStart_rest e _).svc, (ping_fields e f).1] at h; exact absurd h h0
    · intro e hs _; exact ⟨e, rfl, hs, rfl⟩
    · intro e _ h; rw [(pair_fields e _).1] at h; exact absurd h h0
    · intro h; exact absurd h h0
    · intro e _ h; exact absurd h h0
    · intro e err _ _ h; exact absurd h h0
    · intro e _ _ h; rw [(resetAndRequest_rest e _).1] at h; exact absurd h h0
    · intro e _ _ h
      exact absurd ((resetAndRequest_rest e { answered .pair f with conn := .resetting }).1.symm.trans h) h0
    · intro err _ h; exact absurd h h0
    · intro h; exact absurd h h0
    · intro e d h; rw [(onPingResp_fields e d _).1] at h; exact absurd h h0
    · intro err h; unfold onResetResp at h; simp only at h; split at h <;> exact absurd h h0
    · intro e h; unfold startCmd at h; split at h
      · exact absurd h h0
      · rename_i hx; exact absurd h0 hx
    · intro h; unfold stopCmd at h; split at h
      · exact absurd h h0
      · cases h
    · intro c h; unfold configCmd at h; split at h
      · exact absurd h h0
      · rename_i hx; exact absurd h0 hx
    · intro b h; exact absurd h h0
    · intro e h; exact absurd h h0
    · intro e h; rw [(stop_rest e f).svc] at h; exact absurd h h0
    · intro e h; unfold resetReq at h; split at h
      · rw [(reset_rest e _).svc] at h; cases h
      · rw [(reset_rest e _).svc] at h; exact absurd h h0
      · exact absurd h h0
    all_goals (intro e n _ h; exact absurd h h0)
  obtain ⟨e, rfl, hs, rfl⟩ := key
  have fl := flag_inv (.step _ h en st)
  rcases tryStop_timeout e f with ⟨ht, _⟩ | ⟨_, _, _, ht, hrs, ho⟩
  · rw [ht, (stop_rest e f).svc] at h1; exact absurd h1 h0
  · obtain ⟨s1, s2⟩ := anyStarted_false.1 ht
    refine ⟨?_, e, rfl, ?_⟩
    · rintro k n ⟨o, hm, _, hst⟩
      have : o.started = false := by
        cases k
        · exact s1 o hm
        · exact s2 o hm
        · exact fl.2 o hm
      rw [this] at hst; cases hst
    · rintro hd k n ⟨o, hm, _⟩
      rw [ho k, reset_all hd hrs k] at hm
      cases hm

/-! ## Which configuration the daemon has -/

/-- Objects of the peer come from its configuration messages only. -/
theorem objects_come_from_peer (f g : F) (v : Ev) (st : step f v = some g) (k : Kind) (n : Name)
    (h0 : ¬ Has f k n) (h1 : Has g k n) : ∃ e, v = .cfgReq e k n := by
  obtain ⟨o, ho, hn⟩ := h1
  rcases step_explained st k o ho with ⟨o', hm, hn', _⟩ | ⟨e, hv, _⟩
  · exact absurd ⟨o', hm, hn'.trans hn⟩ h0
  · exact ⟨e, hn ▸ hv⟩

/-- When it asks the peer for its configuration it has none of an earlier one, so that
afterwards it has what was sent since.
Missing: what could not be deleted. -/
theorem copy_is_fresh_partial (f g : F) (v : Ev) (st : step f v = some g)
    (h0 : .peercfg ∉ f.pend) (h1 : .peercfg ∈ g.pend) (hd : ∀ e, v = .task e ∨ v = .pairResp e 0 →
      ∀ n, e.delOk n = true) (k : Kind) (n : Name) : ¬ Has g k n := by
  have key : ∃ e f0, (v = .task e ∨ v = .pairResp e 0) ∧ (peercfgReset e f0).2 = true ∧
      ∀ k, objs g k = objs (resetAndRequest e f0).1 k := by
    refine step_elim st (fun v g => .peercfg ∈ g.pend → ∃ e f0, (v = .task e ∨ v = .pairResp e 0) ∧
      (peercfgReset e f0).2 = true ∧ ∀ k, objs g k = objs (resetAndRequest e f0).1 k)
      ?_ ?_ ?_ ?_ ?_ ?_ ?_ ?_ ?_ ?_ ?_ ?_ ?_ ?_ ?_ ?_ ?_ ?_ ?_ ?_ ?_ ?_ ?_ ?_ ?_ ?_ h1
    · intro e _ _ h; rw [(tryStart_rest e _).pend, (connect_fields e f).2.2.2.2.1] at h
      exact absurd h h0
    · intro e _ _ h; rw [(tryStart_rest e _).pend] at h
      rcases pair_pend e f with hp | hp <;> rw [hp] at h <;> exact absurd (by simpa using h) h0
    · intro e _ _ h
      rw [(tryStart_rest e _).pend] at h
      rcases resetAndRequest_pend e f with hp | ⟨_, hp, _⟩
      · refine ⟨e, f, .inl rfl, hp.2.2.2.2.2.1, fun k => ?_⟩
        have : tryStart e (resetAndRequest e f).1 = (resetAndRequest e f).1 := by
          rcases tryStart_cases e (resetAndRequest e f).1 with h | ⟨_, _, _, t, ht, _⟩
          · exact h
          · rw [hp.1] at ht; cases ht
        rw [this]
      · rw [hp, (stop_rest e f).pend] at h; exact absurd h h0
    · intro e _ _ h; rw [(tryStart_rest e _).pend] at h; exact absurd h h0
    · intro e _ _ h; rw [(tryStart_rest e _).pend] at h
      rcases ping_pend e f with hp | hp <;> rw [hp] at h <;> exact absurd (by simpa using h) h0
    · intro e _ h
      exfalso
      have r := reset_rest e f
      unfold tryStop at h
      split at h
      · rename_i f1 he; rw [he] at r; rw [r.pend] at h; exact h0 h
      · rename_i f1 he; rw [he] at r
        have s1 := sendReset_pend e f1
        have s2 := sendReset_pend e { f1 with conn := .unpairing }
        have : .peercfg ∈ f1.pend := by
          split at h
          · exact h
          · rcases s1 with hp | hp <;> rw [hp] at h <;> simpa using h
          · exact h
          all_goals first
            | exact h
            | (rcases s2 with hp | hp <;> rw [hp] at h <;> simpa using h)
        rw [r.pend] at this; exact h0 this
    · intro e _ h
      rcases pair_pend e { f with link := .up } with hp | hp <;> rw [hp] at h <;>
        exact absurd (by simpa using h) h0
    · intro h; cases h
    · intro e _ h; exact absurd (erase_sub h) h0
    · intro e err _ _ h; exact absurd (erase_sub h) h0
    · intro e _ _ h
      rcases resetAndRequest_pend e { answered .pair f with conn := .resetting } with hp | ⟨_, hp, _⟩
      · exact ⟨e, _, .inr rfl, hp.2.2.2.2.2.1, fun k => rfl⟩
      · rw [hp, (stop_rest e _).pend] at h; exact absurd (erase_sub (r := .pair) h) h0
    · intro e _ _ h
      rcases resetAndRequest_pend e { answered .pair f with conn := .resetting } with hp | ⟨_, hp, _⟩
      · exact ⟨e, _, .inr rfl, hp.2.2.2.2.2.1, fun k => by cases k <;> rfl⟩
      · exfalso
        have h : .peercfg ∈ (resetAndRequest e { answered .pair f with conn := .resetting }).1.pend := h
        rw [hp, (stop_rest e _).pend] at h; exact absurd (erase_sub (r := .pair) h) h0
    · intro err _ h; exact absurd (erase_sub h) h0
    · intro h; exact absurd (erase_sub (r := .peercfg) h) h0
    · intro e d h; rw [(onPingResp_fields e d _).2.2.1] at h; exact absurd (erase_sub h) h0
    · intro err h; unfold onResetResp at h; simp only at h
      split at h <;> exact absurd (erase_sub (r := .reset) h) h0
    · intro e h; unfold startCmd at h; split at h
      · exact absurd h h0
      · split at h <;> exact absurd h h0
    · intro h; unfold stopCmd at h; split at h <;> exact absurd h h0
    · intro c h; unfold configCmd at h; split at h
      · exact absurd h h0
      · split at h <;> exact absurd h h0
    · intro b h; exact absurd h h0
    · intro e h; exact absurd h h0
    · intro e h; rw [(stop_rest e f).pend] at h; exact absurd h h0
    · intro e h; unfold resetReq at h; split at h
      · rw [(reset_rest e _).pend] at h; exact absurd h h0
      · rw [(reset_rest e _).pend] at h; exact absurd h h0
      · exact absurd h h0
    all_goals (intro e n _ h; exact absurd h h0)
  obtain ⟨e, f0, hv, hr, ho⟩ := key
  rintro ⟨o, hm, _⟩
  rw [ho k, resetAndRequest_objs, reset_all (hd e hv) hr k] at hm
  cases hm

/-! ## Assertions -/

/-- As long as the service is stopped neither here nor by the peer, and configuration
messages name objects of the peer, no assertion fails.
Missing: stopping, see `stop_aborts_defect`. -/
theorem no_abort_partial (tr : List Ev) (f : F) (v : Ev) (h : Reach tr f)
    (hc : ∀ w ∈ tr, Calm w) (hv : Calm v) (en : enabled f v) : ∃ g, step f v = some g :=
  calm_progress en hv (calm_reach h hc)

/-! ## Examples and defects -/

section Examples

/-- All goes well, at a given time. -/
def good (t : Nat) : Env :=
  { now := t, sendOk := true, connectOk := true, startOk := fun _ => true, stopOk := fun _ => true,
    delOk := fun _ => true, newOk := fun _ => true, foreign := fun _ => false, sd4 := 0 }

/-- Objects cannot be deleted. -/
def busy (t : Nat) : Env := { good t with delOk := fun _ => false }

/-- Producer `p` of the peer. -/
def nameP : Name := ['#', 'p']

/-- Arguments of `failover_config`. -/
def conf : Conf := { ok := true, peer := ['b'], auto := true, interval := 10, num := 3, den := 1 }

/-- The service is configured, started, connected, paired and has the peer's
configuration. -/
def pairUp : List Ev :=
  [.configCmd conf, .startCmd (good 0), .task (good 1), .connected (good 2), .pairResp (good 3) 0,
   .cfgReq (good 4) .prdcr nameP, .peercfgResp 0]

/-- And the peer has answered a ping. -/
def answeredOnce : List Ev := pairUp ++ [.task (good 5), .pingResp (good 6) (some false)]

/-- A takeover: silence from 6 to 36 = 6 + 3 * 10. -/
example : ∃ f, run F.init (answeredOnce ++ [.disconnected, .task (good 36)]) = some f ∧
    f.prdcrs = [⟨nameP, true⟩] ∧ f.activated = true := ⟨_, rfl, rfl, rfl⟩

/-- Not yet at 35. -/
example : ∃ f, run F.init (answeredOnce ++ [.disconnected, .task (good 35)]) = some f ∧
    f.prdcrs = [⟨nameP, false⟩] := ⟨_, rfl, rfl⟩

/-- The hypotheses of `takeover_has_cause`. -/
example : ∃ tr f g, Reach tr f ∧ step f (.task (good 36)) = some g ∧ ¬ Runs f .prdcr nameP ∧
    Runs g .prdcr nameP :=
  ⟨_, _, _, run_reach (tr := answeredOnce ++ [.disconnected]) rfl, rfl,
    (fun ⟨o, ho, _, hs⟩ => by
      have : o = ⟨nameP, false⟩ := List.mem_singleton.1 ho
      subst this; cases hs),
    ⟨⟨nameP, true⟩, List.mem_singleton.2 rfl, rfl, rfl⟩⟩

/-- The hypotheses of `takeover_partial`. -/
example : ∃ f g f1 f2, Reach (pairUp ++ [.task (good 5)]) f ∧
    enabled f (.pingResp (good 6) (some false)) ∧ step f (.pingResp (good 6) (some false)) = some g ∧
    f.svc = .start ∧ f.auto = true ∧ f.received = true ∧ Path g [.disconnected] f1 ∧
    step f1 (.task (good 36)) = some f2 ∧ Has f .prdcr nameP ∧ (∀ base, (base = f.interval ∨
        base ∈ lastEight (allTrips ((pairUp ++ [.task (good 5)]) ++
          [.pingResp (good 6) (some false)]))) →
      (good 6).now + base * f.num / f.den ≤ (good 36).now ∧
      (good 6).now + (base + (good 6).sd4) ≤ (good 36).now) := by
  refine ⟨_, _, _, _, run_reach rfl, by decide, rfl, rfl, rfl, rfl, run_path rfl, rfl,
    ⟨⟨nameP, false⟩, List.mem_singleton.2 rfl, rfl⟩, ?_⟩
  intro base hb
  have h2 : base = 10 ∨ base ∈ [1] := hb
  rcases h2 with rfl | h
  · decide
  · rw [List.mem_singleton] at h; subst h; decide

/-- The peer answers again: `answer_gives_back` applies to a run in which the peer's
producer was running. -/
example : ∃ f, run F.init (answeredOnce ++ [.task (good 8), .task (good 36),
      .pingResp (good 37) (some false)]) = some f ∧ f.prdcrs = [⟨nameP, false⟩] ∧ f.ours = 1 :=
  ⟨_, rfl, rfl, rfl⟩

/-- Hypotheses of `own_is_started`. -/
example : ∃ f g, Reach (pairUp ++ [.task (good 5)]) f ∧
    enabled f (.pingResp (good 6) (some false)) ∧
    step f (.pingResp (good 6) (some false)) = some g ∧ f.ours = 0 ∧ g.ours = 1 :=
  ⟨_, _, run_reach rfl, by decide, rfl, rfl, rfl⟩

/-- Hypotheses of `stop_cleans_partial`. -/
example : ∃ f g, Reach (pairUp ++ [.stopCmd, .task (good 8), .resetResp 0, .disconnected]) f ∧
    enabled f (.task (good 9)) ∧ step f (.task (good 9)) = some g ∧ f.svc ≠ .stop ∧ g.svc = .stop :=
  ⟨_, _, run_reach rfl, by decide, rfl, by decide, rfl⟩

/-- Hypotheses of `no_abort_partial`. -/
example : ∃ f, Reach answeredOnce f ∧ ∀ w ∈ answeredOnce, Calm w := by
  refine ⟨_, run_reach rfl, ?_⟩
  simp [answeredOnce, pairUp, Calm, isFailover, nameP]

/-- Hypotheses of `copy_is_fresh_partial`: pairing again, with an object of before. -/
example : ∃ f g, Reach (answeredOnce ++ [.disconnected, .task (good 8), .connected (good 9)]) f ∧
    step f (.pairResp (good 10) 0) = some g ∧ .peercfg ∉ f.pend ∧ .peercfg ∈ g.pend ∧
    Has f .prdcr nameP :=
  ⟨_, _, run_reach rfl, rfl, by decide, by decide, ⟨⟨nameP, false⟩, List.mem_singleton.2 rfl, rfl⟩⟩

end Examples

/-- Without a deadline silence has no effect. -/
theorem no_deadline_no_takeover {tr post : List Ev} {f g : F} (h : Reach tr f)
    (p : Path f post g) (hq : ∀ v ∈ post, Quiet v) (hs : f.svc = .start) (ht : f.timeout = none)
    (h0 : ∀ k n, ¬ Runs f k n) (k : Kind) (n : Name) : ¬ Runs g k n := by
  induction p generalizing tr with
  | nil => exact h0 k n
  | cons v en st p ih =>
    have kk := quiet_step st (hq v (by simp)) hs (not_resetting h)
    refine ih (.step v h en st) (fun w hw => hq w (by simp [hw])) (kk.svc.trans hs)
      (kk.timeout.trans ht) ?_
    rintro k n ⟨o, ho, hn, hst⟩
    rcases step_explained st k o ho with ⟨o', hm, hn', hi⟩ | ⟨_, _, hf⟩
    · rcases hi hst with h' | ⟨_, ⟨e, h'⟩ | ⟨e, t, _, _, _, _, h', _⟩⟩
      · exact h0 k n ⟨o', hm, hn'.trans hn, h'⟩
      · have := hq v (by simp); rw [h'] at this; exact this
      · rw [ht] at h'; cases h'
    · rw [hf] at hst; cases hst

theorem none_run_of {f : F} (h1 : Still f.prdcrs) (h2 : Still f.updtrs) (h3 : Still f.strgps)
    (k : Kind) (n : Name) : ¬ Runs f k n := by
  rintro ⟨o, ho, _, hs⟩
  have : o.started = false := by
    cases k
    · exact h1 o ho
    · exact h2 o ho
    · exact h3 o ho
  rw [this] at hs; cases hs

/-- A peer that transferred its configuration and then dies before it has answered a
ping is never taken over, however long it stays away. -/
theorem never_answered_defect : ∃ tr f, Reach tr f ∧ f.svc = .start ∧ f.auto = true ∧
    f.received = true ∧ Has f .prdcr nameP ∧
    ∀ post g, (∀ v ∈ post, Quiet v) → Path f post g → ∀ k n, ¬ Runs g k n := by
  refine ⟨pairUp, _, run_reach rfl, rfl, rfl, rfl,
    ⟨⟨nameP, false⟩, List.mem_singleton.2 rfl, rfl⟩, ?_⟩
  intro post g hq p k n
  refine no_deadline_no_takeover (run_reach (tr := pairUp) rfl) p hq rfl rfl ?_ k n
  exact none_run_of (fun o ho => by
      have : o = ⟨nameP, false⟩ := List.mem_singleton.1 ho
      rw [this]) (fun o ho => nomatch ho)
    (fun o ho => nomatch ho)

/-- The manual says that after `failover_peercfg_stop` the configuration of the peer is
started again when the echo has timed out.  It is not, however long the silence. -/
theorem manual_stop_defect : ∃ tr f, Reach tr f ∧ f.svc = .start ∧ f.auto = true ∧
    f.received = true ∧ Has f .prdcr nameP ∧ .pingResp (good 6) (some false) ∈ tr ∧
    ∀ post g, (∀ v ∈ post, Quiet v) → Path f post g → ∀ k n, ¬ Runs g k n := by
  refine ⟨answeredOnce ++ [.disconnected, .task (good 36), .peercfgStopCmd (good 40)], _,
    run_reach rfl, rfl, rfl, rfl, ⟨⟨nameP, false⟩, List.mem_singleton.2 rfl, rfl⟩,
    by simp [answeredOnce], ?_⟩
  intro post g hq p k n
  refine no_deadline_no_takeover (run_reach (tr := answeredOnce ++ [.disconnected,
    .task (good 36), .peercfgStopCmd (good 40)]) rfl) p hq rfl rfl ?_ k n
  exact none_run_of (fun o ho => by
      have : o = ⟨nameP, false⟩ := List.mem_singleton.1 ho
      rw [this]) (fun o ho => nomatch ho)
    (fun o ho => nomatch ho)

/-- Stopping the service while a pairing request is under way: the answer meets an
assertion and ends the daemon.  So does a connection that succeeds just then. -/
theorem stop_aborts_defect :
    (∃ tr f e, Reach tr f ∧ enabled f (.pairResp e 0) ∧ step f (.pairResp e 0) = none) ∧
    (∃ tr f e, Reach tr f ∧ enabled f (.connected e) ∧ step f (.connected e) = none) :=
  ⟨⟨[.configCmd conf, .startCmd (good 0), .task (good 1), .connected (good 2), .stopCmd,
      .task (good 3)], _, good 4, run_reach rfl, by decide, rfl⟩,
   ⟨[.configCmd conf, .startCmd (good 0), .task (good 1), .stopCmd, .task (good 3)], _, good 4,
      run_reach rfl, by decide, rfl⟩⟩

/-- A `failover_config` that is refused because the service runs makes the daemon refuse
its peer from then on. -/
theorem refused_config_defect : ∃ tr f g, Reach tr f ∧ step f (.configCmd conf) = some g ∧
    f.svc = .start ∧ pairAnswer ['b'] f = 0 ∧ pairAnswer ['b'] g = EAGAIN :=
  ⟨pairUp, _, _, run_reach rfl, rfl, rfl, rfl, rfl⟩

/-- The manual says that a daemon cannot be paired with while its failover service is
stopped.  It can. -/
theorem stopped_pairs_defect : ∃ tr f, Reach tr f ∧ f.svc = .stop ∧ .stopCmd ∈ tr ∧
    pairAnswer ['b'] f = 0 :=
  ⟨pairUp ++ [.stopCmd, .task (good 8), .resetResp 0, .disconnected, .task (good 9)], _,
    run_reach rfl, rfl, by simp, rfl⟩

/-- A producer of the peer that could not be deleted stays after the peer's new
configuration, in which it is not, was received, and is started with it. -/
theorem old_object_kept_defect : ∃ pre post f, Reach (pre ++ .pairResp (busy 10) 0 :: post) f ∧
    (∀ v ∈ post, ∀ e k n, v ≠ .cfgReq e k n) ∧ f.received = true ∧ Runs f .prdcr nameP :=
  ⟨answeredOnce ++ [.disconnected, .task (good 8), .connected (good 9)],
   [.peercfgResp 0, .task (good 11), .pingResp (good 12) (some false), .disconnected, .task (good 99)],
   _, run_reach rfl, by simp, rfl, ⟨⟨nameP, true⟩, List.mem_singleton.2 rfl, rfl, rfl⟩⟩

/-- An answer to a ping says `d`. -/
def fits (d : Option Bool) : Ev → Bool
  | .pingResp _ d' => d' = d
  | _ => true

/-- Run two daemons; for the next theorem.  `true` is the left one. -/
def runBoth (na nb : Name) (a b : F) : List (Bool × Ev) → Option (F × F)
  | [] => some (a, b)
  | (true, v) :: tr =>
    if enabled a v ∧ fits (pingAnswer na b) v = true then
      match step a v with
      | some a' => runBoth na nb a' b tr
      | none => none
    else none
  | (false, v) :: tr =>
    if enabled b v ∧ fits (pingAnswer nb a) v = true then
      match step b v with
      | some b' => runBoth na nb a b' tr
      | none => none
    else none

theorem runBoth_both {na nb : Name} {a b a' b' : F} {tr : List (Bool × Ev)}
    (h : Both na nb a b) (hr : runBoth na nb a b tr = some (a', b')) : Both na nb a' b' := by
  induction tr generalizing a b with
  | nil => simp only [runBoth, Option.some.injEq, Prod.mk.injEq] at hr; rw [← hr.1, ← hr.2]; exact h
  | cons x tr ih =>
    obtain ⟨side, v⟩ := x
    cases side
    · simp only [runBoth] at hr
      split at hr
      · rename_i hc
        split at hr
        · rename_i b1 st
          refine ih (.right v h hc.1 st ?_) hr
          rintro e d rfl; exact of_decide_eq_true hc.2
        · cases hr
      · cases hr
    · simp only [runBoth] at hr
      split at hr
      · rename_i hc
        split at hr
        · rename_i b1 st
          refine ih (.left v h hc.1 st ?_) hr
          rintro e d rfl; exact of_decide_eq_true hc.2
        · cases hr
      · cases hr

theorem runBoth_ex {na nb : Name} (tr : List (Bool × Ev)) (q : F × F → Bool)
    (h : (runBoth na nb F.init F.init tr).any q = true) :
    ∃ a b, Both na nb a b ∧ q (a, b) = true := by
  cases hr : runBoth na nb F.init F.init tr with
  | none => rw [hr] at h; cases h
  | some p => rw [hr] at h; exact ⟨p.1, p.2, runBoth_both .init hr, h⟩

/-- Both daemons can collect from the same producers: `b` loses its connection to `a`
and takes over while `a` is alive, connected to `b`, and has been told so; nothing in
the service ever stops the own configuration (`own_never_stopped`). -/
theorem both_collect_defect : ∃ a b, Both ['a'] ['b'] a b ∧ a.svc = .start ∧ a.link = .up ∧
    a.our = true ∧ pingAnswer ['a'] b = some true ∧ Runs b .prdcr nameP := by
  obtain ⟨a, b, h, hq⟩ := runBoth_ex (na := ['a']) (nb := ['b'])
    [(true, .configCmd { conf with peer := ['b'] }), (true, .startCmd (good 0)),
     (true, .task (good 1)), (true, .connected (good 2)), (true, .pairResp (good 3) 0),
     (true, .peercfgResp 0), (true, .task (good 4)), (true, .pingResp (good 5) (some false)),
     (false, .configCmd { conf with peer := ['a'] }), (false, .startCmd (good 0)),
     (false, .task (good 1)), (false, .connected (good 2)), (false, .pairResp (good 3) 0),
     (false, .cfgReq (good 3) .prdcr nameP), (false, .peercfgResp 0),
     (false, .task (good 4)), (false, .pingResp (good 5) (some false)), (false, .disconnected),
     (false, .task (good 99)),
     (true, .task (good 100)), (true, .pingResp (good 101) (some true))]
    (fun p => p.1.svc = .start ∧ p.1.link = .up ∧ p.1.our = true ∧
      pingAnswer ['a'] p.2 = some true ∧ p.2.prdcrs = [⟨nameP, true⟩]) (by decide)
  obtain ⟨h1, h2, h3, h4, h5⟩ := of_decide_eq_true hq
  exact ⟨a, b, h, h1, h2, h3, h4, ⟨nameP, true⟩, by
    show _ ∈ b.prdcrs
    have : b.prdcrs = [⟨nameP, true⟩] := h5
    rw [this]; exact List.mem_singleton.2 rfl, rfl, rfl⟩

end Verif.Failover
