import Verif.Pipeline.Index

/-!
# C57: what is collected is stored
-/

namespace Verif.Pipeline

/-! ## Histories for the examples -/

/-- one policy that applies to all sets and names no metrics -/
def g0 : Cfg := { pols := [7], applies := fun _ _ => true, decomp := fun _ => false, metrics := fun _ => [] }

def c0 : Content := { digest := 5, names := [30, 31] }

/-- a policy is started, a set is listed, looked up and attached -/
def setUp : List Ev :=
  [.start 7, .add 0, .tick 0 false true, .looked 0 (some c0), .attachOne 0 true, .attachEnd 0]

/-- an update brings a sample, and it is stored -/
def sampled (n : Nat) : List Ev :=
  [.tick 0 false true, .updated 0 ⟨false, false, n, true⟩, .storeOne 0, .storeEnd 0]

def theState : Out State → State
  | .ok s => s
  | _ => {}

theorem reach_theState {g : Cfg} {es : List Ev} (h : (match run g (init g) es with | .ok _ => true | _ => false) = true) :
    Reach g es (theState (run g (init g) es)) := by
  unfold Reach
  cases hr : run g (init g) es with
  | ok s => rfl
  | no => rw [hr] at h; cases h
  | crash => rw [hr] at h; cases h

def after (es : List Ev) : State := theState (run g0 (init g0) es)

/-! ## What is stored -/

/-- Every policy's plugin is given samples of a set in the order in which they arrived, and each at most once:
no sample of an update that failed, no inconsistent sample, and none with the generation number of the previous
sample. -/
theorem stored_in_order (g : Cfg) (p i : Nat) (es : List Ev) (s : State) (h : Reach g es s)
    (hg : ∀ e ∈ es, isGroup e = false) : (storedOf p i s.log).Sublist (samples i [] es) :=
  (List.sublist_append_left _ _).trans (stored_sublist g p i es s h hg).2

example : Reach g0 (setUp ++ sampled 3 ++ [.tick 0 false true, .updated 0 ⟨false, false, 3, true⟩] ++ sampled 4)
    (after (setUp ++ sampled 3 ++ [.tick 0 false true, .updated 0 ⟨false, false, 3, true⟩] ++ sampled 4)) ∧
    storedOf 7 0 (after (setUp ++ sampled 3 ++ [.tick 0 false true, .updated 0 ⟨false, false, 3, true⟩] ++
      sampled 4)).log = [3, 4] :=
  ⟨reach_theState (by decide), by decide⟩

/-- the generation numbers the updates of a set brought -/
def delivered (i : Nat) (es : List Ev) : List Nat :=
  es.filterMap (fun e => match e with
    | .updated j u => if j = i then some u.gn else none
    | _ => none)

theorem samples_increasing (i : Nat) (es : List Ev) (h : (delivered i es).Pairwise (· ≤ ·)) :
    (samples i [] es).Pairwise (· < ·) ∧ ∀ n ∈ samples i [] es, n ∈ delivered i es := by
  induction es using snoc_induction with
  | nil => exact ⟨List.Pairwise.nil, fun n h => h⟩
  | snoc es e ih =>
    have hsplit : delivered i (es ++ [e]) = delivered i es ++ delivered i [e] := by simp [delivered]
    rw [hsplit] at h ⊢
    rw [List.pairwise_append] at h
    obtain ⟨h1, h2⟩ := ih h.1
    rw [samples_snoc]
    have other : sample1 i (samples i [] es) e = samples i [] es →
        (sample1 i (samples i [] es) e).Pairwise (· < ·) ∧
          ∀ n ∈ sample1 i (samples i [] es) e, n ∈ delivered i es ++ delivered i [e] := by
      intro heq
      rw [heq]
      exact ⟨h1, fun n hn => List.mem_append_left _ (h2 n hn)⟩
    cases e with
    | updated j u =>
      simp only [sample1] at other ⊢
      split
      · next hc =>
        obtain ⟨rfl, _, _, hne⟩ := hc
        have hd : delivered j [.updated j u] = [u.gn] := by simp [delivered]
        rw [hd] at h ⊢
        refine ⟨?_, ?_⟩
        · rw [List.pairwise_append]
          refine ⟨h1, List.pairwise_singleton _ _, ?_⟩
          intro a ha b hb
          simp only [List.mem_singleton] at hb
          subst hb
          have hle := h.2.2 a (h2 a ha) u.gn (by simp)
          refine Nat.lt_of_le_of_ne hle ?_
          intro heq
          -- the last sample is at least as large as any other, so it is equal to the new one
          obtain ⟨l, m, hlm⟩ : ∃ l m, samples j [] es = l ++ [m] := by
            rcases List.eq_nil_or_concat (samples j [] es) with hnil | ⟨l, m, hlm⟩
            · rw [hnil] at ha; cases ha
            · exact ⟨l, m, by rw [hlm, List.concat_eq_append]⟩
          have hm : m ≤ u.gn := h.2.2 m (h2 m (by rw [hlm]; simp)) u.gn (by simp)
          have ham : a ≤ m := by
            rw [hlm] at h1 ha
            rw [List.pairwise_append] at h1
            rcases List.mem_append.mp ha with ha | ha
            · exact Nat.le_of_lt (h1.2.2 a ha m (by simp))
            · simp only [List.mem_singleton] at ha; omega
          rw [hlm] at hne
          simp only [List.getLastD_concat] at hne
          omega
        · intro n hn
          rcases List.mem_append.mp hn with hn | hn
          · exact List.mem_append_left _ (h2 n hn)
          · exact List.mem_append_right _ hn
      · next hc =>
        rw [if_neg hc] at other
        exact other rfl
    | _ => exact other rfl

/-- If the generation numbers that arrive never go back, no plugin is given the same sample twice or an older
sample after a newer one. -/
theorem stored_once (g : Cfg) (p i : Nat) (es : List Ev) (s : State) (h : Reach g es s)
    (hg : ∀ e ∈ es, isGroup e = false) (hd : (delivered i es).Pairwise (· ≤ ·)) :
    (storedOf p i s.log).Pairwise (· < ·) :=
  List.Pairwise.sublist (stored_in_order g p i es s h hg) (samples_increasing i es hd).1

example : (delivered 0 (setUp ++ sampled 3 ++ sampled 4)).Pairwise (· ≤ ·) := by decide

/-- A policy that applies to a set is with it as soon as nothing is pending: the set was looked up, the start of
the policy and the lookup have been completed.  `Granted`, `Uniform`: the plugin can be opened, and all sets the
policy applies to have one and the same schema, with the policy's metrics. -/
theorem collected_is_attached_partial (g : Cfg) (p i : Nat) (C : Content) (es : List Ev) (s : State)
    (h : Reach g es s) (hg : ∀ e ∈ es, isGroup e = false) (hgr : Granted es) (hu : Uniform g p C es) (hp : p ∈ g.pols)
    (ha : g.applies p i = true) (hr : (s.pols p).running = true) (hc : Collected s i) (hi : (s.sets i).job = .idle)
    (ht : i ∉ s.todo p) : p ∈ (s.sets i).att ∧ can g p (s.pols p) = true := by
  have hct : (s.sets i).content ≠ none := by
    have hG := all_good g es s h hg i
    rcases hc.2 with h1 | h1
    · exact (hG.ready hc.1 h1).1
    · exact hG.busy hc.1 h1
  have hatt : p ∈ (s.sets i).att := by
    rcases (all_attached g p C hp es s h hg hgr hu).2 i hc.1 hct ha hr with h1 | ⟨t, h1, _⟩ | h1
    · exact absurd h1 ht
    · rw [hi] at h1; cases h1
    · exact h1
  exact ⟨hatt, ((kept g es s h hg) p i hc.1 hatt).2.1 hr⟩

/-- From then on every sample of the set is stored, exactly once and in order, until the policy is stopped. -/
theorem collected_is_stored_partial (g : Cfg) (p i : Nat) (C : Content) (es1 es2 : List Ev) (s1 s2 : State)
    (h1 : Reach g es1 s1) (h2 : Reach g (es1 ++ es2) s2) (hg : ∀ e ∈ es1 ++ es2, isGroup e = false)
    (hgr : Granted es1) (hu : Uniform g p C es1) (hp : p ∈ g.pols) (ha : g.applies p i = true)
    (hr : (s1.pols p).running = true) (hc : Collected s1 i) (hi : (s1.sets i).job = .idle) (ht : i ∉ s1.todo p)
    (hstop : Ev.stop p ∉ es2) (hi2 : (s2.sets i).job = .idle) :
    ∃ new, samples i [] (es1 ++ es2) = samples i [] es1 ++ new ∧
      storedOf p i s2.log = storedOf p i s1.log ++ new := by
  have hg1 := fun e (h : e ∈ es1) => hg e (List.mem_append_left _ h)
  obtain ⟨hatt, hcan⟩ := collected_is_attached_partial g p i C es1 s1 h1 hg1 hgr hu hp ha hr hc hi ht
  have hused : i ∈ s1.used := by
    apply Classical.byContradiction
    intro hj
    have := hc.1
    rw [unused g es1 s1 h1 hg1 i hj] at this
    cases this
  obtain ⟨_, _, _, _, _, new, a, b⟩ := stored_all g p i es1 s1 h1 hg1 hused (fun _ => hatt) hr hcan es2 s2 h2
    (fun e he => ⟨hg e (List.mem_append_right _ he), fun h => hstop (h ▸ he)⟩)
  refine ⟨new, a, ?_⟩
  simpa [pending, hi, hi2] using b

example : Collected (after setUp) 0 ∧ ((after setUp).sets 0).job = .idle ∧ 0 ∉ (after setUp).todo 7 ∧
    ((after setUp).pols 7).running = true ∧
    storedOf 7 0 (after (setUp ++ sampled 3 ++ sampled 8)).log = [3, 8] := by
  refine ⟨⟨by decide, by decide⟩, by decide, by decide, by decide, by decide⟩

example : Uniform g0 7 c0 setUp ∧ Granted setUp := by
  refine ⟨⟨(fun m h => by cases h), fun i c h _ => ?_⟩, fun e h => ?_⟩
  · simp [setUp] at h; exact h.2
  · simp only [setUp, List.mem_cons, List.not_mem_nil, or_false] at h
    rcases h with rfl | rfl | rfl | rfl | rfl | rfl <;> simp

/-- A policy that is not running stores nothing until it is started. -/
theorem stopped_stores_nothing (g : Cfg) (p : Nat) (es1 es2 : List Ev) (s1 s2 : State) (h1 : Reach g es1 s1)
    (h2 : Reach g (es1 ++ es2) s2) (hr : (s1.pols p).running = false) (hs : Ev.start p ∉ es2) :
    s2.log.filter (fun r => r.pol = p) = s1.log.filter (fun r => r.pol = p) := by
  obtain ⟨s, hs1, hs2⟩ := reach_append.mp h2
  have : s = s1 := by
    have := hs1.symm.trans h1
    injection this
  subst this
  exact (stopped_run g p es2 s s2 hs2 (fun e he h => hs (h ▸ he)) hr).2

/-- a policy is stopped between an update's request and its end -/
def stoppedInFlight : List Ev :=
  setUp ++ sampled 3 ++ [.tick 0 false true, .stop 7, .updated 0 ⟨false, false, 4, true⟩, .storeOne 0, .storeEnd 0,
    .scan 7 0 true]

example : Reach g0 stoppedInFlight (after stoppedInFlight) ∧ storedOf 7 0 (after stoppedInFlight).log = [3] ∧
    ((after stoppedInFlight).pols 7).running = false :=
  ⟨reach_theState (by decide), by decide, by decide⟩

/-- A policy that is not running has its container closed. -/
theorem stopped_is_closed (g : Cfg) (p : Nat) : ∀ es s, Reach g es s → (s.pols p).running = false →
    (s.pols p).handle = false := by
  intro es s hR
  have : ((s.pols p).running = false → (s.pols p).handle = false) ∧
      (g.decomp p = true → (s.pols p).handle = false) := by
    revert es s
    apply reach_induction
    · exact ⟨fun _ => rfl, fun _ => rfl⟩
    · intro es e s s' _ ih hs
      have hP := step_pols g s s' e hs p
      generalize s'.pols p = y at hP
      have hsync : ∀ c a ok, ((sync g p (s.pols p) c a ok).1.running = false →
          (sync g p (s.pols p) c a ok).1.handle = false) ∧
          (g.decomp p = true → (sync g p (s.pols p) c a ok).1.handle = false) := by
        intro c a ok
        refine ⟨fun h => ?_, fun hd => ?_⟩
        · rw [sync_running] at h
          rw [sync_stopped g p _ c a ok h]
          exact ih.1 h
        · have h0 := ih.2 hd
          unfold sync
          dsimp only
          rw [if_pos hd]
          repeat' split
          all_goals exact h0
      cases hP with
      | same _ _ h => exact ⟨fun hr => by rw [h.2.2.1]; exact ih.1 (h.1 ▸ hr), fun hd => by rw [h.2.2.1]; exact ih.2 hd⟩
      | start => exact ⟨(fun h => by cases h), ih.2⟩
      | stop => exact ⟨fun _ => rfl, fun _ => rfl⟩
      | att i ok ps c => exact hsync c _ ok
      | scan i ok c => exact hsync c _ ok
      | selfStop i ps u hj hr hh =>
        refine ⟨fun _ => ?_, ih.2⟩
        dsimp only
        cases hd : g.decomp p with
        | true => exact ih.2 hd
        | false => rw [hd] at hh; simpa using hh
  exact this.1

example : ((after (setUp ++ sampled 3)).pols 7).handle = true ∧ ((after stoppedInFlight).pols 7).handle = false :=
  ⟨by decide, by decide⟩

/-- The loop over the policies of a set goes over those it has. -/
theorem storing_att (g : Cfg) : ∀ es s, Reach g es s → (∀ e ∈ es, isGroup e = false) →
    ∀ i t u, (s.sets i).job = .store t u → ∀ p ∈ t, p ∈ (s.sets i).att := by
  apply reach_induction
  · intro _ i t u h; cases h
  · intro es e s s' hR ih hs hg i t u hj p hp
    have hg' := fun e h => hg e (List.mem_append_left _ h)
    have ih := ih hg' i
    have hG := all_good g es s hR hg' i
    have hS := step_sets g s s' e (hg e (by simp)) hs i
    have hG' := all_good g (es ++ [e]) s' (reach_snoc.mpr ⟨s, hR, hs⟩) hg i
    have hv : (s'.sets i).live = true := (good_refs hG' (.inr (.inl (by have := (hG'.storing _ _ hj).1; omega)))).2
    generalize s'.sets i = y at hS hj hv ⊢
    have hd : ∀ z : PSet, (drop z).live = true → (drop z).att = z.att := by
      intro z hz
      rcases drop_att z with h | ⟨_, h⟩
      · exact h
      · rw [h] at hz; cases hz
    cases hS with
    | same => exact ih t u hj p hp
    | add => cases hj
    | req fresh ok =>
      simp only [request] at hj ⊢
      split at hj
      · next h => rw [if_pos h]; exact ih t u hj p hp
      · next h => rw [if_neg h]; exact ih t u hj p hp
    | look => exact ih t u hj p hp
    | skip => exact ih t u hj p hp
    | lookFail _ h => rw [drop_job] at hj; dsimp only at hj; rw [h] at hj; cases hj
    | lookOk => cases hj
    | att => cases hj
    | attEnd => rw [drop_job] at hj; cases hj
    | scan _ _ _ _ h => dsimp only at hj; rw [h] at hj; cases hj
    | updErr _ _ h => rw [drop_job] at hj; dsimp only at hj; rw [h] at hj; cases hj
    | updErrMore _ _ h => rw [h] at hj; cases hj
    | updOld _ _ _ h => rw [drop_job] at hj; dsimp only at hj; rw [h] at hj; cases hj
    | updOldMore _ _ _ h => dsimp only at hj; rw [h] at hj; cases hj
    | updNew => cases hj; exact hp
    | storeOne q ps u' h => cases hj; exact ih _ _ h p (List.mem_cons_of_mem _ hp)
    | storeMore => cases hj
    | storeEnd => rw [drop_job] at hj; cases hj
    | reset ht hv' =>
      rw [hd _ hv]
      dsimp only
      rw [hd _ hv']
      rw [drop_job] at hj
      dsimp only at hj
      rw [drop_job] at hj
      exact ih t u hj p hp

/-- A running policy stays running until it is told to stop, as far as sets that are still in the producer's
tree are concerned.  Missing: an update of a set that is already gone can stop it (`gone_set_stops_defect`). -/
theorem stops_when_told_partial (g : Cfg) (p : Nat) (es : List Ev) (e : Ev) (s s' : State) (h : Reach g es s)
    (hs : step g s e = .ok s') (hg : ∀ e ∈ es, isGroup e = false) (hr : (s.pols p).running = true)
    (hr' : (s'.pols p).running = false) :
    e = .stop p ∨ ∃ i, e = .storeOne i ∧ (s.sets i).inTree = false := by
  have hP := step_pols g s s' e hs p
  generalize s'.pols p = y at hP hr'
  cases hP with
  | same _ _ h => rw [h.1, hr] at hr'; cases hr'
  | start => cases hr'
  | stop => exact .inl rfl
  | att => rw [sync_running, hr] at hr'; cases hr'
  | scan => rw [sync_running, hr] at hr'; cases hr'
  | selfStop i ps u hj _ hh =>
    refine .inr ⟨i, rfl, ?_⟩
    cases ht : (s.sets i).inTree with
    | false => rfl
    | true =>
      have := (kept g es s h hg p i ht (storing_att g es s h hg i _ _ hj p (by simp))).2.1 hr
      rw [can, hh] at this
      cases this

/-- The metric indexes a plugin is given are those of the policy's metrics in the set it is given, also if the
policy was opened with another set.  `DigestsTell`: schemas with one digest have the same metrics. -/
theorem stored_metrics (g : Cfg) (es : List Ev) (s : State) (h : Reach g es s) (hg : ∀ e ∈ es, isGroup e = false)
    (hd : DigestsTell es) (r : Stored) (hr : r ∈ s.log) (ks : List Nat) (hk : r.arr = some ks) :
    ∃ c l, (s.sets r.set).content = some c ∧ MetricsOf g r.pol es l ∧ ks.map (c.names[·]?) = l.map some :=
  (indexed g es s h hg hd).log r hr ks hk

/-- a policy with metrics of its own, and two sets -/
def g1 : Cfg := { g0 with metrics := fun _ => [31] }

def twoSets : List Ev :=
  setUp ++ sampled 3 ++ [.add 1, .tick 1 false true, .looked 1 (some c0), .attachOne 1 true, .attachEnd 1,
    .tick 1 false true, .updated 1 ⟨false, false, 9, true⟩, .storeOne 1, .storeEnd 1]

example : (theState (run g1 (init g1) twoSets)).log = [⟨7, 0, 3, some [1]⟩, ⟨7, 1, 9, some [1]⟩] := by decide

/-! ## Sets and their operations -/

/-- No history ends the process (set groups left out). -/
theorem never_crashes (g : Cfg) (es : List Ev) (hg : ∀ e ∈ es, isGroup e = false) : run g (init g) es ≠ .crash := by
  induction es using snoc_induction with
  | nil => simp [run]
  | snoc es e ih =>
    have ih := ih (fun e h => hg e (List.mem_append_left _ h))
    rw [run_append]
    split
    · next s hs =>
      have := step_no_crash g s e (hg e (by simp)) (all_good g es s hs (fun e h => hg e (List.mem_append_left _ h)))
      simp only [run]
      split
      · simp
      · simp
      · next hc => exact absurd hc this
    · simp
    · next hc => exact absurd hc ih

/-- A set exists exactly as long as it is listed or an operation on it is outstanding: it is not freed under an
operation, and it is freed in the end. -/
theorem exists_iff_used (g : Cfg) (es : List Ev) (s : State) (h : Reach g es s) (hg : ∀ e ∈ es, isGroup e = false)
    (i : Nat) : (s.sets i).live = true ↔
      (s.sets i).inTree = true ∨ (s.sets i).lookups ≠ 0 ∨ (s.sets i).updates ≠ 0 := by
  have hG := all_good g es s h hg i
  constructor
  · intro hl
    apply Classical.byContradiction
    intro hn
    have h1 : (s.sets i).inTree = false := by
      cases hx : (s.sets i).inTree with
      | false => rfl
      | true => exact absurd (.inl hx) hn
    have h2 : (s.sets i).lookups = 0 := Classical.byContradiction (fun h => hn (.inr (.inl h)))
    have h3 : (s.sets i).updates = 0 := Classical.byContradiction (fun h => hn (.inr (.inr h)))
    have h4 := hG.refs
    rw [h1, h2, h3] at h4
    have h5 := hG.live
    rw [h4, hl] at h5
    simp at h5
  · intro h
    rcases h with h | h | h
    · exact (good_refs hG (.inr (.inr h))).2
    · exact (good_refs hG (.inl h)).2
    · exact (good_refs hG (.inr (.inl h))).2

/-- a set is deleted at the producer while its update is outstanding -/
def goneInFlight : List Ev := setUp ++ [.tick 0 false true, .reset 0]

example : ((after goneInFlight).sets 0).live = true ∧
    ((after (goneInFlight ++ [.updated 0 ⟨true, false, 0, false⟩])).sets 0).live = false ∧
    Reach g0 (goneInFlight ++ [.updated 0 ⟨true, false, 0, false⟩])
      (after (goneInFlight ++ [.updated 0 ⟨true, false, 0, false⟩])) :=
  ⟨by decide, by decide, reach_theState (by decide)⟩

/-- A set is looked up at most once at a time and updated at most once at a time, and it is updated only after
its lookup brought it. -/
theorem one_at_a_time (g : Cfg) (es : List Ev) (s : State) (h : Reach g es s) (hg : ∀ e ∈ es, isGroup e = false)
    (i : Nat) : (s.sets i).lookups ≤ 1 ∧ (s.sets i).updates ≤ 1 ∧
      ((s.sets i).updates = 1 → ∃ c, Ev.looked i (some c) ∈ es) := by
  have hG := all_good g es s h hg i
  refine ⟨hG.l1, hG.u1, fun hu => ?_⟩
  cases hc : (s.sets i).content with
  | none => exact absurd hc (hG.updating hu)
  | some c => exact ⟨c, content_from g es s h hg i c hc⟩

example : ((after goneInFlight).sets 0).updates = 1 := by decide

/-- A set that is ready is updated when its turn comes, and after an update without error it is ready again. -/
theorem updated_again (g : Cfg) (s : State) (i : Nat) (ht : (s.sets i).inTree = true)
    (hs : (s.sets i).st = .ready) : ∃ s', step g s (.tick i false true) = .ok s' ∧
      (s'.sets i).updates = (s.sets i).updates + 1 := by
  refine ⟨setSet s i (request (s.sets i) true), by simp [step, ht, hs], by simp [setSet, request]⟩

theorem ready_again (g : Cfg) (s s' : State) (i : Nat) (u : Upd) (he : u.err = false) (hm : u.more = false)
    (ho : u.ok = false ∨ u.gn = (s.sets i).lastGn) (h : step g s (.updated i u) = .ok s') :
    (s'.sets i).st = .ready := by
  have hS := step_sets g s s' _ rfl h i
  generalize s'.sets i = y at hS
  cases hS with
  | same _ h => exact absurd rfl (h u)
  | updErr _ _ _ _ h => rw [he] at h; cases h
  | updErrMore _ _ _ _ h => rw [he] at h; cases h
  | updOld => simp
  | updOldMore _ _ _ _ _ _ _ h => rw [hm] at h; cases h
  | updNew _ _ _ _ _ h1 h2 =>
    rcases ho with h | h
    · rw [h] at h1; cases h1
    · exact absurd h h2

theorem ready_after_storing (g : Cfg) (s s' : State) (i : Nat) (u : Upd) (hm : u.more = false)
    (hj : (s.sets i).job = .store [] u) (h : step g s (.storeEnd i) = .ok s') : (s'.sets i).st = .ready := by
  simp only [step, hj, hm, Bool.false_eq_true, if_false] at h
  rw [(put_ok h).2.2.2.2.2]
  simp

example : ((after (setUp ++ [.tick 0 false true])).sets 0).updates = 1 ∧
    ((after (setUp ++ sampled 3)).sets 0).st = .ready := ⟨by decide, by decide⟩

/-! ## Where the code falls short -/

theorem stuck_step {g : Cfg} {s : State} {j : Nat} {x y : PSet} {e : Ev} (h : SetTr g s j x e y) (hG : Good x)
    (hu : j ∈ s.used) (ht : x.inTree = true) (hs : x.st = .updating) (h0 : x.updates = 0) (he : e ≠ .reset j) :
    y.inTree = true ∧ y.st = .updating ∧ y.updates = 0 ∧ ∀ u, e ≠ .updated j u := by
  have hc := hG.busy ht hs
  cases h with
  | same _ h => exact ⟨ht, hs, h0, h⟩
  | add h => exact absurd hu h
  | req _ _ _ h => rw [hs] at h; cases h
  | look _ _ _ h => rw [hs] at h; cases h
  | skip => exact ⟨ht, hs, h0, fun u h => by cases h⟩
  | lookFail hl hj => exact absurd (hG.looking hj (by have := hG.l1; omega)) hc
  | lookOk _ _ _ _ h => exact absurd h hc
  | att => exact ⟨ht, hs, h0, fun u h => by cases h⟩
  | attEnd => exact ⟨by simpa using ht, by simpa using hs, by unfold drop; split <;> exact h0, fun u h => by cases h⟩
  | scan => exact ⟨ht, hs, h0, fun u h => by cases h⟩
  | updErr _ h => exact absurd h0 h
  | updErrMore _ h => exact absurd h0 h
  | updOld _ _ h => exact absurd h0 h
  | updOldMore _ _ h => exact absurd h0 h
  | updNew _ h => exact absurd h0 h
  | storeOne _ _ _ h => have := (hG.storing _ _ h).1; omega
  | storeMore _ h => have := (hG.storing _ _ h).1; omega
  | storeEnd _ h => have := (hG.storing _ _ h).1; omega
  | reset => exact absurd rfl he

theorem stuck_run (g : Cfg) (i : Nat) (es1 : List Ev) (s1 : State) (h1 : Reach g es1 s1)
    (hg1 : ∀ e ∈ es1, isGroup e = false) (ht : (s1.sets i).inTree = true) (hs : (s1.sets i).st = .updating)
    (h0 : (s1.sets i).updates = 0) : ∀ es2 s2, Reach g (es1 ++ es2) s2 →
      (∀ e ∈ es2, isGroup e = false ∧ e ≠ .reset i) →
      (s2.sets i).inTree = true ∧ (s2.sets i).st = .updating ∧ (s2.sets i).updates = 0 ∧ i ∈ s2.used ∧
        ∀ u, Ev.updated i u ∉ es2 := by
  intro es2
  induction es2 using snoc_induction with
  | nil =>
    intro s2 h2 _
    rw [List.append_nil] at h2
    have : s2 = s1 := by
      have := h2.symm.trans h1
      injection this
    subst this
    refine ⟨ht, hs, h0, ?_, fun u h => by cases h⟩
    apply Classical.byContradiction
    intro hj
    rw [unused g es1 s2 h1 hg1 i hj] at ht
    cases ht
  | snoc es2 e ih =>
    intro s3 h3 hh
    rw [← List.append_assoc] at h3
    obtain ⟨s2, h2, hst⟩ := reach_snoc.mp h3
    obtain ⟨a, b, c, d, f⟩ := ih s2 h2 (fun e h => hh e (List.mem_append_left _ h))
    have hg2 : ∀ e ∈ es1 ++ es2, isGroup e = false := by
      intro e h
      rcases List.mem_append.mp h with h | h
      · exact hg1 e h
      · exact (hh e (List.mem_append_left _ h)).1
    have he := hh e (by simp)
    obtain ⟨p, q, r, t⟩ := stuck_step (step_sets g s2 s3 e he.1 hst i) (all_good g _ s2 h2 hg2 i) d a b c he.2
    refine ⟨p, q, r, used_mono hst d, fun u hu => ?_⟩
    rcases List.mem_append.mp hu with hu | hu
    · exact f u hu
    · simp only [List.mem_singleton] at hu
      exact t u hu.symm

/-- The full claim, that a set that is listed goes on being updated, does not hold: after an update that
completed with an error the set is never updated again, as long as it is not listed anew (updtr_update_cb leaves
the state UPDATING, ldmsd_updtr.c:226-236). -/
theorem error_ends_updates_defect (g : Cfg) (i : Nat) (u : Upd) (es1 es2 : List Ev) (s s2 : State)
    (h1 : Reach g es1 s) (hc : (s.sets i).inTree = true) (he : u.err = true) (hm : u.more = false)
    (h2 : Reach g (es1 ++ Ev.updated i u :: es2) s2) (hg : ∀ e ∈ es1 ++ Ev.updated i u :: es2, isGroup e = false)
    (hr : Ev.reset i ∉ es2) : ∀ v, Ev.updated i v ∉ es2 := by
  rw [show es1 ++ Ev.updated i u :: es2 = es1 ++ [Ev.updated i u] ++ es2 by simp] at h2 hg
  obtain ⟨s1, hs1, _⟩ := reach_append.mp h2
  obtain ⟨s', hs', hst⟩ := reach_snoc.mp hs1
  have : s' = s := by
    have := hs'.symm.trans h1
    injection this
  subst this
  have hg1 : ∀ e ∈ es1, isGroup e = false := fun e h => hg e (by simp [h])
  have hG := all_good g es1 s' h1 hg1 i
  have hS := step_sets g s' s1 _ rfl hst i
  have key : (s1.sets i).inTree = true ∧ (s1.sets i).st = .updating ∧ (s1.sets i).updates = 0 := by
    generalize s1.sets i = y at hS
    cases hS with
    | same _ h => exact absurd rfl (h u)
    | updErr _ hu hj hv =>
      have hu1 : (s'.sets i).updates = 1 := by have := hG.u1; omega
      refine ⟨by simpa using hc, ?_, ?_⟩
      · rw [drop_st]
        dsimp only
        cases hx : (s'.sets i).st with
        | start => exact absurd (hG.start hc hx).1 (hG.updating hu1)
        | lookup => exact absurd (hG.lookup hc hx).2 (hG.updating hu1)
        | ready => have := (hG.ready hc hx).2; omega
        | updating => rfl
      · unfold drop
        split <;> (dsimp only; omega)
    | updErrMore _ _ _ _ _ h => rw [hm] at h; cases h
    | updOld _ _ _ _ _ h => rw [he] at h; cases h
    | updOldMore _ _ _ _ _ h => rw [he] at h; cases h
    | updNew _ _ _ _ h => rw [he] at h; cases h
  exact (stuck_run g i _ s1 hs1 (fun e h => hg e (List.mem_append_left _ h)) key.1 key.2.1 key.2.2 es2 s2 h2
    (fun e h => ⟨hg e (List.mem_append_right _ h), fun hh => hr (hh ▸ h)⟩)).2.2.2.2

/-- The same if the transport refuses a request at once. -/
theorem refusal_ends_updates_defect (g : Cfg) (i : Nat) (es1 es2 : List Ev) (s s2 : State)
    (h1 : Reach g es1 s) (hc : (s.sets i).inTree = true) (hs : (s.sets i).st = .ready)
    (h2 : Reach g (es1 ++ Ev.tick i false false :: es2) s2)
    (hg : ∀ e ∈ es1 ++ Ev.tick i false false :: es2, isGroup e = false)
    (hr : Ev.reset i ∉ es2) : ∀ v, Ev.updated i v ∉ es2 := by
  rw [show es1 ++ Ev.tick i false false :: es2 = es1 ++ [Ev.tick i false false] ++ es2 by simp] at h2 hg
  obtain ⟨s1, hs1, _⟩ := reach_append.mp h2
  obtain ⟨s', hs', hst⟩ := reach_snoc.mp hs1
  have : s' = s := by
    have := hs'.symm.trans h1
    injection this
  subst this
  have hG := all_good g es1 s' h1 (fun e h => hg e (by simp [h])) i
  simp only [step, hc, hs] at hst
  simp only [Bool.true_eq_false, if_false, Bool.false_eq_true, Out.ok.injEq] at hst
  have key : (s1.sets i).inTree = true ∧ (s1.sets i).st = .updating ∧ (s1.sets i).updates = 0 := by
    rw [← hst]
    simp [setSet, request, hc, (hG.ready hc hs).2]
  exact (stuck_run g i _ s1 hs1 (fun e h => hg e (List.mem_append_left _ h)) key.1 key.2.1 key.2.2 es2 s2 h2
    (fun e h => ⟨hg e (List.mem_append_right _ h), fun hh => hr (hh ▸ h)⟩)).2.2.2.2

example : Reach g0 (setUp ++ sampled 3 ++ [.tick 0 false true, .updated 0 ⟨true, false, 0, false⟩,
      .tick 0 false true, .tick 0 false true])
    (after (setUp ++ sampled 3 ++ [.tick 0 false true, .updated 0 ⟨true, false, 0, false⟩, .tick 0 false true,
      .tick 0 false true])) ∧
    ((after (setUp ++ sampled 3 ++ [.tick 0 false true, .updated 0 ⟨true, false, 0, false⟩, .tick 0 false true,
      .tick 0 false true])).sets 0).skipped = 2 :=
  ⟨reach_theState (by decide), by decide⟩

/-- the update of a set that is gone ends after the policy was stopped and started -/
def goneThenRestarted : List Ev :=
  goneInFlight ++ [.stop 7, .start 7, .updated 0 ⟨false, false, 4, true⟩, .storeOne 0, .storeEnd 0]

/-- A running policy stops though nobody told it to: it was started last, and no stop came after that. -/
theorem gone_set_stops_defect : ∃ s, Reach g0 goneThenRestarted s ∧ (s.pols 7).running = false :=
  ⟨_, reach_theState (by decide), by decide⟩

/-- a policy is started for a set that is ready, and stopped -/
def startedStopped : List Ev := setUp ++ [.stop 7, .scan 7 0 true]

/-- The number of sets of a policy is not counted down when it is stopped. -/
theorem count_after_stop_defect : ∃ s, Reach g0 startedStopped s ∧ (s.sets 0).att = [] ∧ (s.pols 7).cnt = 1 :=
  ⟨_, reach_theState (by decide), by decide, by decide⟩

/-- the first set cannot be opened, and the second has other metrics -/
def firstFails : List Ev :=
  [.start 7, .add 0, .tick 0 false true, .looked 0 (some c0), .attachOne 0 false, .attachEnd 0,
   .add 1, .tick 1 false true, .looked 1 (some ⟨6, [40]⟩), .attachOne 1 true, .attachEnd 1]

/-- A policy that names no metrics and could not be opened for one set is bound to the metrics of that set: a
set with other metrics is not stored though it could be opened, while without the first it would be. -/
theorem failed_open_binds_defect : ∃ s, Reach g0 firstFails s ∧ (s.sets 1).att = [] ∧
    ∃ s', Reach g0 (.start 7 :: firstFails.drop 6) s' ∧ (s'.sets 1).att = [7] :=
  ⟨_, reach_theState (by decide), by decide, _, reach_theState (by decide), by decide⟩

/-- an updater comes by a set group twice, and the producer is lost -/
def groupLost : List Ev :=
  setUp ++ [.add 1, .tick 1 false true, .looked 1 (some c0), .attachOne 1 true, .attachEnd 1,
    .group 0 1 true, .updated 1 ⟨true, false, 0, false⟩, .reset 0, .reset 1]

/-- A set group is never freed once it was updated: nothing refers to it, and no operation is outstanding. -/
theorem group_leaks_defect : ∃ s, Reach g0 groupLost s ∧ (s.sets 0).live = true ∧ (s.sets 0).inTree = false ∧
    (s.sets 0).lookups = 0 ∧ (s.sets 0).updates = 0 :=
  ⟨_, reach_theState (by decide), by decide, by decide, by decide, by decide⟩

/-- a member of the group is listed after the group, and the updater comes by twice before its lookup ends -/
def lateMember : List Ev :=
  setUp ++ [.add 1, .group 0 1 true, .group 0 1 true, .looked 1 (some c0), .attachOne 1 true, .attachEnd 1,
    .looked 1 (some c0)]

/-- Then it is looked up twice, and the process ends (`assert(0 == "multiple lookup on the same prdcr_set")`,
ldmsd_updtr.c:546). -/
theorem late_member_crash_defect : run g0 (init g0) lateMember = .crash := by rfl

end Verif.Pipeline
