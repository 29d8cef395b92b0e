import Verif.Lifecycle.Model

/-!
# C40: producers, updaters and storage policies refuse out-of-order commands
-/

namespace Verif.Lifecycle

open Verif.Task (T)

/-! ## interleavings of a producer -/

inductive Act where
  | start (acc : Bool) (iv : Option (Option Int))
  | stop (acc : Bool)
  | stopEnd
  | del (acc : Bool)
  | ref
  | unref
  | taskBegin
  | taskFn (ok : Bool)
  | taskEnd (n : Task.TState)
  | connected
  | down
  deriving DecidableEq, Repr

/-- when an action can happen: a waiting stop goes on when the task is stopped; the transport delivers
`CONNECTED` at most once for an endpoint and ends with one event of the other kind; references are held
by updaters -/
def enabled (p : P) : Act → Prop
  | .stopEnd => 0 < p.waiting ∧ Task.joined p.task = true
  | .ref => p.found = true
  | .unref => p.waiting + 1 < p.refs
  | .taskBegin => p.task.queued = true ∧ p.task.fn = none ∧ p.task.fired = 0
  | .taskFn _ => p.task.fn ≠ none
  | .taskEnd n => p.task.fn = some n
  | .connected => p.xprt = some false
  | .down => p.xprt ≠ none
  | _ => True

instance (p : P) (a : Act) : Decidable (enabled p a) := by
  cases a <;> unfold enabled <;> infer_instance

def act (p : P) : Act → Out
  | .start acc iv => .ok (prdcrStart acc iv p).1 (some (prdcrStart acc iv p).2)
  | .stop acc => .ok (prdcrStop acc p).1 (prdcrStop acc p).2
  | .stopEnd => .ok (prdcrStopEnd p).1 (some (prdcrStopEnd p).2)
  | .del acc => .ok (prdcrDel acc p).1 (some (prdcrDel acc p).2)
  | .ref => .ok { p with refs := p.refs + 1 } none
  | .unref => .ok { p with refs := p.refs - 1 } none
  | .taskBegin => .ok { p with task := Task.begin (Task.fire p.task) } none
  | .taskFn ok => prdcrTask ok p
  | .taskEnd n => .ok { p with task := Task.finish p.task n } none
  | .connected => .ok (prdcrConnected p) none
  | .down => prdcrDown p

/-- a run of enabled actions without a failed assertion, with the results of the requests -/
inductive Run : P → List (Act × Option Int) → P → Prop
  | nil (p : P) : Run p [] p
  | cons {p q r : P} {a : Act} {rc : Option Int} {l : List (Act × Option Int)} :
    enabled p a → act p a = .ok q rc → Run q l r → Run p ((a, rc) :: l) r

theorem Run.snoc {p q r : P} {a : Act} {rc : Option Int} {l : List (Act × Option Int)} (h : Run p l q)
    (he : enabled q a) (ha : act q a = .ok r rc) : Run p (l ++ [(a, rc)]) r := by
  induction h with
  | nil => exact .cons he ha (.nil _)
  | cons h1 h2 _ ih => exact .cons h1 h2 (ih he ha)

/-- the producer has a connection, or is making one, exactly in the states that say so -/
structure Inv (p : P) : Prop where
  stopped : p.st = .stopped → p.xprt = none
  disconnected : p.st = .disconnected → p.xprt = none
  connecting : p.st = .connecting → p.xprt ≠ none
  connected : p.st = .connected → p.xprt ≠ none

theorem inv_act {p : P} (h : Inv p) {a : Act} (he : enabled p a) :
    ∃ q rc, act p a = .ok q rc ∧ Inv q := by
  have keep : ∀ q : P, q.st = p.st → q.xprt = p.xprt → Inv q := by
    intro q h1 h2
    exact ⟨by rw [h1, h2]; exact h.stopped, by rw [h1, h2]; exact h.disconnected,
      by rw [h1, h2]; exact h.connecting, by rw [h1, h2]; exact h.connected⟩
  cases a with
  | start acc iv =>
    refine ⟨_, _, rfl, ?_⟩
    have start0 : ∀ q : P, q.st = p.st → q.xprt = p.xprt → Inv (prdcrStart0 acc q).1 := by
      intro q h1 h2
      rw [prdcrStart0]
      split
      · exact keep q h1 h2
      · split
        · exact keep q h1 h2
        · rename_i hst
          simp only [ne_eq, Decidable.not_not] at hst
          refine ⟨(fun e => by cases e), (fun _ => ?_), (fun e => by cases e), fun e => by cases e⟩
          show q.xprt = none
          rw [h2]
          exact h.stopped (by rw [← h1]; exact hst)
    rw [prdcrStart]
    split
    · exact h
    · split
      · exact keep _ rfl rfl
      · split
        · exact keep _ rfl rfl
        · have := start0 { p with refs := p.refs + 1, intrvl := by assumption } rfl rfl
          exact ⟨this.stopped, this.disconnected, this.connecting, this.connected⟩
      · have := start0 { p with refs := p.refs + 1 } rfl rfl
        exact ⟨this.stopped, this.disconnected, this.connecting, this.connected⟩
  | stop acc =>
    refine ⟨_, _, rfl, ?_⟩
    rw [prdcrStop]
    split
    · exact h
    · split
      · exact h
      · split
        · exact h
        · split
          · exact h
          · exact ⟨(fun e => by cases e), (fun e => by cases e), (fun e => by cases e), fun e => by cases e⟩
  | stopEnd =>
    refine ⟨_, _, rfl, ?_⟩
    rw [prdcrStopEnd]
    by_cases hx : p.xprt = none
    · refine ⟨(fun _ => hx), (fun _ => hx), (fun e => ?_), fun e => ?_⟩
      · simp [hx] at e
      · simp [hx] at e
    · refine keep _ ?_ rfl
      simp [hx]
  | del acc =>
    refine ⟨_, _, rfl, ?_⟩
    rw [prdcrDel]
    split
    · exact h
    · split
      · exact h
      · split
        · exact h
        · split
          · exact h
          · exact keep _ rfl rfl
  | ref => exact ⟨_, _, rfl, keep _ rfl rfl⟩
  | unref => exact ⟨_, _, rfl, keep _ rfl rfl⟩
  | taskBegin => exact ⟨_, _, rfl, keep _ rfl rfl⟩
  | taskEnd n => exact ⟨_, _, rfl, keep _ rfl rfl⟩
  | taskFn ok =>
    rw [act, prdcrTask]
    cases hst : p.st with
    | stopped => exact ⟨_, _, rfl, keep _ hst.symm rfl⟩
    | stopping => exact ⟨_, _, rfl, keep _ hst.symm rfl⟩
    | connecting => exact ⟨_, _, rfl, h⟩
    | connected => exact ⟨_, _, rfl, keep _ hst.symm rfl⟩
    | disconnected =>
      have hx := h.disconnected hst
      dsimp only
      rw [prdcrConnect, if_neg (fun hc => hc hx)]
      cases ok with
      | true =>
        refine ⟨_, _, rfl, (fun e => by cases e), (fun e => by cases e), (fun _ => ?_), fun e => by cases e⟩
        simp
      | false =>
        exact ⟨_, _, rfl, (fun e => by cases e), (fun _ => rfl), (fun e => by cases e), fun e => by cases e⟩
  | connected =>
    refine ⟨_, _, rfl, (fun e => by cases e), (fun e => by cases e), (fun e => by cases e), fun _ => ?_⟩
    simp [prdcrConnected]
  | down =>
    rw [act, prdcrDown]
    cases hst : p.st with
    | stopped => exact absurd (h.stopped hst) he
    | stopping =>
      exact ⟨_, _, rfl, (fun _ => rfl), (fun e => by cases e), (fun e => by cases e), fun e => by cases e⟩
    | disconnected =>
      exact ⟨_, _, rfl, (fun e => by cases e), (fun _ => rfl), (fun e => by cases e), fun e => by cases e⟩
    | connecting =>
      exact ⟨_, _, rfl, (fun e => by cases e), (fun _ => rfl), (fun e => by cases e), fun e => by cases e⟩
    | connected =>
      exact ⟨_, _, rfl, (fun e => by cases e), (fun _ => rfl), (fun e => by cases e), fun e => by cases e⟩

theorem run_inv {p q : P} {l : List (Act × Option Int)} (h : Run p l q) (hi : Inv p) : Inv q := by
  induction h with
  | nil => exact hi
  | cons h1 h2 _ ih =>
    obtain ⟨q', rc', e, hq⟩ := inv_act hi h1
    rw [e] at h2
    cases h2
    exact ih hq

theorem inv_new (iv : Int) : Inv (P.new iv) :=
  ⟨(fun _ => rfl), (fun _ => rfl), (fun e => by cases e), fun e => by cases e⟩

/-! ## the property, producers -/

/-- *No assertion of the producer code fails*, in any interleaving of requests, of the connection task
and of transport events. -/
theorem producer_no_abort {iv : Int} {l : List (Act × Option Int)} {p : P} (h : Run (P.new iv) l p) {a : Act}
    (he : enabled p a) : act p a ≠ .abort := by
  obtain ⟨q, rc, e, _⟩ := inv_act (run_inv h (inv_new iv)) he
  rw [e]
  intro hc
  cases hc

/-- *A producer is started only when it is stopped*: the result is 0 exactly when the producer exists, is
stopped, the caller has access and the interval is a positive time; then it is no longer stopped. -/
theorem producer_start (acc : Bool) (iv : Option (Option Int)) (p : P) :
    ((prdcrStart acc iv p).2 = 0 ↔ p.found = true ∧ acc = true ∧ p.st = .stopped ∧
      (iv = none ∨ ∃ v, iv = some (some v) ∧ 0 < v)) ∧
    ((prdcrStart acc iv p).2 = 0 → (prdcrStart acc iv p).1.st = .disconnected ∧
      (prdcrStart acc iv p).1.refs = p.refs) := by
  have s0 : ∀ q : P, ((prdcrStart0 acc q).2 = 0 ↔ acc = true ∧ q.st = .stopped) ∧
      ((prdcrStart0 acc q).2 = 0 → (prdcrStart0 acc q).1.st = .disconnected ∧
        (prdcrStart0 acc q).1.refs = q.refs) := by
    intro q
    rw [prdcrStart0]
    cases acc with
    | false => simp [EACCES]
    | true =>
      simp only [Bool.not_true, Bool.false_eq_true, if_false]
      by_cases hs : q.st = .stopped
      · simp [hs]
      · simp [hs, EBUSY]
  rw [prdcrStart]
  by_cases hf : p.found = true
  case neg =>
    have : p.found = false := by simpa using hf
    simp [this, ENOENT]
  case pos =>
    rw [if_neg (by simp [hf])]
    cases iv with
    | none =>
      have := s0 { p with refs := p.refs + 1 }
      dsimp only at this ⊢
      refine ⟨?_, ?_⟩
      · rw [this.1]; simp [hf]
      · intro h0
        obtain ⟨a, b⟩ := this.2 h0
        exact ⟨a, by show (prdcrStart0 acc _).1.refs - 1 = _; rw [b]; simp⟩
    | some o =>
      cases o with
      | none => simp [EINVAL]
      | some v =>
        by_cases hv : v ≤ 0
        · simp only [hv, if_true]
          refine ⟨?_, fun h0 => by cases h0⟩
          constructor
          · intro h0; cases h0
          · rintro ⟨_, _, _, h | ⟨w, h, hw⟩⟩
            · cases h
            · cases h; omega
        · dsimp only
          rw [if_neg hv]
          have := s0 { p with refs := p.refs + 1, intrvl := v }
          dsimp only at this ⊢
          refine ⟨?_, ?_⟩
          · rw [this.1]
            constructor
            · rintro ⟨a, b⟩; exact ⟨hf, a, b, Or.inr ⟨v, rfl, by omega⟩⟩
            · rintro ⟨_, a, b, _⟩; exact ⟨a, b⟩
          · intro h0
            obtain ⟨a, b⟩ := this.2 h0
            exact ⟨a, by show (prdcrStart0 acc _).1.refs - 1 = _; rw [b]; simp⟩

/-- *A refused start changes nothing*, when it gives no interval.  What is missing: a start with an
interval changes the interval although it is refused (`refused_start_defect`), or keeps a reference
(`bad_interval_defect`). -/
theorem producer_start_refused_partial (acc : Bool) (p : P) (h : (prdcrStart acc none p).2 ≠ 0) :
    (prdcrStart acc none p).1 = p := by
  rw [prdcrStart] at h ⊢
  by_cases hf : p.found = true
  · rw [if_neg (by simp [hf])] at h ⊢
    dsimp only at h ⊢
    rw [prdcrStart0] at h ⊢
    cases acc with
    | false => rfl
    | true =>
      simp only [Bool.not_true, Bool.false_eq_true, if_false] at h ⊢
      by_cases hs : p.st = .stopped
      · simp [hs] at h
      · rw [if_pos hs]
        rfl
  · rw [if_pos (by simp [hf])]

/-- *Stop*: 0 at once if already stopped; refused if there is no such producer, no access, or it is
stopping already; otherwise the producer is stopping when the request begins to wait.  A request that
ends at once changes nothing. -/
theorem producer_stop (acc : Bool) (p : P) :
    ((prdcrStop acc p).2 = some 0 ↔ p.found = true ∧ acc = true ∧ p.st = .stopped) ∧
    ((prdcrStop acc p).2 = none ↔ p.found = true ∧ acc = true ∧ p.st ≠ .stopped ∧ p.st ≠ .stopping) ∧
    ((prdcrStop acc p).2 = none → (prdcrStop acc p).1.st = .stopping) ∧
    (∀ rc, (prdcrStop acc p).2 = some rc → (prdcrStop acc p).1 = p) := by
  rw [prdcrStop]
  cases p.found with
  | false => simp [ENOENT]
  | true =>
    cases acc with
    | false => simp [EACCES]
    | true =>
      simp only [Bool.not_true, Bool.false_eq_true, if_false]
      cases hs : p.st <;> simp [EBUSY]

/-- *Delete*: 0 exactly when the producer exists, the caller has access, it is stopped and there is no
reference to it but that of the tree; a refused delete changes nothing. -/
theorem producer_del (acc : Bool) (p : P) :
    ((prdcrDel acc p).2 = 0 ↔ p.found = true ∧ acc = true ∧ p.st = .stopped ∧ p.refs ≤ 1) ∧
    ((prdcrDel acc p).2 = 0 → (prdcrDel acc p).1.found = false) ∧
    ((prdcrDel acc p).2 ≠ 0 → (prdcrDel acc p).1 = p) := by
  rw [prdcrDel]
  cases p.found with
  | false => simp [ENOENT]
  | true =>
    cases acc with
    | false => simp [EACCES]
    | true =>
      simp only [Bool.not_true, Bool.false_eq_true, if_false]
      by_cases hs : p.st = .stopped
      · by_cases hr : p.refs + 1 > 2
        · simp only [hs, ne_eq, not_true, if_false, hr, if_true]
          simp [EBUSY]; omega
        · simp only [hs, ne_eq, not_true, if_false, hr]
          simp; omega
      · simp [hs, EBUSY]

def Act.isStart : Act → Bool
  | .start .. => true
  | _ => false

/-- *A stopped producer stays stopped until it is started*: when a stop begins to wait and the
connection is not still being made, the producer is stopping or stopped in every later state of every
run without a start.  What is missing: a stop while the connection is being made
(`stop_undone_defect`). -/
theorem producer_stop_lasting_partial {acc : Bool} {p q : P} {l : List (Act × Option Int)}
    (h : (prdcrStop acc p).2 = none) (hx : p.xprt ≠ some false)
    (hr : Run (prdcrStop acc p).1 l q) (hns : ∀ x ∈ l, x.1.isStart = false) :
    q.st = .stopping ∨ q.st = .stopped := by
  have key : ∀ {a b : P} {l : List (Act × Option Int)}, Run a l b → (∀ x ∈ l, x.1.isStart = false) →
      Inv a → a.xprt ≠ some false → (a.st = .stopping ∨ a.st = .stopped) →
      (b.st = .stopping ∨ b.st = .stopped) := by
    intro a b l hr
    induction hr with
    | nil => intro _ _ _ h; exact h
    | @cons a c b x rc l he ha _ ih =>
      intro hl hi hxa hst
      obtain ⟨c', rc', e, hc⟩ := inv_act hi he
      rw [e] at ha
      cases ha
      have hx0 := hl _ List.mem_cons_self
      refine ih (fun y hy => hl y (List.mem_cons_of_mem _ hy)) hc ?_ ?_
      · cases x with
        | start => cases hx0
        | stop acc =>
          simp only [act] at e
          cases e
          rw [prdcrStop]
          split
          · exact hxa
          · split
            · exact hxa
            · split
              · exact hxa
              · split <;> exact hxa
        | stopEnd => simp only [act] at e; cases e; exact hxa
        | del acc =>
          simp only [act] at e
          cases e
          rw [prdcrDel]
          split
          · exact hxa
          · split
            · exact hxa
            · split
              · exact hxa
              · split <;> exact hxa
        | ref => simp only [act] at e; cases e; exact hxa
        | unref => simp only [act] at e; cases e; exact hxa
        | taskBegin => simp only [act] at e; cases e; exact hxa
        | taskEnd n => simp only [act] at e; cases e; exact hxa
        | taskFn ok =>
          simp only [act, prdcrTask] at e
          rcases hst with hst | hst <;> rw [hst] at e <;> cases e <;> exact hxa
        | connected => exact absurd he hxa
        | down =>
          simp only [act, prdcrDown] at e
          rcases hst with hst | hst <;> rw [hst] at e
          · cases e; simp
          · cases e
      · cases x with
        | start => cases hx0
        | stop acc =>
          simp only [act] at e
          cases e
          rw [prdcrStop]
          split
          · exact hst
          · split
            · exact hst
            · split
              · exact hst
              · split
                · exact hst
                · exact Or.inl rfl
        | stopEnd =>
          simp only [act] at e
          cases e
          rw [prdcrStopEnd]
          dsimp only
          split
          · exact Or.inr rfl
          · exact hst
        | del acc =>
          simp only [act] at e
          cases e
          rw [prdcrDel]
          split
          · exact hst
          · split
            · exact hst
            · split
              · exact hst
              · split <;> exact hst
        | ref => simp only [act] at e; cases e; exact hst
        | unref => simp only [act] at e; cases e; exact hst
        | taskBegin => simp only [act] at e; cases e; exact hst
        | taskEnd n => simp only [act] at e; cases e; exact hst
        | taskFn ok =>
          simp only [act, prdcrTask] at e
          rcases hst with hst | hst <;> rw [hst] at e <;> cases e
          · exact Or.inl rfl
          · exact Or.inr rfl
        | connected => exact absurd he hxa
        | down =>
          simp only [act, prdcrDown] at e
          rcases hst with hst | hst <;> rw [hst] at e
          · cases e; exact Or.inr rfl
          · cases e
  have hst := (producer_stop acc p).2.2.1 h
  have hxp : (prdcrStop acc p).1.xprt = p.xprt := by
    rw [prdcrStop]
    split
    · rfl
    · split
      · rfl
      · split
        · rfl
        · split <;> rfl
  refine key hr hns ?_ (by rw [hxp]; exact hx) (Or.inl hst)
  exact ⟨(fun e => by rw [hst] at e; cases e), (fun e => by rw [hst] at e; cases e),
    (fun e => by rw [hst] at e; cases e), fun e => by rw [hst] at e; cases e⟩

/-- a connected producer is stopped, its connection ends, and the stop ends: the hypotheses are met -/
example : ∃ (p q : P) (l : List (Act × Option Int)), (prdcrStop true p).2 = none ∧ p.xprt ≠ some false ∧
    Run (prdcrStop true p).1 l q ∧ (∀ x ∈ l, x.1.isStart = false) ∧ l.length = 2 ∧ q.st = .stopped :=
  ⟨⟨.connected, some true, Task.init, 0, 1, 5, true⟩, _, [(.down, none), (.stopEnd, some 0)], rfl, by decide,
    .cons (by decide) rfl (.cons (by decide) rfl (.nil _)), by decide, rfl, rfl⟩

/-! ## defects of the producer code -/

/-- run a list of actions -/
def exec (p : P) : List Act → Option (P × List (Act × Option Int))
  | [] => some (p, [])
  | a :: as =>
    if enabled p a then
      match act p a with
      | .abort => none
      | .ok q rc => (exec q as).map fun (r, l) => (r, (a, rc) :: l)
    else none

theorem exec_run {p q : P} {as : List Act} {l : List (Act × Option Int)} (h : exec p as = some (q, l)) :
    Run p l q := by
  induction as generalizing p l with
  | nil => rw [exec] at h; cases h; exact .nil _
  | cons a as ih =>
    rw [exec] at h
    split at h
    · rename_i he
      split at h
      · cases h
      · rename_i r rc ha
        cases hx : exec r as with
        | none => rw [hx] at h; cases h
        | some y =>
          rw [hx] at h
          cases h
          exact .cons he ha (ih hx)
    · cases h

/-- **Defect**: a producer is stopped while its connection is being made.  The stop returns 0, no start
follows, and yet the producer is connected, then disconnected and connecting again: the `CONNECTED` event
sets the state without looking at it. -/
theorem stop_undone_defect :
    ∃ p l, Run (P.new 1000000) ([(.start true none, some 0), (.taskBegin, none), (.taskFn true, none),
        (.taskEnd .started, none), (.stop true, none)] ++ l) p ∧
      (∀ x ∈ l, x.1.isStart = false) ∧ (Act.stopEnd, some 0) ∈ l ∧ p.st = .connecting ∧ p.waiting = 0 := by
  have h : ∃ y, exec (P.new 1000000) [.start true none, .taskBegin, .taskFn true, .taskEnd .started,
      .stop true, .stopEnd, .connected, .down, .taskBegin, .taskFn true] = some y := ⟨_, rfl⟩
  refine ⟨_, [(.stopEnd, some 0), (.connected, none), (.down, none), (.taskBegin, none), (.taskFn true, none)],
    exec_run (as := [.start true none, .taskBegin, .taskFn true, .taskEnd .started,
      .stop true, .stopEnd, .connected, .down, .taskBegin, .taskFn true]) rfl, by decide, by decide, rfl, rfl⟩

/-- **Defect**: the task is asked to stop when the connection is made, and to start again when it is
lost; if its function has not returned yet the second request is refused and the refusal is ignored.
The producer is then disconnected, not stopped, and never tries to connect again: no task is scheduled
and no event can come. -/
theorem stuck_disconnected_defect :
    ∃ p l, Run (P.new 1000000) l p ∧ p.st = .disconnected ∧ p.xprt = none ∧ p.waiting = 0 ∧
      p.task.queued = false ∧ p.task.fn = none ∧ (∀ x ∈ l, x.1 ≠ .stop true) :=
  ⟨_, _, exec_run (as := [.start true none, .taskBegin, .taskFn true, .connected, .down,
    .taskEnd .started]) rfl, rfl, rfl, rfl, rfl, rfl, by decide⟩

/-- **Defect**: a start that is refused, because the producer runs or because the caller has no access,
changes the reconnect interval. -/
theorem refused_start_defect :
    ∃ p q, Run (P.new 1000000) [(.start true none, some 0)] p ∧
      act p (.start false (some (some 5))) = .ok q (some EACCES) ∧ p.intrvl = 1000000 ∧ q.intrvl = 5 :=
  ⟨_, _, exec_run (as := [.start true none]) rfl, rfl, rfl, rfl⟩

/-- **Defect**: a start with a bad interval keeps the reference it took: the producer can never be
deleted after it, whatever else happens. -/
theorem bad_interval_defect (iv : Int) :
    (act (P.new iv) (.start true (some none)) = .ok { P.new iv with refs := 2 } (some EINVAL)) ∧
    (∀ acc, (prdcrDel acc { P.new iv with refs := 2 }).2 ≠ 0) ∧
    ∃ l, Run { P.new iv with refs := 2 } l { P.new iv with refs := 2 } ∧
      l = [(.stop true, some 0), (.del true, some EBUSY)] := by
  refine ⟨rfl, ?_, _, ?_, rfl⟩
  · intro acc h; cases acc <;> cases h
  · exact .cons trivial rfl (.cons trivial rfl (.nil _))

/-! ## updaters -/

/-- *Updaters*: start succeeds exactly when the updater exists, is stopped, the caller has access and the
schedule is accepted; a request that fails changes nothing; stop and delete likewise. -/
theorem updater_requests (acc : Bool) (req : Option (Int × Int)) (u : U) :
    ((updtrStart acc req u).2 = 0 ↔ u.found = true ∧ acc = true ∧ u.st = .stopped ∧ req ≠ none) ∧
    ((updtrStart acc req u).2 = 0 → (updtrStart acc req u).1.st = .running ∧
      some (updtrStart acc req u).1.sched = req) ∧
    ((updtrStart acc req u).2 ≠ 0 → (updtrStart acc req u).1 = u) ∧
    ((updtrStop acc u).2 = none ↔ u.found = true ∧ acc = true ∧ u.st = .running) ∧
    ((updtrStop acc u).2 = none → (updtrStop acc u).1.st = .stopping) ∧
    (∀ rc, (updtrStop acc u).2 = some rc → (updtrStop acc u).1 = u ∧
      (rc = 0 ↔ u.found = true ∧ acc = true ∧ u.st = .stopped)) ∧
    ((updtrDel acc u).2 = 0 ↔ u.found = true ∧ acc = true ∧ u.st = .stopped) ∧
    ((updtrDel acc u).2 = 0 → (updtrDel acc u).1.found = false) ∧
    ((updtrDel acc u).2 ≠ 0 → (updtrDel acc u).1 = u) := by
  obtain ⟨st, sc, fo⟩ := u
  cases fo <;> cases acc <;> cases st <;> cases req <;>
    simp [updtrStart, updtrStart1, updtrStart0, updtrStop, updtrDel, ENOENT, EACCES, EBUSY, EINVAL] <;>
    (intro rc h; subst h; decide)

/-- *The second half of a start*, between which and the first half other requests may run: it succeeds
exactly when the caller has access and the updater is stopped, and then the updater runs; otherwise it
changes nothing. -/
theorem updater_start_second (acc : Bool) (u : U) :
    ((updtrStart0 acc u).2 = 0 ↔ acc = true ∧ u.st = .stopped) ∧
    ((updtrStart0 acc u).2 = 0 → (updtrStart0 acc u).1 = { u with st := .running }) ∧
    ((updtrStart0 acc u).2 ≠ 0 → (updtrStart0 acc u).1 = u) := by
  obtain ⟨st, sc, fo⟩ := u
  cases acc <;> cases st <;> simp [updtrStart0, EACCES, EBUSY]

/-- **Defect**: two starts at the same time.  Both pass the check of the first half; the one that is
refused in the second half has already replaced the schedule of the other. -/
theorem updater_start_race_defect :
    ∃ (u u1 u2 u3 u4 : U), u.st = .stopped ∧ u.found = true ∧
      updtrStart1 true (some (1000000, 0)) u = (u1, 0) ∧ updtrStart1 true (some (5, 0)) u1 = (u2, 0) ∧
      updtrStart0 true u2 = (u3, 0) ∧ updtrStart0 true u3 = (u4, EBUSY) ∧ u4.sched = (5, 0) :=
  ⟨⟨.stopped, (0, 0), true⟩, _, _, _, _, rfl, rfl, rfl, rfl, rfl, rfl, rfl⟩

/-! ## storage policies -/

/-- *Storage policies*: start only when stopped, stop only when running, delete only when stopped and not
referenced; a refused request changes nothing. -/
theorem strgp_requests (acc : Bool) (s : S) :
    ((strgpStart acc s).2 = 0 ↔ s.found = true ∧ acc = true ∧ s.running = false) ∧
    ((strgpStart acc s).2 = 0 → (strgpStart acc s).1 = { s with running := true }) ∧
    ((strgpStart acc s).2 ≠ 0 → (strgpStart acc s).1 = s) ∧
    ((strgpStop acc s).2 = 0 ↔ s.found = true ∧ acc = true ∧ s.running = true) ∧
    ((strgpStop acc s).2 = 0 → (strgpStop acc s).1 = { s with running := false }) ∧
    ((strgpStop acc s).2 ≠ 0 → (strgpStop acc s).1 = s) ∧
    ((strgpDel acc s).2 = 0 ↔ s.found = true ∧ acc = true ∧ s.running = false ∧ s.refs ≤ 1) ∧
    ((strgpDel acc s).2 = 0 → (strgpDel acc s).1.found = false) ∧
    ((strgpDel acc s).2 ≠ 0 → (strgpDel acc s).1 = s) := by
  obtain ⟨ru, rf, fo⟩ := s
  have e : (rf ≤ 1) = ¬ (2 < rf + 1) := by apply propext; omega
  rw [e]
  by_cases h2 : 2 < rf + 1
  · cases fo <;> cases acc <;> cases ru <;>
      simp [strgpStart, strgpStop, strgpDel, ENOENT, EACCES, EBUSY, h2]
  · cases fo <;> cases acc <;> cases ru <;>
      simp [strgpStart, strgpStop, strgpDel, ENOENT, EACCES, EBUSY, h2]

example : ∃ p l, Run (P.new 1000000) l p ∧ p.st = .stopped ∧ p.found = false ∧ l.length = 10 :=
  ⟨_, _, exec_run (as := [.start true none, .taskBegin, .taskFn true, .taskEnd .started, .connected,
    .stop true, .down, .stopEnd, .stop true, .del true]) rfl, rfl, rfl, rfl⟩

end Verif.Lifecycle
