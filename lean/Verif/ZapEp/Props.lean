import Verif.ZapEp.Pair

/-!
# C55: connection events come in the documented order and a connection ends exactly once

Ranges over every history of a pair of socket endpoints (setup, data, answers of the application, closes,
losses), and, for each endpoint alone, over every history with any peer that keeps to the protocol's
order of `CONNECT` and `ACK`.
-/

namespace Verif.ZapEp

/-! ### Specification -/

/-- how far an application has been told a connection has come -/
inductive Ph where
  | start
  | asked
  | up
  | ended
  | bad
deriving DecidableEq

/-- The order of events an application relies on.  Active side: `CONNECTED`, then messages, then
`DISCONNECTED`; or `REJECTED`; or `CONNECT_ERROR`.  Passive side: `CONNECT_REQUEST` first, then
`CONNECTED`, messages, `DISCONNECTED`, or `CONNECT_ERROR`. -/
def next (passive : Bool) : Ph → Event → Ph
  | .start, .connectRequest => if passive then .asked else .bad
  | .start, .connected => if passive then .bad else .up
  | .start, .rejected => if passive then .bad else .ended
  | .start, .connectError => if passive then .bad else .ended
  | .asked, .connected => .up
  | .asked, .connectError => .ended
  | .up, .recv => .up
  | .up, .disconnected => .ended
  | _, _ => .bad

/-- where a list of events leads -/
def phase (passive : Bool) (l : List Event) : Ph := l.foldl (next passive) .start

/-- the events came in the documented order -/
def InOrder (passive : Bool) (l : List Event) : Prop := phase passive l ≠ .bad

/-- a passive endpoint's peer sends `CONNECT` at most once and `ACK` only after it -/
def Polite : Bool → List Inp → Prop
  | _, [] => True
  | seen, .msg m :: is =>
    (seen = false → m ≠ .ack) ∧ (seen = true → m ≠ .connect true) ∧
      Polite (seen || decide (m = .connect true)) is
  | seen, _ :: is => Polite seen is

/-! ### Links to the proofs -/

theorem fold_rcv (b : Bool) (k : Nat) : (rcv k).foldl (next b) .up = .up := by
  induction k with
  | zero => rfl
  | succ k ih => simpa [rcv, List.replicate_succ, next] using ih

theorem phase_conn (b : Bool) (k : Nat) (pre : List Event) (h : pre.foldl (next b) .start = .up) :
    phase b (pre ++ rcv k) = .up ∧ phase b (pre ++ (rcv k ++ [.disconnected])) = .ended := by
  simp [phase, List.foldl_append, h, fold_rcv, next]

theorem shA_order (e : Ep) (h : ShA e) : InOrder false e.log := by
  cases h with
  | a4 th reg up refs k h =>
    have := (phase_conn false k [.connected] rfl).1
    simp only [List.singleton_append] at this
    simp [InOrder, this]
  | a5 th reg up refs k h =>
    have := (phase_conn false k [.connected] rfl).1
    simp only [List.singleton_append] at this
    simp [InOrder, this]
  | a6 st th up refs k hz h =>
    have := (phase_conn false k [.connected] rfl).2
    simp only [List.singleton_append] at this
    simp [InOrder, this]
  | _ => simp [InOrder, phase, next]

theorem shP_order (e : Ep) (h : ShP e) : InOrder true e.log := by
  cases h with
  | p6 st reg busy up k h =>
    have := (phase_conn true k [.connectRequest, .connected] rfl).1
    simp only [List.cons_append, List.nil_append] at this
    simp [InOrder, this]
  | p7 st busy up refs k hz h =>
    have := (phase_conn true k [.connectRequest, .connected] rfl).2
    simp only [List.cons_append, List.nil_append] at this
    simp [InOrder, this]
  | _ => simp [InOrder, phase, next]

theorem readError_log (e : Ep) : (readError e).log = e.log := by
  unfold readError; split <;> rfl

theorem recvMsg_log (e : Ep) (m : Msg) : ∃ l, (recvMsg e m).1.log = e.log ++ l := by
  unfold recvMsg
  repeat' split
  all_goals first
    | exact ⟨_, rfl⟩
    | exact ⟨[], by simp [readError_log]⟩

theorem sockEvent_log (e e' : Ep) (h : sockEvent e = some e') : ∃ l, e'.log = e.log ++ l := by
  unfold sockEvent at h
  split at h
  · cases h
  · dsimp only at h
    repeat' split at h
    all_goals first
      | cases h; done
      | (cases h; exact ⟨_, rfl⟩)
      | (cases h; exact ⟨[], by simp⟩)

theorem step_log (e e' : Ep) (i : Inp) (o : List Msg) (h : step e i = some (e', o)) :
    ∃ l, e'.log = e.log ++ l := by
  cases i with
  | connect ok =>
    simp only [step, Option.some.injEq, Prod.mk.injEq] at h
    obtain ⟨rfl, rfl⟩ := h
    unfold connect
    repeat' split
    all_goals exact ⟨[], by simp⟩
  | sockUp =>
    simp only [step, sockUp, Option.some.injEq] at h
    split at h <;> (cases h; exact ⟨[], by simp⟩)
  | msg m =>
    simp only [step, msg, Option.some.injEq] at h
    split at h
    · have := recvMsg_log e m
      rw [h] at this
      exact this
    · cases h; exact ⟨[], by simp⟩
  | readErr =>
    simp only [step, Option.some.injEq, Prod.mk.injEq] at h
    obtain ⟨rfl, rfl⟩ := h
    unfold readError
    repeat' split
    all_goals exact ⟨[], by simp⟩
  | hup =>
    simp only [step, hup] at h
    split at h
    · cases hs : sockEvent e with
      | none => rw [hs] at h; cases h
      | some e1 =>
        rw [hs] at h
        cases h
        exact sockEvent_log e e' hs
    · cases h; exact ⟨[], by simp⟩
  | leave b =>
    simp only [step, leave] at h
    split at h
    · split at h
      · rename_i hc
        simp [sockEvent, hc.1] at h
      · cases h; exact ⟨[], by simp⟩
    · cases h; exact ⟨[], by simp⟩
  | accept r =>
    simp only [step, accept, Option.some.injEq] at h
    split at h
    · split at h
      · cases h; exact ⟨[], by simp⟩
      · cases r <;> (cases h; exact ⟨[], by simp⟩)
    · cases h; exact ⟨[], by simp⟩
  | reject =>
    simp only [step, reject] at h
    repeat' split at h
    all_goals first
      | cases h; done
      | (cases h; exact ⟨[], by simp⟩)
  | close =>
    simp only [step, Option.some.injEq, Prod.mk.injEq] at h
    obtain ⟨rfl, rfl⟩ := h
    unfold close
    repeat' split
    all_goals exact ⟨[], by simp⟩

theorem wstep_log (w w' : World) (i : WInp) (h : wstep w i = some w') :
    (∃ l, w'.a.log = w.a.log ++ l) ∧ ∃ l, w'.p.log = w.p.log ++ l := by
  have triv : ∀ e : Ep, ∃ l, e.log = e.log ++ l := fun e => ⟨[], by simp⟩
  cases i with
  | atA i =>
    simp only [wstep] at h
    split at h
    · cases h; exact ⟨triv _, triv _⟩
    · cases hs : step w.a i with
      | none => rw [hs] at h; cases h
      | some r =>
        rw [hs] at h; cases h
        exact ⟨step_log _ _ _ r.2 hs, triv _⟩
  | atP i =>
    simp only [wstep] at h
    split at h
    · cases h; exact ⟨triv _, triv _⟩
    · cases hs : step w.p i with
      | none => rw [hs] at h; cases h
      | some r =>
        rw [hs] at h; cases h
        exact ⟨triv _, step_log _ _ _ r.2 hs⟩
  | deliverA =>
    simp only [wstep] at h
    split at h
    · split at h
      · rename_i m q _ _
        cases hs : step w.a (.msg m) with
        | none => rw [hs] at h; cases h
        | some r =>
          rw [hs] at h; cases h
          exact ⟨step_log _ _ _ r.2 hs, triv _⟩
      · cases h; exact ⟨triv _, triv _⟩
    · cases h; exact ⟨triv _, triv _⟩
  | deliverP =>
    simp only [wstep] at h
    split at h
    · split at h
      · rename_i m q _ _
        cases hs : step w.p (.msg m) with
        | none => rw [hs] at h; cases h
        | some r =>
          rw [hs] at h; cases h
          exact ⟨triv _, step_log _ _ _ r.2 hs⟩
      · cases h; exact ⟨triv _, triv _⟩
    · cases h; exact ⟨triv _, triv _⟩
  | sendA =>
    simp only [wstep, Option.some.injEq] at h
    split at h <;> (cases h; exact ⟨triv _, triv _⟩)
  | sendP =>
    simp only [wstep, Option.some.injEq] at h
    split at h <;> (cases h; exact ⟨triv _, triv _⟩)

theorem wrun_log (is : List WInp) : ∀ w w' : World, wrun w is = some w' →
    (∃ l, w'.a.log = w.a.log ++ l) ∧ ∃ l, w'.p.log = w.p.log ++ l := by
  induction is with
  | nil => intro w w' h; cases h; exact ⟨⟨[], by simp⟩, ⟨[], by simp⟩⟩
  | cons i is ih =>
    intro w w' h
    cases hs : wstep w i with
    | none => simp [wrun, hs] at h
    | some w1 =>
      simp only [wrun, hs, Option.bind_some] at h
      obtain ⟨⟨l1, h1⟩, l2, h2⟩ := wstep_log w w1 i hs
      obtain ⟨⟨l3, h3⟩, l4, h4⟩ := ih w1 w' h
      exact ⟨⟨l1 ++ l3, by rw [h3, h1, List.append_assoc]⟩, ⟨l2 ++ l4, by rw [h4, h2, List.append_assoc]⟩⟩

theorem fold_bad (b : Bool) (l : List Event) : l.foldl (next b) .bad = .bad := by
  induction l with
  | nil => rfl
  | cons x l ih => simpa [next] using ih

theorem nothing_after (b : Bool) (l x : List Event) (h : phase b l = .ended) (ho : InOrder b (l ++ x)) :
    x = [] := by
  cases x with
  | nil => rfl
  | cons y x =>
    exfalso
    apply ho
    unfold phase at h ⊢
    rw [List.foldl_append, h, List.foldl_cons]
    have : next b .ended y = .bad := by cases y <;> rfl
    rw [this, fold_bad]

/-! ### Theorems -/

/-- **Order at the active side, any peer.**  Whatever the peer sends, except a `CONNECT`, and whatever
the application and the network do, an endpoint that connects never crashes and its events come in
order.  Partial: see `stray_connect_defect`. -/
theorem active_in_order_partial (is : List Inp) (h : ∀ i ∈ is, i ≠ .msg (.connect true)) :
    ∃ e o, run newActive is = some (e, o) ∧ InOrder false e.log := by
  suffices ∀ e, ShA e → ∃ e' o, run e is = some (e', o) ∧ ShA e' by
    obtain ⟨e', o, h1, h2⟩ := this newActive ShA.a0
    exact ⟨e', o, h1, shA_order e' h2⟩
  induction is with
  | nil => intro e he; exact ⟨e, [], rfl, he⟩
  | cons i is ih =>
    intro e he
    obtain ⟨e1, o1, h1, h2⟩ := shA_step e he i (h i (by simp))
    obtain ⟨e2, o2, h3, h4⟩ := ih (fun j hj => h j (by simp [hj])) e1 h2
    exact ⟨e2, o1 ++ o2, by simp [run, h1, h3], h4⟩

/-- **Order at the passive side, any polite peer.**  Partial: the peer sends `CONNECT` once and `ACK`
after it (see `ack_first_defect` and `repeated_request_defect`), and the connection is not lost before
the application answers (such a loss crashes, `early_loss_defect`). -/
theorem passive_in_order_partial (is : List Inp) (h : Polite false is) (e : Ep) (o : List Msg)
    (hr : run newPassive is = some (e, o)) : InOrder true e.log := by
  suffices ∀ (is : List Inp) (seen : Bool) (e0 e : Ep) (o : List Msg), ShP e0 → Polite seen is →
      (seen = false → e0.log = []) → (seen = true → e0.log ≠ [] ∨ e0.reg = false) →
      run e0 is = some (e, o) → ShP e by
    exact shP_order e (this is false newPassive e o (ShP.p0 true false true (fun _ => rfl)) h
      (fun _ => rfl) (fun h => by cases h) hr)
  clear hr h is e o
  intro is
  induction is with
  | nil => intro seen e0 e o hp _ _ _ hr; cases hr; exact hp
  | cons i is ih =>
    intro seen e0 e o hp hpol h1 h2 hr
    have hallow : ∀ m, i = .msg m → Allowed e0 m := by
      rintro m rfl
      intro hreg
      simp only [Polite] at hpol
      cases seen with
      | false =>
        refine ⟨fun _ => hpol.1 rfl, fun hne => absurd (h1 rfl) hne⟩
      | true =>
        refine ⟨fun hl => ?_, fun _ => hpol.2.1 rfl⟩
        rcases h2 rfl with h | h
        · exact absurd hl h
        · rw [hreg] at h; cases h
    rcases shP_step e0 hp i hallow with ⟨e1, o1, s1, s2⟩ | ⟨s1, _⟩
    · simp only [run, s1, Option.bind_some] at hr
      cases hr2 : run e1 is with
      | none => rw [hr2] at hr; cases hr
      | some r =>
        obtain ⟨e2, o2⟩ := r
        rw [hr2] at hr
        obtain rfl : e2 = e := by cases hr; rfl
        obtain ⟨l, hl⟩ := step_log e0 e1 i o1 s1
        by_cases hm : ∃ m, i = .msg m
        · obtain ⟨m, rfl⟩ := hm
          simp only [Polite] at hpol
          refine ih _ e1 e2 o2 s2 hpol.2.2 ?_ ?_ hr2
          · intro hs
            simp only [Bool.or_eq_false_iff, decide_eq_false_iff_not] at hs
            have hlog := h1 hs.1
            have hack := hpol.1 hs.1
            simp only [step, Option.some.injEq] at s1
            cases hp with
            | p0 reg busy up h =>
              cases reg
              · cases s1; rfl
              · cases m with
                | connect g =>
                  cases g
                  · cases s1; rfl
                  · exact absurd rfl hs.2
                | ack => exact absurd rfl hack
                | _ => cases s1; rfl
            | _ => cases hlog
          · intro hs
            by_cases hc : m = .connect true
            · subst hc
              simp only [step, Option.some.injEq] at s1
              cases hp with
              | p0 reg busy up h =>
                cases reg
                · cases s1; exact Or.inr rfl
                · cases s1; exact Or.inl (by simp)
              | _ =>
                left
                rw [hl]
                simp
            · simp only [hc, decide_false, Bool.or_false] at hs
              rcases h2 hs with h | h
              · left; rw [hl]; intro hn; exact h (List.append_eq_nil_iff.mp hn).1
              · right
                simp only [step, msg, h, Bool.false_eq_true, if_false, Option.some.injEq] at s1
                cases s1
                exact h
        · have hpol' : Polite seen is := by
            cases i with
            | msg m => exact absurd ⟨m, rfl⟩ hm
            | _ => exact hpol
          refine ih seen e1 e2 o2 s2 hpol' ?_ ?_ hr2
          · intro hs
            have hlog := h1 hs
            cases hp with
            | p0 reg busy up h =>
              cases i with
              | msg m => exact absurd ⟨m, rfl⟩ hm
              | connect ok => cases s1; rfl
              | sockUp => cases reg <;> (cases s1; rfl)
              | readErr => cases reg <;> (cases s1; rfl)
              | hup => cases reg <;> cases s1; rfl
              | leave b => cases busy <;> cases b <;> cases s1 <;> rfl
              | accept r => cases s1; rfl
              | reject => cases s1; rfl
              | close => cases s1; rfl
            | _ => cases hlog
          · intro hs
            rcases h2 hs with h | h
            · left; rw [hl]; intro hn; exact h (List.append_eq_nil_iff.mp hn).1
            · by_cases hne : e0.log = []
              · right
                cases hp with
                | p0 reg busy up h' =>
                  cases h
                  cases i with
                  | msg m => exact absurd ⟨m, rfl⟩ hm
                  | leave b => cases busy <;> cases b <;> cases s1 <;> rfl
                  | _ => cases s1; rfl
                | _ => cases hne
              · left; rw [hl]; intro hn; exact hne (List.append_eq_nil_iff.mp hn).1
    · simp [run, s1] at hr

/-- **Order at both sides of a pair.**  In every history of two endpoints running this code both
applications see their events in order. -/
theorem pair_in_order (is : List WInp) (w : World) (h : wrun world is = some w) :
    InOrder false w.a.log ∧ InOrder true w.p.log := by
  have hi := wrun_inv is world w inv_world h
  exact ⟨shA_order _ hi.a, shP_order _ hi.p⟩

/-- **The two sides agree.**  The active side is told `CONNECTED` only if the passive application
accepted the request, `REJECTED` only if it rejected it, and the passive side is told `CONNECTED` only
if the active side was. -/
theorem sides_agree (is : List WInp) (w : World) (h : wrun world is = some w) :
    (Event.connected ∈ w.a.log → w.p.acc = true ∧ Event.connectRequest ∈ w.p.log) ∧
    (Event.rejected ∈ w.a.log → w.p.gone = true ∧ Event.connected ∉ w.p.log) ∧
    (Event.connected ∈ w.p.log → Event.connected ∈ w.a.log ∧ w.p.acc = true) := by
  obtain ⟨ha, hp, hc⟩ := wrun_inv is world w inv_world h
  generalize w.a = a at *
  generalize w.p = p at *
  generalize w.toP = x at *
  generalize w.toA = y at *
  generalize a.up = u at hc
  have hk1 : Event.connected ∈ a.log ↔ ak a = .conn := by
    unfold ak
    constructor
    · intro h; simp [h]
    · intro h
      apply Classical.byContradiction
      intro hn
      simp only [hn, if_false] at h
      split at h <;> cases h
  have hk2 : Event.rejected ∈ a.log → ak a = .rej := by
    intro hm
    cases ha with
    | a3 th reg up refs h => rfl
    | a0 => cases hm
    | a1 th reg up refs h => cases hm
    | a2 th up refs hz => simp at hm
    | a4 th reg up refs k h => simp [mem_rcv] at hm
    | a5 th reg up refs k h => simp [mem_rcv] at hm
    | a6 st th up refs k hz h => simp [mem_rcv] at hm
  have hpc : Event.connected ∈ p.log → pk p = .conn ∧ p.acc = true := by
    intro hm
    cases hp with
    | p6 st reg busy up k h => exact ⟨pk_conn _ _ rfl rfl, rfl⟩
    | p7 st busy up refs k hz h => exact ⟨pk_conn _ _ rfl rfl, rfl⟩
    | _ => simp at hm
  have hpa : pk p = .conn ∨ pk p = .accd → p.acc = true ∧ Event.connectRequest ∈ p.log := by
    intro hm
    cases hp with
    | p3 reg busy up => exact ⟨rfl, by simp⟩
    | p4 busy up refs hz => exact ⟨rfl, by simp⟩
    | p6 st reg busy up k h => exact ⟨rfl, by simp⟩
    | p7 st busy up refs k hz h => exact ⟨rfl, by simp⟩
    | _ => simp [pk] at hm
  refine ⟨?_, ?_, ?_⟩
  · intro hm
    have hk := hk1.mp hm
    rw [hk] at hc
    generalize hpk : pk p = z at hc hpa
    cases hc
    · exact hpa (Or.inr rfl)
    · exact hpa (Or.inl rfl)
  · intro hm
    have hk := hk2 hm
    rw [hk] at hc
    generalize hpk : pk p = z at hc
    cases hc
    refine ⟨?_, fun hcn => by rw [(hpc hcn).1] at hpk; cases hpk⟩
    unfold pk at hpk
    apply Classical.byContradiction
    intro hg
    simp only [hg] at hpk
    repeat' split at hpk
    all_goals first | contradiction | (cases hpk; done) | simp_all
  · intro hm
    obtain ⟨h1, h2⟩ := hpc hm
    rw [h1] at hc
    refine ⟨?_, h2⟩
    rw [hk1]
    generalize hak : ak a = z at hc
    cases hc
    rfl

/-- **A loss ends a connection.**  When an endpoint that is being served loses its connection, its
application is told so: the active one always (`CONNECT_ERROR`, `DISCONNECTED`, or it has already been
told `REJECTED`), the passive one if it accepted. -/
theorem loss_ends (is : List WInp) (w : World) (h : wrun world is = some w) :
    (w.a.reg = true → ∃ e, hup w.a = some e ∧ phase false e.log = .ended) ∧
    (w.p.reg = true → w.p.acc = true → ∃ e, hup w.p = some e ∧ phase true e.log = .ended) := by
  obtain ⟨ha, hp, _⟩ := wrun_inv is world w inv_world h
  generalize w.a = a at *
  generalize w.p = p at *
  constructor
  · intro hr
    cases ha with
    | a0 => cases hr
    | a1 th reg up refs h =>
      obtain ⟨rfl, rfl⟩ := h hr
      cases hr
      exact ⟨_, rfl, rfl⟩
    | a2 th up refs hz => cases hr
    | a3 th reg up refs h =>
      obtain ⟨rfl, rfl⟩ := h hr
      cases hr
      exact ⟨_, rfl, rfl⟩
    | a4 th reg up refs k h =>
      obtain ⟨rfl, rfl⟩ := h hr
      cases hr
      exact ⟨_, rfl, (phase_conn false k [.connected] rfl).2⟩
    | a5 th reg up refs k h =>
      obtain ⟨rfl, rfl⟩ := h hr
      cases hr
      exact ⟨_, rfl, (phase_conn false k [.connected] rfl).2⟩
    | a6 st th up refs k hz h => cases hr
  · intro hr hacc
    cases hp with
    | p3 reg busy up => cases hr; exact ⟨_, rfl, rfl⟩
    | p6 st reg busy up k h =>
      cases hr
      rcases h with rfl | rfl
      · exact ⟨_, rfl, (phase_conn true k [.connectRequest, .connected] rfl).2⟩
      · exact ⟨_, rfl, (phase_conn true k [.connectRequest, .connected] rfl).2⟩
    | p0 reg busy up h => cases hacc
    | p1 busy up => cases hacc
    | p2 th reg busy up refs h => cases hacc
    | p4 busy up refs hz => cases hr
    | p5 busy up refs hz => cases hacc
    | p7 st busy up refs k hz h => cases hr

/-- **The end is final.**  After a terminal event nothing more is delivered, whatever happens. -/
theorem end_is_final (is js : List WInp) (w w' : World) (h : wrun world is = some w)
    (h' : wrun w js = some w') :
    (phase false w.a.log = .ended → w'.a.log = w.a.log) ∧
    (phase true w.p.log = .ended → w'.p.log = w.p.log) := by
  have hi := wrun_inv js w w' (wrun_inv is world w inv_world h) h'
  obtain ⟨⟨l, hl⟩, m, hm⟩ := wrun_log js w w' h'
  constructor
  · intro he
    have ho := shA_order _ hi.a
    rw [hl] at ho ⊢
    rw [nothing_after false _ l he ho, List.append_nil]
  · intro he
    have ho := shP_order _ hi.p
    rw [hm] at ho ⊢
    rw [nothing_after true _ m he ho, List.append_nil]

/-- **References.**  No reference is dropped that is not held (that would be a crash, excluded by
`only_early_loss_crashes`), and none is left: after `DISCONNECTED` or `CONNECT_ERROR`, or a rejection
by the application, the reference of the connection has been dropped. -/
theorem reference_dropped (is : List WInp) (w : World) (h : wrun world is = some w) :
    (Event.disconnected ∈ w.a.log ∨ Event.connectError ∈ w.a.log → w.a.refs = 0) ∧
    (Event.disconnected ∈ w.p.log ∨ Event.connectError ∈ w.p.log ∨ w.p.gone = true → w.p.refs = 0) := by
  obtain ⟨ha, hp, _⟩ := wrun_inv is world w inv_world h
  generalize w.a = a at *
  generalize w.p = p at *
  constructor
  · intro hm
    cases ha with
    | a2 th up refs hz => exact hz
    | a6 st th up refs k hz h => exact hz
    | _ => simp [mem_rcv] at hm
  · intro hm
    cases hp with
    | p4 busy up refs hz => exact hz
    | p5 busy up refs hz => exact hz
    | p7 st busy up refs k hz h => exact hz
    | _ => simp [mem_rcv] at hm

/-- **Setup succeeds.**  From any state in which the active endpoint is connecting and served, and the
passive endpoint waits for the request or for the answer of its application, accepting leads to
`CONNECTED` on both sides. -/
theorem accept_connects (is : List WInp) (w : World) (h : wrun world is = some w)
    (ha : w.a.st = .connecting ∧ w.a.reg = true)
    (hp : (w.p.log = [] ∧ w.p.reg = true) ∨ w.p.ask = true) :
    ∃ js w', wrun w js = some w' ∧ Event.connected ∈ w'.a.log ∧ Event.connected ∈ w'.p.log := by
  obtain ⟨sa, sp, hc⟩ := wrun_inv is world w inv_world h
  have memA : Event.connected ∈ [Event.connected] := by simp
  have memP : Event.connected ∈ [Event.connectRequest, Event.connected] := by simp
  obtain ⟨a, p, toP, toA⟩ := w
  simp only at ha hp sa sp hc
  cases sa with
  | a1 th reg up refs hr =>
    obtain ⟨rfl, rfl⟩ := hr ha.2
    obtain rfl : reg = true := ha.2
    cases sp with
    | p0 reg busy upp hb =>
      obtain rfl : reg = true := by rcases hp with h | h; exact h.2; cases h
      obtain rfl : busy = false := hb rfl
      cases hc with
      | c0 =>
        exact ⟨[.atA .sockUp, .deliverP, .atP (.accept .ok), .deliverA, .deliverP], _, rfl, memA, memP⟩
      | c1 =>
        exact ⟨[.deliverP, .atP (.accept .ok), .deliverA, .deliverP], _, rfl, memA, memP⟩
    | p1 busy upp =>
      cases hc with
      | c2 => exact ⟨[.atP (.accept .ok), .deliverA, .deliverP], _, rfl, memA, memP⟩
    | p2 th reg busy up refs h => simp at hp
    | p3 reg busy up => simp at hp
    | p4 busy up refs hz => simp at hp
    | p5 busy up refs hz => simp at hp
    | p6 st reg busy up k h => simp at hp
    | p7 st busy up refs k hz h => simp at hp
  | a6 st th up refs k hz h => exact absurd ha.2 (by simp)
  | _ => exact absurd ha.1 (by simp)

/-- **The only crash.**  In a pair running this code, the process can crash only when a connection is
lost before the passive application has accepted it: the endpoint has no thread yet. -/
theorem only_early_loss_crashes (is : List WInp) (w : World) (h : wrun world is = some w) (i : WInp)
    (hc : wstep w i = none) :
    (i = .atP .hup ∨ i = .atP (.leave true)) ∧ w.p.thread = false := by
  have hi := wrun_inv is world w inv_world h
  rcases wstep_inv w hi i with ⟨w1, h1, _⟩ | ⟨_, j, rfl, hth, hj⟩
  · rw [hc] at h1; cases h1
  · rcases hj with rfl | rfl
    · exact ⟨Or.inl rfl, hth⟩
    · exact ⟨Or.inr rfl, hth⟩

/-! ### Defects -/

/-- An incoming connection that is lost before `CONNECT` arrives, or while the connect request is being
delivered, crashes the process: any client that connects and closes takes the daemon down. -/
theorem early_loss_defect :
    wrun world [.atP .readErr, .atP .hup] = none ∧
    wrun world [.atA (.connect true), .atA .sockUp, .deliverP, .atP (.leave true)] = none :=
  ⟨rfl, rfl⟩

/-- an endpoint whose socket is in no epoll set and that awaits no answer stays as it is -/
theorem frozen (e e' : Ep) (i : Inp) (o : List Msg) (h1 : e.reg = false) (h2 : e.ask = false)
    (h3 : e.busy = false) (h4 : e.st ≠ .init) (hs : step e i = some (e', o)) :
    e'.reg = false ∧ e'.ask = false ∧ e'.busy = false ∧ e'.st ≠ .init ∧ e'.log = e.log := by
  cases i with
  | connect ok =>
    simp only [step, connect, h4, if_false, Option.some.injEq, Prod.mk.injEq] at hs
    obtain ⟨rfl, rfl⟩ := hs; exact ⟨rfl, h2, h3, h4, rfl⟩
  | sockUp => simp [step, sockUp, h1] at hs; obtain ⟨rfl, rfl⟩ := hs; exact ⟨h1, h2, h3, h4, rfl⟩
  | msg m => simp [step, msg, h1] at hs; obtain ⟨rfl, rfl⟩ := hs; exact ⟨h1, h2, h3, h4, rfl⟩
  | readErr => simp [step, h1] at hs; obtain ⟨rfl, rfl⟩ := hs; exact ⟨h1, h2, h3, h4, rfl⟩
  | hup => simp [step, hup, h1] at hs; obtain ⟨rfl, rfl⟩ := hs; exact ⟨h1, h2, h3, h4, rfl⟩
  | leave b => simp [step, leave, h3] at hs; obtain ⟨rfl, rfl⟩ := hs; exact ⟨h1, h2, h3, h4, rfl⟩
  | accept r => simp [step, accept, h2] at hs; obtain ⟨rfl, rfl⟩ := hs; exact ⟨h1, h2, h3, h4, rfl⟩
  | reject => simp [step, reject, h2] at hs; obtain ⟨rfl, rfl⟩ := hs; exact ⟨h1, h2, h3, h4, rfl⟩
  | close =>
    simp only [step, Option.some.injEq, Prod.mk.injEq] at hs
    obtain ⟨rfl, rfl⟩ := hs
    unfold close
    repeat' split
    · exact ⟨h1, h2, h3, h4, rfl⟩
    · exact ⟨h1, h2, h3, by simp, rfl⟩
    · exact ⟨h1, h2, h3, h4, rfl⟩

theorem frozen_run (is : List Inp) : ∀ (e e' : Ep) (o : List Msg), e.reg = false → e.ask = false →
    e.busy = false → e.st ≠ .init → run e is = some (e', o) → e'.log = e.log := by
  induction is with
  | nil => intro e e' o _ _ _ _ h; cases h; rfl
  | cons i is ih =>
    intro e e' o h1 h2 h3 h4 h
    cases hs : step e i with
    | none => simp [run, hs] at h
    | some r =>
      simp only [run, hs, Option.bind_some] at h
      cases hr : run r.1 is with
      | none => rw [hr] at h; cases h
      | some r2 =>
        obtain ⟨e2, o2⟩ := r2
        rw [hr] at h
        obtain rfl : e2 = e' := by cases h; rfl
        obtain ⟨a, b, c, d, e5⟩ := frozen e r.1 i r.2 h1 h2 h3 h4 hs
        rw [ih r.1 e2 o2 a b c d hr, e5]

/-- A second `zap_connect` on a connected endpoint is refused, but it closes the socket of the first
connection: no terminal event is ever delivered. -/
theorem second_connect_defect :
    ∃ is e o, run newActive is = some (e, o) ∧ phase false e.log = .up ∧
      ∀ js e' o', run e js = some (e', o') → phase false e'.log = .up := by
  refine ⟨[.connect true, .sockUp, .msg .accepted, .connect true], _, _, rfl, rfl, ?_⟩
  intro js e' o' h
  rw [frozen_run js _ e' o' rfl rfl rfl (by decide) h]
  rfl

/-- A peer that sends `ACK` first is taken as connected: the application is told `CONNECTED` without a
request and without having accepted, and, as no thread serves the endpoint, never hears of it again. -/
theorem ack_first_defect :
    ∃ is e o, run newPassive is = some (e, o) ∧ e.log = [.connected] ∧ e.acc = false ∧
      ∀ js e' o', run e js = some (e', o') → e'.log = [.connected] := by
  refine ⟨[.msg .ack, .leave false], _, _, rfl, rfl, rfl, ?_⟩
  intro js e' o' h
  exact frozen_run js _ e' o' rfl rfl rfl (by decide) h

/-- A peer that sends `CONNECT` twice produces a second connect request on an accepted endpoint. -/
theorem repeated_request_defect :
    ∃ is e o, run newPassive is = some (e, o) ∧ e.log = [.connectRequest, .connectRequest] :=
  ⟨[.msg (.connect true), .accept .ok, .leave false, .msg (.connect true)], _, _, rfl, rfl⟩

/-- `CONNECT` on an established connection produces a connect request, also at the active side. -/
theorem stray_connect_defect :
    ∃ is e o, run newActive is = some (e, o) ∧ e.log = [.connected, .connectRequest] :=
  ⟨[.connect true, .sockUp, .msg .accepted, .msg (.connect true)], _, _, rfl, rfl⟩

/-! ### The hypotheses are met -/

/-- connect, accept, a message each way, close by the active side -/
def sample : List WInp :=
  [.atA (.connect true), .atA .sockUp, .deliverP, .atP (.accept .ok), .atP (.leave true), .deliverA,
   .sendA, .deliverP, .deliverP, .sendP, .deliverA, .atA .close, .atA .hup, .atP .readErr, .atP .hup]

example : (wrun world sample).map (fun w => (w.a.log, w.p.log)) = some
    ([.connected, .recv, .disconnected], [.connectRequest, .connected, .recv, .disconnected]) := by decide

example : (wrun world [.atA (.connect true), .atA .sockUp, .deliverP, .atP .reject, .atP (.leave false),
    .deliverA, .atA .hup]).map (fun w => (w.a.log, w.p.log, w.a.refs)) = some
    ([.rejected], [.connectRequest], 0) := by decide

example : ∃ w, wrun world (sample.take 11) = some w ∧ w.a.reg = true ∧ w.p.reg = true ∧ w.p.acc = true :=
  ⟨_, rfl, by decide, by decide, by decide⟩

example : ∃ w, wrun world [.atA (.connect true), .atA .sockUp, .deliverP] = some w ∧
    (w.a.st = .connecting ∧ w.a.reg = true) ∧ w.p.ask = true := ⟨_, rfl, by decide, by decide⟩

example : Polite false [.msg (.connect true), .accept .ok, .msg .ack, .msg .data, .msg .accepted] := by
  simp [Polite]

end Verif.ZapEp
