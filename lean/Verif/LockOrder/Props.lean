import Verif.LockOrder.Alone

/-!
# C58: the aggregator does not hang on its own locks

Full statement: whatever its threads do (updates, lookups, directories,
connections, commands), they never wait for each other for ever, every routine
that began can end, and none leaves a lock behind.

The full statement is false of the code.  It is proved for everything but
starting and stopping storage policies, requests that come from the peer of a
producer, and the closing of stores at exit (`Orderly`); for each of those there
is a theorem `_defect` with a run that ends in a deadlock.
-/

namespace Verif.LockOrder

/-- A lock has one holder. -/
theorem one_holder (A : Routine → Prop) (hA : ∀ r, A r → Tidy r) (s : State) (h : Reach A s)
    (t u : Nat) (l : Lock) (h1 : l ∈ (s t).held) (h2 : l ∈ (s u).held) : t = u :=
  (inv_reach (R := (· ≠ ·)) (fun r hr => ok_code_tidy r (hA r hr)) h).one t u l h1 h2

/-- A thread that has done its work has released all its locks. -/
theorem done_holds_nothing (A : Routine → Prop) (hA : ∀ r, A r → Tidy r) (s : State)
    (h : Reach A s) (t : Nat) (hd : (s t).rest = []) : (s t).held = [] :=
  idle_held (inv_reach (R := (· ≠ ·)) (fun r hr => ok_code_tidy r (hA r hr)) h) hd

/-- No threads ever wait for each other.  Missing: see the head of the file. -/
theorem no_deadlock_partial (s : State) (h : Reach Orderly s) : ¬ Deadlock s :=
  no_deadlock_of_inv (inv_reach ok_code h)

/-- Whatever state the threads are in, they can all end what they do.
Missing: see the head of the file. -/
theorem all_can_finish_partial (s : State) (h : Reach Orderly s) :
    ∃ s', Finish s s' ∧ ∀ t, Idle s' t := by
  have i := inv_reach ok_code h
  obtain ⟨n, hn⟩ := i.fin
  exact finish_of_inv (R := Below) (fun _ => True) (fun _ _ _ _ _ => trivial)
    (fun s i _ => no_deadlock_of_inv i) n (left s n) s rfl i trivial hn

/-- In whatever order they go on, as long as no routine begins: they cannot get
stuck before all is done.  Missing: see the head of the file. -/
theorem stuck_means_done_partial (s s' : State) (h : Reach Orderly s) (hf : Finish s s')
    (hs : ¬ ∃ s'', Step (fun _ => False) s' s'') (t : Nat) : Idle s' t := by
  have i := inv_finish (inv_reach ok_code h) hf
  have e : (s' t).rest = [] := by
    by_cases e : (s' t).rest = []
    · exact e
    · obtain ⟨_, s'', hst, _⟩ := progress i (no_deadlock_of_inv i) ⟨t, e⟩
      exact absurd ⟨s'', hst⟩ hs
  exact ⟨e, idle_held i e⟩

/-- And they do not go on for ever. -/
theorem no_endless_run (A : Routine → Prop) (hA : ∀ r, A r → Tidy r) (s : State) (h : Reach A s) :
    ¬ ∃ f : Nat → State, f 0 = s ∧ ∀ k, Step (fun _ => False) (f k) (f (k + 1)) := by
  rintro ⟨f, h0, hf⟩
  obtain ⟨n, hn⟩ := (inv_reach (R := (· ≠ ·)) (fun r hr => ok_code_tidy r (hA r hr)) h).fin
  exact no_endless (left (f 0) n) f rfl (by rw [h0]; exact hn) hf

/-- When one thread is at work and the others are not, even the start or stop of
a storage policy comes to its end: configuration that is read before anything
runs does not hang. -/
theorem alone_finishes (s : State) (h : Reach Tidy s) (t : Nat) (ha : ∀ u, u ≠ t → Idle s u) :
    ¬ Deadlock s ∧ ∃ s', Finish s s' ∧ ∀ u, Idle s' u := by
  have i : Inv (· ≠ ·) s := inv_reach ok_code_tidy h
  have o : Only t s := fun u hu => (ha u hu).1
  obtain ⟨n, hn⟩ := i.fin
  exact ⟨only_no_deadlock i o, finish_of_inv (R := (· ≠ ·)) (Only t)
    (fun _ _ _ q hs => only_step q hs) (fun s i q => only_no_deadlock i q)
    n (left s n) s rfl i o hn⟩

/-! ### Non-vacuity: threads that really wait -/

/-- Three threads at work: an updater's task has the updater and waits for the
producer; the producer's directory callback has the producer and waits for the
set; an update that completed has the set and is about to lock the policy. -/
def busy : List (Nat × Option Routine) :=
  [(0, some (.updtrTask 7 [1])), (1, some (.dirUpd 1 [(4, some [(7, true)])])),
   (2, some (.updateDone 4 [9])),
   (0, none), (0, none), (1, none), (2, none)]

def busyEnd : List Thr :=
  [⟨[.updtr 7, .updtrTask 7], [.acq (.prdcr 1), .rel (.prdcr 1), .rel (.updtr 7), .rel (.updtrTask 7)]⟩,
   ⟨[.prdcr 1], [.acq (.set 4), .rel (.set 4), .rel (.prdcr 1), .acq .updtrTree, .acq (.updtr 7),
      .acq (.set 4), .rel (.set 4), .rel (.updtr 7), .rel .updtrTree, .acq (.prdcr 1),
      .rel (.prdcr 1)]⟩,
   ⟨[.set 4], [.acq (.strgp 9), .rel (.strgp 9), .rel (.set 4)]⟩]

theorem busy_reach : Reach Orderly (ofList busyEnd) :=
  acts_reach (as := busy) (l := List.replicate 3 ⟨[], []⟩) (by
    intro a ha r hr
    simp only [busy, List.mem_cons, List.not_mem_nil, or_false] at ha
    rcases ha with e | e | e | e | e | e | e <;> subst e <;> cases hr <;> exact trivial)
    (reach_idle 3) rfl

example : Waits (ofList busyEnd) 0 1 ∧ Waits (ofList busyEnd) 1 2 ∧ ¬ Deadlock (ofList busyEnd) :=
  ⟨⟨.prdcr 1, _, rfl, by decide⟩, ⟨.set 4, _, rfl, by decide⟩,
    no_deadlock_partial _ busy_reach⟩

example : ∃ s', Finish (ofList busyEnd) s' ∧ ∀ t, Idle s' t := all_can_finish_partial _ busy_reach

example : Tidy (.strgpStartStop 3 [(1, [4, 5]), (2, [])]) ∧ ¬ Orderly (.strgpStartStop 3 [(1, [4])]) :=
  ⟨trivial, fun h => h⟩

/-- The configuration file is read by one thread, and a policy is started in it. -/
example : ∃ s', Finish (ofList [⟨[], code (.strgpStartStop 3 [(1, [4, 5])])⟩]) s' ∧
    ∀ u, Idle s' u :=
  (alone_finishes _
    (acts_reach (A := Tidy) (as := [(0, some (.strgpStartStop 3 [(1, [4, 5])]))])
      (l := List.replicate 1 ⟨[], []⟩) (by
        intro a ha r hr
        simp only [List.mem_cons, List.not_mem_nil, or_false] at ha
        subst ha; cases hr; exact trivial) (reach_idle 1) rfl)
    0 (fun u hu => by
      cases u with
      | zero => exact absurd rfl hu
      | succ u => exact ⟨rfl, rfl⟩)).2

/-! ### What the full statement lacks -/

/-- Starting (or stopping) a storage policy while a set of a producer it covers
is updated and another is reported deleted: the command has the policy and waits
for the producer, the deletion has the producer and waits for the set, the
completed update has the set and waits for the policy. -/
theorem policy_command_deadlock_defect :
    ∃ s, Reach (fun r => r = .strgpStartStop 0 [(0, [0])] ∨ r = .setGone 0 0
        ∨ r = .updateDone 0 [0]) s ∧ Deadlock s := by
  refine ⟨ofList _, acts_reach (as := [(0, some (.strgpStartStop 0 [(0, [0])])),
    (1, some (.setGone 0 0)), (2, some (.updateDone 0 [0])),
    (0, none), (0, none), (0, none), (0, none), (1, none), (2, none)])
    (l := List.replicate 3 ⟨[], []⟩) ?_ (reach_idle 3) rfl, [0, 1, 2], by simp, ?_⟩
  · intro a ha r hr
    simp only [List.mem_cons, List.not_mem_nil, or_false] at ha
    rcases ha with e | e | e | e | e | e | e | e | e <;> subst e <;> cases hr <;> simp
  · intro t ht
    simp only [List.mem_cons, List.not_mem_nil, or_false] at ht
    rcases ht with e | e | e <;> subst e
    · exact ⟨1, by simp, .prdcr 0, _, rfl, by decide⟩
    · exact ⟨2, by simp, .set 0, _, rfl, by decide⟩
    · exact ⟨0, by simp, .strgp 0, _, rfl, by decide⟩

/-- Two commands that start or stop the same storage policy are enough: the
first released the policy to lock a set, the second has taken it and waits for
the list of producers, which the first has. -/
theorem two_commands_deadlock_defect :
    ∃ s, Reach (fun r => r = .strgpStartStop 0 [(0, [0])]) s ∧ Deadlock s := by
  refine ⟨ofList _, acts_reach (as := [(0, some (.strgpStartStop 0 [(0, [0])])),
    (1, some (.strgpStartStop 0 [(0, [0])])),
    (0, none), (0, none), (0, none), (0, none), (0, none), (0, none),
    (1, none), (1, none), (1, none), (0, none)])
    (l := List.replicate 2 ⟨[], []⟩) ?_ (reach_idle 2) rfl, [0, 1], by simp, ?_⟩
  · intro a ha r hr
    simp only [List.mem_cons, List.not_mem_nil, or_false] at ha
    rcases ha with e | e | e | e | e | e | e | e | e | e | e | e <;> subst e <;> cases hr <;> simp
  · intro t ht
    simp only [List.mem_cons, List.not_mem_nil, or_false] at ht
    rcases ht with e | e <;> subst e
    · exact ⟨1, by simp, .strgp 0, _, rfl, by decide⟩
    · exact ⟨0, by simp, .prdcrTree, _, rfl, by decide⟩

/-- The start of all that is configured has the list of policies while it waits
for a set; a lookup that completes has the set and waits for the list. -/
theorem start_all_deadlock_defect :
    ∃ s, Reach (fun r => r = .startAll [0] [] [(0, [(0, [0])])] ∨ r = .lookupDone 0 true [0] []) s
      ∧ Deadlock s := by
  refine ⟨ofList _, acts_reach (as := [(0, some (.startAll [0] [] [(0, [(0, [0])])])),
    (1, some (.lookupDone 0 true [0] [])), (1, none),
    (0, none), (0, none), (0, none), (0, none), (0, none), (0, none),
    (0, none), (0, none), (0, none), (0, none), (0, none)])
    (l := List.replicate 2 ⟨[], []⟩) ?_ (reach_idle 2) rfl, [0, 1], by simp, ?_⟩
  · intro a ha r hr
    simp only [List.mem_cons, List.not_mem_nil, or_false] at ha
    rcases ha with e | e | e | e | e | e | e | e | e | e | e | e | e | e <;> subst e <;>
      cases hr <;> simp
  · intro t ht
    simp only [List.mem_cons, List.not_mem_nil, or_false] at ht
    rcases ht with e | e <;> subst e
    · exact ⟨1, by simp, .set 0, _, rfl, by decide⟩
    · exact ⟨0, by simp, .strgpTree, _, rfl, by decide⟩

/-- The peer of any producer makes the aggregator wait for itself by asking for
the status of that producer. -/
theorem peer_request_deadlock_defect (p : Nat) :
    ∃ s, Reach (fun r => r = .peerRequest p (.prdcrCmd p)) s ∧ Deadlock s := by
  refine ⟨ofList _, acts_reach (as := [(0, some (.peerRequest p (.prdcrCmd p))),
    (0, none), (0, none), (0, none)])
    (l := List.replicate 1 ⟨[], []⟩) ?_ (reach_idle 1)
    (show _ = some [⟨[.prdcr p], [.acq (.prdcr p), .rel (.prdcr p), .rel (.prdcr p)]⟩] from ?_),
    [0], by simp, ?_⟩
  · intro a ha r hr
    simp only [List.mem_cons, List.not_mem_nil, or_false] at ha
    rcases ha with e | e | e | e <;> subst e <;> cases hr <;> simp
  · simp [acts, act, code, hold]
  · intro t ht
    simp only [List.mem_cons, List.not_mem_nil, or_false] at ht
    subst ht
    exact ⟨0, by simp, .prdcr p, _, rfl, by simp [ofList]⟩

/-- Closing the stores leaves a policy that was not running locked, with nobody
at work. -/
theorem close_leaves_locked_defect (s : Nat) :
    ∃ st, Reach (fun r => r = .closeStores [(s, false)]) st ∧
      (∀ t, (st t).rest = []) ∧ Lock.strgp s ∈ (st 0).held := by
  refine ⟨ofList _, acts_reach (as := [(0, some (.closeStores [(s, false)])), (0, none)])
    (l := List.replicate 1 ⟨[], []⟩) ?_ (reach_idle 1)
    (show _ = some [⟨[.strgp s], []⟩] from ?_), ?_, by simp [ofList]⟩
  · intro a ha r hr
    simp only [List.mem_cons, List.not_mem_nil, or_false] at ha
    rcases ha with e | e <;> subst e <;> cases hr <;> simp
  · simp [acts, act, code, each]
  · intro t
    cases t with
    | zero => rfl
    | succ t => rfl

end Verif.LockOrder
