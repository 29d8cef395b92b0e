import Verif.Failover.Spec

namespace Verif.Failover

/-! ## Runs -/

theorem path_append {f g h : F} {a b : List Ev} (p : Path f a g) (q : Path g b h) :
    Path f (a ++ b) h := by
  induction p with
  | nil => exact q
  | cons v en st _ ih => exact .cons v en st (ih q)

theorem reach_path {tr tr' : List Ev} {f g : F} (h : Reach tr f) (p : Path f tr' g) :
    Reach (tr ++ tr') g := by
  induction p generalizing tr with
  | nil => simpa using h
  | cons v en st _ ih =>
    have := ih (.step v h en st)
    simpa using this

theorem path_reach {tr : List Ev} {f : F} (h : Reach tr f) : Path F.init tr f := by
  induction h with
  | init => exact .nil _
  | step v _ en st ih => exact path_append ih (.cons v en st (.nil _))

theorem run_path {f g : F} {tr : List Ev} (h : run f tr = some g) : Path f tr g := by
  induction tr generalizing f with
  | nil => simp only [run, Option.some.injEq] at h; subst h; exact .nil _
  | cons v tr ih =>
    simp only [run] at h
    split at h
    · rename_i en
      split at h
      · rename_i f1 st; exact .cons v en st (ih h)
      · cases h
    · cases h

theorem run_reach {g : F} {tr : List Ev} (h : run F.init tr = some g) : Reach tr g := by
  simpa using reach_path .init (run_path h)

/-! ## Lists of objects -/

/-- Nothing in the list is started. -/
def Still (l : List Obj) : Prop := ∀ o ∈ l, o.started = false

theorem anyStarted_false {f : F} : anyStarted f = false ↔ Still f.prdcrs ∧ Still f.updtrs := by
  simp [anyStarted, Still]

theorem stopObjs_mem {e : Env} {l : List Obj} {o : Obj} (h : o ∈ stopObjs e l) :
    ∃ o' ∈ l, o'.name = o.name ∧ (o.started = true → o'.started = true ∧ e.stopOk o.name = false) := by
  simp only [stopObjs, List.mem_map] at h
  obtain ⟨o', hm, rfl⟩ := h
  refine ⟨o', hm, ?_⟩
  split
  · exact ⟨rfl, by simp⟩
  · rename_i hc
    refine ⟨rfl, fun hs => ⟨hs, ?_⟩⟩
    simpa [hs] using hc

theorem stopObjs_has {e : Env} {l : List Obj} {o : Obj} (h : o ∈ l) :
    ∃ o' ∈ stopObjs e l, o'.name = o.name := by
  refine ⟨_, List.mem_map_of_mem h, ?_⟩
  split <;> rfl

theorem startObjs_mem {e : Env} {l : List Obj} {o : Obj} (h : o ∈ startObjs e l) :
    ∃ o' ∈ l, o'.name = o.name := by
  simp only [startObjs, List.mem_map] at h
  obtain ⟨o', hm, rfl⟩ := h
  refine ⟨o', hm, ?_⟩
  split <;> rfl

theorem startObjs_runs {e : Env} {l : List Obj} {o : Obj} (h : o ∈ l)
    (hs : o.started = true ∨ e.startOk o.name = true) :
    ∃ o' ∈ startObjs e l, o'.name = o.name ∧ o'.started = true := by
  refine ⟨_, List.mem_map_of_mem h, ?_⟩
  split
  · exact ⟨rfl, rfl⟩
  · rename_i hc
    refine ⟨rfl, ?_⟩
    rcases hs with hs | hs
    · exact hs
    · simpa [hs] using hc

theorem startObjs_has {e : Env} {l : List Obj} {o : Obj} (h : o ∈ l) :
    ∃ o' ∈ startObjs e l, o'.name = o.name := by
  refine ⟨_, List.mem_map_of_mem h, ?_⟩
  split <;> rfl

theorem delObjs_sub {e : Env} {l : List Obj} {o : Obj} (h : o ∈ delObjs e l) : o ∈ l :=
  (List.dropWhile_sublist _).subset h

theorem delObjs_all {e : Env} {l : List Obj} (h : ∀ n, e.delOk n = true) : delObjs e l = [] := by
  induction l with
  | nil => rfl
  | cons o l ih => simpa [delObjs, List.dropWhile_cons, h] using ih

theorem addObj_mem {e : Env} {n : Name} {l : List Obj} {o : Obj} (h : o ∈ addObj e n l) :
    o ∈ l ∨ o = { name := n, started := false } := by
  unfold addObj at h
  split at h
  · exact .inl h
  · split at h
    · simpa using h
    · exact .inl h

/-! ## The operations on the peer's configuration -/

theorem stop_objs (e : Env) (f : F) (k : Kind) :
    objs (peercfgStop e f).1 k = match k with
      | .strgp => f.strgps
      | .prdcr => stopObjs e f.prdcrs
      | .updtr => stopObjs e f.updtrs := by
  cases k <;> (simp only [peercfgStop]; split <;> rfl)

/-- What is not about the peer's objects. -/
structure Rest (f g : F) : Prop where
  svc : g.svc = f.svc
  conn : g.conn = f.conn
  pend : g.pend = f.pend
  link : g.link = f.link
  auto : g.auto = f.auto
  our : g.our = f.our
  ours : g.ours = f.ours
  interval : g.interval = f.interval
  num : g.num = f.num
  den : g.den = f.den
  rtt : g.rtt = f.rtt
  idx : g.idx = f.idx
  pingTs : g.pingTs = f.pingTs
  peer : g.peer = f.peer
  cfgd : g.cfgd = f.cfgd

theorem Rest.rfl' (f : F) : Rest f f :=
  ⟨rfl, rfl, rfl, rfl, rfl, rfl, rfl, rfl, rfl, rfl, rfl, rfl, rfl, rfl, rfl⟩

theorem stop_rest (e : Env) (f : F) : Rest f (peercfgStop e f).1 := by
  unfold peercfgStop; split <;> exact ⟨rfl, rfl, rfl, rfl, rfl, rfl, rfl, rfl, rfl, rfl, rfl, rfl, rfl, rfl, rfl⟩

theorem stop_received (e : Env) (f : F) : (peercfgStop e f).1.received = f.received := by
  unfold peercfgStop; split <;> rfl

theorem stop_true {e : Env} {f : F} (h : (peercfgStop e f).2 = true) :
    (peercfgStop e f).1.timeout = none ∧ (peercfgStop e f).1.activated = false ∧
    anyStarted (peercfgStop e f).1 = false := by
  unfold peercfgStop at h ⊢
  split
  · rename_i hc; rw [if_pos hc] at h; cases h
  · rename_i hc; exact ⟨rfl, rfl, eq_false_of_ne_true hc⟩

theorem stop_false {e : Env} {f : F} (h : (peercfgStop e f).2 = false) :
    (peercfgStop e f).1.timeout = f.timeout ∧ (peercfgStop e f).1.activated = f.activated ∧
    anyStarted (peercfgStop e f).1 = true := by
  unfold peercfgStop at h ⊢
  split
  · rename_i hc; exact ⟨rfl, rfl, hc⟩
  · rename_i hc; rw [if_neg hc] at h; cases h

theorem delete_rest (e : Env) (f : F) : Rest f (peercfgDelete e f) := by
  unfold peercfgDelete
  simp only
  split
  · split <;> exact ⟨rfl, rfl, rfl, rfl, rfl, rfl, rfl, rfl, rfl, rfl, rfl, rfl, rfl, rfl, rfl⟩
  · exact ⟨rfl, rfl, rfl, rfl, rfl, rfl, rfl, rfl, rfl, rfl, rfl, rfl, rfl, rfl, rfl⟩

theorem delete_more (e : Env) (f : F) : (peercfgDelete e f).timeout = f.timeout ∧
    (peercfgDelete e f).activated = f.activated ∧ (peercfgDelete e f).received = f.received := by
  unfold peercfgDelete
  simp only
  split
  · split <;> exact ⟨rfl, rfl, rfl⟩
  · exact ⟨rfl, rfl, rfl⟩

theorem delete_sub {e : Env} {f : F} {k : Kind} {o : Obj} (h : o ∈ objs (peercfgDelete e f) k) :
    o ∈ objs f k := by
  unfold peercfgDelete at h
  simp only at h
  split at h
  · split at h
    · cases k <;> exact delObjs_sub h
    · cases k
      · exact h
      · exact delObjs_sub h
      · exact delObjs_sub h
  · cases k
    · exact h
    · exact h
    · exact delObjs_sub h

theorem delete_all {e : Env} (f : F) (h : ∀ n, e.delOk n = true) (k : Kind) :
    objs (peercfgDelete e f) k = [] := by
  unfold peercfgDelete
  simp only [delObjs_all h, List.isEmpty_nil, if_true]
  cases k <;> rfl

theorem reset_rest (e : Env) (f : F) : Rest f (peercfgReset e f).1 := by
  unfold peercfgReset
  have h := stop_rest e f
  split
  · rename_i f1 he; rw [he] at h; exact h
  · rename_i f1 he; rw [he] at h
    have d := delete_rest e f1
    exact ⟨d.svc.trans h.svc, d.conn.trans h.conn, d.pend.trans h.pend, d.link.trans h.link,
      d.auto.trans h.auto, d.our.trans h.our, d.ours.trans h.ours, d.interval.trans h.interval,
      d.num.trans h.num, d.den.trans h.den, d.rtt.trans h.rtt, d.idx.trans h.idx,
      d.pingTs.trans h.pingTs, d.peer.trans h.peer, d.cfgd.trans h.cfgd⟩

theorem reset_true {e : Env} {f : F} (h : (peercfgReset e f).2 = true) :
    (peercfgReset e f).1.timeout = none ∧ (peercfgReset e f).1.received = false ∧
    (peercfgReset e f).1.activated = false ∧ anyStarted (peercfgReset e f).1 = false := by
  unfold peercfgReset at h ⊢
  split
  · rename_i f1 he; rw [he] at h; cases h
  · rename_i f1 he
    have s := stop_true (e := e) (f := f) (by rw [he])
    rw [he] at s
    have d := delete_more e f1
    refine ⟨d.1.trans s.1, rfl, d.2.1.trans s.2.1, ?_⟩
    have s3 := anyStarted_false.1 s.2.2
    exact anyStarted_false.2
      ⟨fun o ho => s3.1 o (delete_sub (k := .prdcr) ho),
       fun o ho => s3.2 o (delete_sub (k := .updtr) ho)⟩

theorem reset_false {e : Env} {f : F} (h : (peercfgReset e f).2 = false) :
    (peercfgReset e f).1 = (peercfgStop e f).1 ∧ (peercfgStop e f).2 = false := by
  unfold peercfgReset at h ⊢
  split
  · rename_i f1 he; exact ⟨by rw [he], by rw [he]⟩
  · rename_i f1 he; rw [he] at h; cases h

theorem reset_sub {e : Env} {f : F} {k : Kind} {o : Obj}
    (h : o ∈ objs (peercfgReset e f).1 k) : o ∈ objs (peercfgStop e f).1 k := by
  unfold peercfgReset at h
  split at h
  · rename_i f1 he; rw [he]; exact h
  · rename_i f1 he; rw [he]; exact delete_sub (e := e) (by cases k <;> exact h)

theorem reset_all {e : Env} {f : F} (hd : ∀ n, e.delOk n = true)
    (h : (peercfgReset e f).2 = true) (k : Kind) : objs (peercfgReset e f).1 k = [] := by
  unfold peercfgReset at h ⊢
  split
  · rename_i f1 he; rw [he] at h; cases h
  · rename_i f1 he
    have := delete_all f1 hd k
    cases k <;> exact this

theorem start_rest (e : Env) (f : F) : Rest f (peercfgStart e f) :=
  ⟨rfl, rfl, rfl, rfl, rfl, rfl, rfl, rfl, rfl, rfl, rfl, rfl, rfl, rfl, rfl⟩

theorem tryStart_cases (e : Env) (f : F) :
    tryStart e f = f ∨ (tryStart e f = peercfgStart e f ∧ f.auto = true ∧ f.received = true ∧
      ∃ t, f.timeout = some t ∧ t ≤ e.now) := by
  unfold tryStart
  split
  · exact .inl rfl
  · rename_i ha
    split
    · exact .inl rfl
    · rename_i hr
      split
      · exact .inl rfl
      · rename_i t ht
        split
        · exact .inl rfl
        · rename_i hn
          exact .inr ⟨rfl, by simpa using ha, by simpa using hr, t, ht, by omega⟩

theorem tryStart_rest (e : Env) (f : F) : Rest f (tryStart e f) := by
  rcases tryStart_cases e f with h | ⟨h, _⟩
  · rw [h]; exact .rfl' f
  · rw [h]; exact start_rest e f

theorem tryStart_more (e : Env) (f : F) : (tryStart e f).timeout = f.timeout ∧
    (tryStart e f).received = f.received := by
  rcases tryStart_cases e f with h | ⟨h, _⟩ <;> rw [h] <;> exact ⟨rfl, rfl⟩

/-! ## What a step does to the objects -/

/-- `g` has no object and runs none that `f` does not. -/
def Shrinks (f g : F) : Prop :=
  ∀ k, ∀ o ∈ objs g k, ∃ o' ∈ objs f k, o'.name = o.name ∧ (o.started = true → o'.started = true)

theorem Shrinks.same {f g : F} (h : ∀ k, objs g k = objs f k) : Shrinks f g :=
  fun k o ho => ⟨o, h k ▸ ho, rfl, id⟩

theorem Shrinks.trans {f g h : F} (a : Shrinks f g) (b : Shrinks g h) : Shrinks f h := by
  intro k o ho
  obtain ⟨o1, h1, n1, s1⟩ := b k o ho
  obtain ⟨o2, h2, n2, s2⟩ := a k o1 h1
  exact ⟨o2, h2, n2.trans n1, fun h => s2 (s1 h)⟩

theorem stop_shrinks (e : Env) (f : F) : Shrinks f (peercfgStop e f).1 := by
  intro k o ho
  rw [stop_objs] at ho
  cases k
  · obtain ⟨o', hm, hn, hs⟩ := stopObjs_mem ho; exact ⟨o', hm, hn, fun h => (hs h).1⟩
  · obtain ⟨o', hm, hn, hs⟩ := stopObjs_mem ho; exact ⟨o', hm, hn, fun h => (hs h).1⟩
  · exact ⟨o, ho, rfl, id⟩

theorem reset_shrinks (e : Env) (f : F) : Shrinks f (peercfgReset e f).1 :=
  fun k o ho => stop_shrinks e f k o (reset_sub ho)

theorem heard_shrinks (e : Env) (f : F) : Shrinks f (heard e f) := by
  have h0 : Shrinks f (record f (roundTrip f.pingTs e.now)) := .same fun k => by cases k <;> rfl
  unfold heard
  simp only
  split
  · exact h0.trans (stop_shrinks e _)
  · exact h0

theorem resetAndRequest_objs (e : Env) (f : F) (k : Kind) :
    objs (resetAndRequest e f).1 k = objs (peercfgReset e f).1 k := by
  unfold resetAndRequest
  split
  · rename_i f1 he; rw [he]
  · rename_i f1 he; rw [he]
    unfold requestPeercfg
    split <;> cases k <;> rfl

theorem resetAndRequest_shrinks (e : Env) (f : F) : Shrinks f (resetAndRequest e f).1 :=
  fun k o ho => reset_shrinks e f k o (by rwa [← resetAndRequest_objs])

theorem pair_objs (e : Env) (f : F) (k : Kind) : objs (pair e f) k = objs f k := by
  unfold pair; cases k <;> (split; · rfl) <;> (split <;> rfl)

theorem ping_objs (e : Env) (f : F) (k : Kind) : objs (ping e f) k = objs f k := by
  unfold ping; cases k <;> (split; · rfl) <;> (split <;> rfl)

theorem connect_objs (e : Env) (f : F) (k : Kind) : objs (connect e f) k = objs f k := by
  unfold connect; cases k <;> split <;> rfl

theorem sendReset_objs (e : Env) (f : F) (k : Kind) : objs (sendReset e f) k = objs f k := by
  unfold sendReset; cases k <;> (split; · rfl) <;> (split <;> rfl)

theorem tryStop_shrinks (e : Env) (f : F) : Shrinks f (tryStop e f) := by
  have h := reset_shrinks e f
  unfold tryStop
  split
  · rename_i f1 he; rw [he] at h; exact h
  · rename_i f1 he; rw [he] at h
    split
    · exact h
    · exact h.trans (.same (sendReset_objs e f1))
    · exact h.trans (.same fun k => by cases k <;> rfl)
    all_goals try exact h.trans (.same fun k => (sendReset_objs e _ k).trans (by cases k <;> rfl))
    · exact h.trans (.same fun k => by cases k <;> rfl)

/-- The events on which objects of the peer are started. -/
def Starter (f : F) (v : Ev) (k : Kind) : Prop :=
  k ≠ .strgp ∧ ((∃ e, v = .peercfgStartCmd e) ∨
    ∃ e t, v = .task e ∧ f.svc = .start ∧ f.auto = true ∧ f.received = true ∧
      f.timeout = some t ∧ t ≤ e.now)

/-- Every object after a step was there before or was just sent, and it ran before
or is started by this step. -/
def Explained (f : F) (v : Ev) (g : F) : Prop :=
  ∀ k, ∀ o ∈ objs g k,
    (∃ o' ∈ objs f k, o'.name = o.name ∧ (o.started = true → o'.started = true ∨ Starter f v k)) ∨
    (∃ e, v = .cfgReq e k o.name ∧ o.started = false)

theorem Explained.shrink {f g : F} {v : Ev} (h : Shrinks f g) : Explained f v g := by
  intro k o ho
  obtain ⟨o', hm, hn, hs⟩ := h k o ho
  exact .inl ⟨o', hm, hn, fun h => .inl (hs h)⟩

theorem start_explained {f g : F} {v : Ev} (e : Env) (h : Shrinks f g)
    (hst : ∀ k, k ≠ .strgp → Starter f v k) : Explained f v (peercfgStart e g) := by
  intro k o ho
  cases k
  · obtain ⟨o1, h1, n1⟩ := startObjs_mem ho
    obtain ⟨o2, h2, n2, _⟩ := h .prdcr o1 h1
    exact .inl ⟨o2, h2, n2.trans n1, fun _ => .inr (hst .prdcr (by decide))⟩
  · obtain ⟨o1, h1, n1⟩ := startObjs_mem ho
    obtain ⟨o2, h2, n2, _⟩ := h .updtr o1 h1
    exact .inl ⟨o2, h2, n2.trans n1, fun _ => .inr (hst .updtr (by decide))⟩
  · obtain ⟨o2, h2, n2, s2⟩ := h .strgp o ho
    exact .inl ⟨o2, h2, n2, fun h => .inl (s2 h)⟩

theorem tryStart_explained {f g : F} (e : Env) (h : Shrinks f g) (hsvc : f.svc = .start)
    (hk : g.timeout ≠ none → g.auto = f.auto ∧ g.received = f.received ∧ g.timeout = f.timeout) :
    Explained f (.task e) (tryStart e g) := by
  rcases tryStart_cases e g with he | ⟨he, ha, hr, t, ht, hn⟩
  · rw [he]; exact .shrink h
  · rw [he]
    obtain ⟨k1, k2, k3⟩ := hk (by rw [ht]; simp)
    exact start_explained e h fun k hk => ⟨hk, .inr ⟨e, t, rfl, hsvc, k1 ▸ ha, k2 ▸ hr, k3 ▸ ht, hn⟩⟩

theorem pair_keeps (e : Env) (f : F) : (pair e f).auto = f.auto ∧
    (pair e f).received = f.received ∧ (pair e f).timeout = f.timeout := by
  unfold pair; split
  · exact ⟨rfl, rfl, rfl⟩
  · split <;> exact ⟨rfl, rfl, rfl⟩

theorem ping_keeps (e : Env) (f : F) : (ping e f).auto = f.auto ∧
    (ping e f).received = f.received ∧ (ping e f).timeout = f.timeout := by
  unfold ping; split
  · exact ⟨rfl, rfl, rfl⟩
  · split <;> exact ⟨rfl, rfl, rfl⟩

theorem connect_keeps (e : Env) (f : F) : (connect e f).auto = f.auto ∧
    (connect e f).received = f.received ∧ (connect e f).timeout = f.timeout := by
  unfold connect; split <;> exact ⟨rfl, rfl, rfl⟩

theorem resetAndRequest_cases (e : Env) (f : F) :
    ((resetAndRequest e f).2 = false ∧ (resetAndRequest e f).1 = (peercfgReset e f).1 ∧
      (peercfgReset e f).2 = false) ∨
    ((peercfgReset e f).2 = true ∧ (resetAndRequest e f) =
      requestPeercfg e { (peercfgReset e f).1 with conn := .configuring }) := by
  unfold resetAndRequest
  split
  · rename_i f1 he; rw [he]; exact .inl ⟨rfl, rfl, rfl⟩
  · rename_i f1 he; rw [he]; exact .inr ⟨rfl, rfl⟩

theorem resetAndRequest_timeout (e : Env) (f : F) : (resetAndRequest e f).1.timeout = none ∨
    ((resetAndRequest e f).1.auto = f.auto ∧ (resetAndRequest e f).1.received = f.received ∧
     (resetAndRequest e f).1.timeout = f.timeout) := by
  rcases resetAndRequest_cases e f with ⟨_, he, h2⟩ | ⟨h2, he⟩
  · obtain ⟨h3, h4⟩ := reset_false h2
    rw [he, h3]
    exact .inr ⟨(stop_rest e f).auto, stop_received e f, (stop_false h4).1⟩
  · left; rw [he]; unfold requestPeercfg; split <;> exact (reset_true h2).1

theorem step_explained {f g : F} {v : Ev} (h : step f v = some g) : Explained f v g := by
  cases v with
  | task e =>
    simp only [step, task] at h
    split at h
    · cases h
    · rename_i hs
      unfold activeRoutine at h
      split at h
      · cases h
        exact tryStart_explained e (.same (connect_objs e f)) hs fun _ => connect_keeps e f
      · cases h
        exact tryStart_explained e (.same (pair_objs e f)) hs fun _ => pair_keeps e f
      · cases h
        refine tryStart_explained e (resetAndRequest_shrinks e f) hs fun hn => ?_
        rcases resetAndRequest_timeout e f with ht | ht
        · exact absurd ht hn
        · exact ht
      all_goals first
        | (cases h; exact tryStart_explained e (.same fun _ => rfl) hs fun _ => ⟨rfl, rfl, rfl⟩)
        | (cases h; exact tryStart_explained e (.same (ping_objs e f)) hs fun _ => ping_keeps e f)
        | cases h
    · cases h; exact .shrink (tryStop_shrinks e f)
  | connected e =>
    simp only [step, onConnected] at h
    split at h
    · cases h; exact .shrink (.same fun k => (pair_objs e _ k).trans (by cases k <;> rfl))
    · cases h
  | disconnected => simp only [step] at h; cases h; exact .shrink (.same fun k => by cases k <;> rfl)
  | pairResp e err =>
    simp only [step, onPairResp] at h
    split at h
    · split at h
      · cases h; exact .shrink (.same fun k => by cases k <;> rfl)
      · split at h
        · cases h; exact .shrink (.same fun k => by cases k <;> rfl)
        · have hs := resetAndRequest_shrinks e { answered .pair f with conn := .resetting }
          have h0 : Shrinks f { answered .pair f with conn := .resetting } :=
            .same fun k => by cases k <;> rfl
          split at h
          · rename_i f1 he; cases h; rw [he] at hs; exact .shrink (h0.trans hs)
          · rename_i f1 he; cases h; rw [he] at hs
            exact .shrink ((h0.trans hs).trans (.same fun k => by cases k <;> rfl))
    · cases h
  | peercfgResp err =>
    simp only [step, onPeercfgResp] at h
    split at h <;> (cases h; exact .shrink (.same fun k => by cases k <;> rfl))
  | pingResp e d =>
    simp only [step, Option.some.injEq] at h
    subst h
    have h1 : Shrinks f (heard e (answered .ping f)) :=
      (Shrinks.same (fun k => by cases k <;> rfl)).trans (heard_shrinks e (answered .ping f))
    unfold onPingResp
    split
    · exact .shrink (h1.trans (.same fun k => by cases k <;> rfl))
    · exact .shrink (h1.trans (.same fun k => by cases k <;> rfl))
  | resetResp err =>
    simp only [step, onResetResp, Option.some.injEq] at h
    subst h
    split <;> exact .shrink (.same fun k => by cases k <;> rfl)
  | startCmd e =>
    simp only [step, startCmd, Option.some.injEq] at h
    subst h
    split
    · exact .shrink (.same fun _ => rfl)
    · split <;> exact .shrink (.same fun k => by cases k <;> rfl)
  | stopCmd =>
    simp only [step, stopCmd, Option.some.injEq] at h
    subst h
    split <;> exact .shrink (.same fun k => by cases k <;> rfl)
  | configCmd c =>
    simp only [step, configCmd, Option.some.injEq] at h
    subst h
    split
    · exact .shrink (.same fun k => by cases k <;> rfl)
    · split <;> exact .shrink (.same fun k => by cases k <;> rfl)
  | modCmd b => simp only [step] at h; cases h; exact .shrink (.same fun k => by cases k <;> rfl)
  | peercfgStartCmd e =>
    simp only [step] at h; cases h
    exact start_explained e (.same fun _ => rfl) fun k hk => ⟨hk, .inl ⟨e, rfl⟩⟩
  | peercfgStopCmd e => simp only [step] at h; cases h; exact .shrink (stop_shrinks e f)
  | resetReq e =>
    simp only [step, resetReq, Option.some.injEq] at h
    subst h
    split
    · exact .shrink ((Shrinks.same (fun k => by cases k <;> rfl)).trans (reset_shrinks e _))
    · exact .shrink (reset_shrinks e f)
    · exact .shrink (.same fun _ => rfl)
  | cfgReq e k n =>
    simp only [step, cfgReq] at h
    split at h
    · intro k' o ho
      cases k <;> (simp only [Option.some.injEq] at h; subst h; cases k') <;>
      first
      | exact .inl ⟨o, ho, rfl, .inl⟩
      | (rcases addObj_mem ho with hm | rfl
         · exact .inl ⟨o, hm, rfl, .inl⟩
         · exact .inr ⟨e, rfl, rfl⟩)
    · cases h

end Verif.Failover
