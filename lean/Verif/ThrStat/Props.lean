import Verif.ThrStat.Model

/-!
# C30: thread statistics
-/

namespace Verif.ThrStat

/-! ## specification -/

/-- the last `k` elements -/
def lastN (k : Nat) (l : List Nat) : List Nat := l.drop (l.length - k)

/-- time spent working: from waking up (first at `t0`) to going to sleep, in whole microseconds -/
def busy (t0 : Nat) : List (Nat × Nat) → List Nat
  | [] => []
  | c :: cs => (c.1 - t0) / 1000 :: busy c.2 cs

/-- time spent asleep -/
def idle (cs : List (Nat × Nat)) : List Nat := cs.map fun c => (c.2 - c.1) / 1000

/-! ## one window -/

/-- what is known about a window that has been given the samples `l` -/
structure WInv (k : Nat) (l : List Nat) (w : Win) : Prop where
  len : w.window.length = k
  cnt : w.count = l.length
  recent : ∀ j, j < l.length → l.length ≤ j + k → w.window.getD (j % k) 0 = l.getD j 0
  unused : ∀ i, l.length ≤ i → i < k → w.window.getD i 0 = 0
  sum : w.sum = (lastN k l).sum % M
  tot : w.tot = l.sum % M

theorem winv_new (k : Nat) : WInv k [] (Win.new k) := by
  refine ⟨by simp [Win.new], rfl, ?_, ?_, by simp [lastN, Win.new], by simp [Win.new]⟩
  · intro j hj; cases hj
  · intro i _ hi
    simp [Win.new, List.getD_eq_getElem?_getD, List.getElem?_replicate, hi]

theorem getD_append_left {l m : List Nat} {i : Nat} (h : i < l.length) :
    (l ++ m).getD i 0 = l.getD i 0 := by
  simp [List.getD_eq_getElem?_getD, List.getElem?_append_left h]

theorem winv_step {k : Nat} (hk : 0 < k) {l : List Nat} {w : Win} (h : WInv k l w)
    (hb : ∀ x ∈ l, x < M) {v : Nat} : WInv k (l ++ [v]) (accumulate w v) := by
  obtain ⟨h1, h2, h3, h4, h5, h6⟩ := h
  have hi : l.length % k < k := Nat.mod_lt _ hk
  have hset : ∀ i, (w.window.set (l.length % k) v).getD i 0 =
      if i = l.length % k then v else w.window.getD i 0 := by
    intro i
    simp only [List.getD_eq_getElem?_getD, List.getElem?_set, h1]
    by_cases hc : l.length % k = i
    · rw [if_pos hc, if_pos hc.symm, if_pos hi]; rfl
    · rw [if_neg hc, if_neg (fun h => hc h.symm)]
  have e0 : accumulate w v = ⟨l.length + 1, (w.sum + (M - w.window.getD (l.length % k) 0) + v) % M,
      w.window.set (l.length % k) v, (w.tot + v) % M⟩ := by
    simp only [accumulate, h1, h2]
  rw [e0]
  refine ⟨by simp [h1], by simp, ?_, ?_, ?_, ?_⟩
  · intro j hj hjk
    simp only [List.length_append, List.length_singleton] at hj hjk
    rw [hset]
    by_cases hjl : j = l.length
    · rw [if_pos (by rw [hjl]), hjl]; simp [List.getD_eq_getElem?_getD]
    · rw [if_neg, getD_append_left (by omega)]
      · exact h3 j (by omega) (by omega)
      · intro he
        -- two positions less than `k` apart
        have hd : (l.length - j) % k = 0 := by
          have e : l.length = j + (l.length - j) := by omega
          have h7 : (j + (l.length - j)) % k = j % k := by rw [← e]; exact he.symm
          have h8 := Nat.sub_mod_eq_zero_of_mod_eq (h7)
          rwa [Nat.add_sub_cancel_left] at h8
        rw [Nat.mod_eq_of_lt (by omega)] at hd
        omega
  · intro i hil hik
    simp only [List.length_append, List.length_singleton] at hil
    rw [hset, if_neg]
    · exact h4 i (by omega) hik
    · rw [Nat.mod_eq_of_lt (by omega)]; omega
  · show (w.sum + (M - w.window.getD (l.length % k) 0) + v) % M = (lastN k (l ++ [v])).sum % M
    rw [h5]
    by_cases hlk : l.length < k
    · have e1 : w.window.getD (l.length % k) 0 = 0 := by
        rw [Nat.mod_eq_of_lt hlk]; exact h4 _ (Nat.le_refl _) hlk
      have e2 : lastN k (l ++ [v]) = l ++ [v] := by
        rw [lastN, show (l ++ [v]).length - k = 0 by simp; omega, List.drop_zero]
      have e3 : lastN k l = l := by rw [lastN, show l.length - k = 0 by omega, List.drop_zero]
      rw [e1, e2, e3]
      rw [List.sum_append, List.sum_singleton]
      unfold M
      omega
    · have hge : l.length - k < l.length := by omega
      have e1 : w.window.getD (l.length % k) 0 = l.getD (l.length - k) 0 := by
        have := h3 (l.length - k) hge (by omega)
        rw [← this]
        congr 1
        exact Nat.mod_eq_sub_mod (by omega)
      have e2 : lastN k (l ++ [v]) = l.drop (l.length - k + 1) ++ [v] := by
        rw [lastN, List.length_append, List.length_singleton,
          show l.length + 1 - k = l.length - k + 1 by omega, List.drop_append_of_le_length (by omega)]
      have e3 : lastN k l = l.getD (l.length - k) 0 :: l.drop (l.length - k + 1) := by
        rw [lastN, List.drop_eq_getElem_cons hge]
        simp [List.getD_eq_getElem?_getD, List.getElem?_eq_getElem hge]
      rw [e1, e2, e3]
      have hx : l.getD (l.length - k) 0 < M := by
        simp only [List.getD_eq_getElem?_getD, List.getElem?_eq_getElem hge, Option.getD_some]
        exact hb _ (List.getElem_mem _)
      rw [List.sum_cons, List.sum_append, List.sum_singleton]
      generalize l.getD (l.length - k) 0 = x at hx
      unfold M at *
      omega
  · show (w.tot + v) % M = (l ++ [v]).sum % M
    rw [h6, List.sum_append, List.sum_singleton, Nat.mod_add_mod]

/-! ## the property -/

/-- *Statistics of an io thread.*  After any sequence of sleeps the counters are: the number of sleeps;
the sum of the most recent `k` working and sleeping times; and the sum of all of them. -/
theorem stat_spec_partial {k : Nat} (hk : 0 < k) (t0 : Nat) (cs : List (Nat × Nat))
    (hb : ∀ x ∈ busy t0 cs, x < M) (hi : ∀ x ∈ idle cs, x < M) :
    ∃ s, cycles (new k t0) cs = some s ∧ s.waiting = false ∧
      s.proc.count = cs.length ∧ s.wait.count = cs.length ∧
      s.proc.sum = (lastN k (busy t0 cs)).sum % M ∧ s.wait.sum = (lastN k (idle cs)).sum % M ∧
      s.proc.tot = (busy t0 cs).sum % M ∧ s.wait.tot = (idle cs).sum % M := by
  have key : ∀ (cs : List (Nat × Nat)) (s : St) (p w : List Nat), s.waiting = false →
      WInv k p s.proc → WInv k w s.wait → (∀ x ∈ p ++ busy s.waitEnd cs, x < M) →
      (∀ x ∈ w ++ idle cs, x < M) →
      ∃ s', cycles s cs = some s' ∧ s'.waiting = false ∧ WInv k (p ++ busy s.waitEnd cs) s'.proc ∧
        WInv k (w ++ idle cs) s'.wait := by
    intro cs
    induction cs with
    | nil =>
      intro s p w hw hp hwt _ _
      exact ⟨s, rfl, hw, by simpa [busy] using hp, by simpa [idle] using hwt⟩
    | cons c cs ih =>
      intro s p w hw hp hwt hb hi
      rw [cycles, waitStart, hw]
      simp only [Bool.false_eq_true, if_false, Option.bind_some, waitEnd, if_true]
      have hp' : WInv k (p ++ [diffUs s.waitEnd c.1]) (accumulate s.proc (diffUs s.waitEnd c.1)) :=
        winv_step hk hp (fun x hx => hb x (List.mem_append_left _ hx))
      have hw' : WInv k (w ++ [diffUs c.1 c.2]) (accumulate s.wait (diffUs c.1 c.2)) :=
        winv_step hk hwt (fun x hx => hi x (List.mem_append_left _ hx))
      have e1 : p ++ busy s.waitEnd (c :: cs) = (p ++ [diffUs s.waitEnd c.1]) ++ busy c.2 cs := by
        simp [busy, diffUs]
      have e2 : w ++ idle (c :: cs) = (w ++ [diffUs c.1 c.2]) ++ idle cs := by simp [idle, diffUs]
      rw [e1] at hb ⊢
      rw [e2] at hi ⊢
      exact ih _ _ _ rfl hp' hw' hb hi
  obtain ⟨s, h1, h2, h3, h4⟩ := key cs (new k t0) [] [] rfl (winv_new k) (winv_new k)
    (by rw [List.nil_append]; exact hb) (by rw [List.nil_append]; exact hi)
  rw [List.nil_append] at h3 h4
  have hlen : ∀ (cs : List (Nat × Nat)) (t : Nat), (busy t cs).length = cs.length := by
    intro cs
    induction cs with
    | nil => intro t; rfl
    | cons c cs ih => intro t; simp [busy, ih]
  refine ⟨s, h1, h2, ?_, ?_, h3.sum, h4.sum, h3.tot, h4.tot⟩
  · rw [h3.cnt]; exact hlen cs t0
  · rw [h4.cnt]; simp [idle]

example : (cycles (new 2 0) [(5000, 9000), (10000, 12000), (15000, 16000)]).map
    (fun s => (s.proc.sum, s.wait.sum, s.proc.tot, s.wait.tot)) = some (4, 3, 9, 7) := by
  decide +kernel

/-- *No time is lost or counted twice*: when the times are whole microseconds, busy and idle time add up
to the time since the statistics were created. -/
theorem time_conserved (t0 : Nat) (cs : List (Nat × Nat)) (hs : List.Pairwise (· ≤ ·)
    (t0 :: cs.flatMap fun c => [c.1, c.2])) (hus : ∀ t ∈ t0 :: cs.flatMap fun c => [c.1, c.2], 1000 ∣ t) :
    1000 * ((busy t0 cs).sum + (idle cs).sum) + t0 = (cs.getLast?.map (·.2)).getD t0 := by
  induction cs generalizing t0 with
  | nil => simp [busy, idle]
  | cons c cs ih =>
    simp only [List.flatMap_cons, List.cons_append, List.nil_append, List.pairwise_cons, List.mem_cons,
      forall_eq_or_imp] at hs hus
    obtain ⟨⟨q1, q2, _⟩, ⟨q4, _⟩, q5, q6⟩ := hs
    obtain ⟨u0, u1, u2, u3⟩ := hus
    have hih := ih c.2 (List.pairwise_cons.2 ⟨q5, q6⟩) (by
      intro t ht
      rcases List.mem_cons.1 ht with rfl | ht
      · exact u2
      · exact u3 t ht)
    have e : ((c :: cs).getLast?.map (·.2)).getD t0 = (cs.getLast?.map (·.2)).getD c.2 := by
      cases hl : cs with
      | nil => simp
      | cons d ds =>
        rw [List.getLast?_cons_cons]
        simp [List.getLast?_eq_some_getLast]
    rw [e, ← hih]
    simp only [busy, idle, List.map_cons, List.sum_cons]
    omega

example : ∃ cs : List (Nat × Nat), List.Pairwise (· ≤ ·) (1000 :: cs.flatMap fun c => [c.1, c.2]) ∧
    cs.length = 2 := ⟨[(2000, 5000), (6000, 8000)], by decide, rfl⟩

/-- *Defect.*  A reset clears the window but not its sum, which stays wrong for ever: here after the
reset the window is empty and the thread has worked 1 µs, but 101 µs are reported. -/
theorem reset_sum_defect :
    ∃ s s' : St, cycles (new 4 0) [(100000, 200000)] = some s ∧
      cycles (reset s 200000) [(201000, 201000)] = some s' ∧
      busy 200000 [(201000, 201000)] = [1] ∧ s'.proc.sum = 101 ∧ s'.proc.tot = 101 ∧
      s'.proc.window = [1, 0, 0, 0] :=
  ⟨⟨false, 0, 100000, 200000, ⟨1, 100, [100, 0, 0, 0], 100⟩, ⟨1, 100, [100, 0, 0, 0], 100⟩⟩,
    ⟨false, 200000, 201000, 201000, ⟨1, 101, [1, 0, 0, 0], 101⟩, ⟨1, 100, [0, 0, 0, 0], 100⟩⟩,
    by decide +kernel, by decide +kernel, by decide, rfl, rfl, rfl⟩

/-- *Defect.*  The event scheduler adds the time it works to the idle time and the time it waits to the
active time.  After any number of waits the reported idle time is the time spent working since the
first wait, and the reported active time is the time spent waiting. -/
theorem scheduler_swapped_defect (c : Nat × Nat) (cs : List (Nat × Nat))
    (hpos : ∀ d ∈ c :: cs, 1000000000 ≤ d.1 ∧ 1000000000 ≤ d.2) :
    evGet (evCycles evNew (c :: cs)) (evCycles evNew (c :: cs)).waitEnd =
      ((busy c.2 cs).sum, (idle (c :: cs)).sum) := by
  have nz : ∀ t b, 1000000000 ≤ t → evDiff t b = (b - t) / 1000 := by
    intro t b h; rw [evDiff, if_neg (by omega)]
  have key : ∀ (cs : List (Nat × Nat)) (e : Ev), 1000000000 ≤ e.waitEnd → e.waiting = false →
      (∀ d ∈ cs, 1000000000 ≤ d.1 ∧ 1000000000 ≤ d.2) →
      (evCycles e cs).waitTot = e.waitTot + (busy e.waitEnd cs).sum ∧
      (evCycles e cs).procTot = e.procTot + (idle cs).sum ∧ (evCycles e cs).waiting = false := by
    intro cs
    induction cs with
    | nil => intro e _ hw _; simp [evCycles, busy, idle, hw]
    | cons c cs ih =>
      intro e he hw hp
      have hc := hp c List.mem_cons_self
      obtain ⟨h1, h2, h3⟩ := ih (evWaitEnd (evWaitStart e c.1) c.2) hc.2 rfl
        (fun d hd => hp d (List.mem_cons_of_mem _ hd))
      rw [evCycles]
      refine ⟨?_, ?_, h3⟩
      · rw [h1]
        simp only [evWaitEnd, evWaitStart, nz _ _ he, busy, List.sum_cons, Nat.add_assoc]
      · rw [h2]
        simp only [evWaitEnd, evWaitStart, nz _ _ hc.1, idle, List.map_cons, List.sum_cons,
          Nat.add_assoc]
  have hc := hpos c List.mem_cons_self
  obtain ⟨h1, h2, h3⟩ := key cs (evWaitEnd (evWaitStart evNew c.1) c.2) hc.2 rfl
    (fun d hd => hpos d (List.mem_cons_of_mem _ hd))
  have hz : ∀ t, evDiff t t = 0 := by intro t; simp [evDiff]
  rw [evCycles, evGet]
  simp only [h3, Bool.false_eq_true, if_false, h1, h2, hz]
  simp only [evWaitEnd, evWaitStart, evNew, nz _ _ hc.1, idle, List.map_cons, List.sum_cons]
  simp [evDiff]

/-- a scheduler that worked 1 s and waited 2 s after its first wait reports the opposite -/
example : evGet (evCycles evNew [(1000000000, 1000000000), (2000000000, 4000000000)]) 4000000000 =
    (1000000, 2000000) := by decide +kernel

end Verif.ThrStat
