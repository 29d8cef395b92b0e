import Verif.Strgp.Requests

/-!
# When a storage policy flushes its store (C77)
-/

namespace Verif.Strgp

open Verif.SetOwner (Str dec numeral)

theorem numeral_all (n : Nat) : (dec n).all SetOwner.isDigit = true := by
  induction n using Nat.strongRecOn with
  | ind n ih =>
    unfold dec numeral
    split
    · rename_i h
      have : n < 10 := h.resolve_right (by omega)
      simp [SetOwner.isDigit]; omega
    · rename_i h
      rw [List.all_append, ih (n / 10) (Nat.div_lt_self (by omega) (by omega))]
      simp [SetOwner.isDigit]; omega

theorem dec_value (n : Nat) : (SetOwner.digits 10 0 (dec n)).1 = n := by
  have h := SetOwner.digits_numeral 10 (by omega) (by omega) n 0 []
  rw [List.append_nil] at h
  rw [h]
  simp [SetOwner.digits]

theorem take_num : ∀ (a r : Str), a.all SetOwner.isDigit = true → (∀ c s, r = c :: s → numChar c = false) →
    (a ++ r).takeWhile numChar = a ∧ (a ++ r).dropWhile numChar = r
  | [], [], _, _ => ⟨rfl, rfl⟩
  | [], c :: r, _, h => by simp [h c r rfl]
  | c :: a, r, ha, h => by
    simp only [List.all_cons, Bool.and_eq_true] at ha
    have hc : numChar c = true := by simp [numChar, ha.1]
    obtain ⟨h1, h2⟩ := take_num a r ha.2 h
    simp [hc, h1, h2]

theorem unit_text (u : Unit') : unit (if u.text = [] then [117, 115] else u.text) = some u.nanos := by
  cases u <;> decide

theorem flush_value (e : Env) (n : Nat) (u : Unit') (h : n * u.nanos < 2 ^ 53) :
    flushOf e (dec n ++ u.text) = some ⟨((n * u.nanos : Nat) : Int).tdiv 1000000000, ((n * u.nanos : Nat) : Int).tmod 1000000000⟩ := by
  obtain ⟨h1, h2⟩ := take_num (dec n) u.text (numeral_all n) (by cases u <;> simp [Unit'.text, numChar, SetOwner.isDigit] <;> decide)
  unfold flushOf
  simp only [h1, h2, unit_text, Option.map_some]
  simp only [product, numeral_all, dec_value, true_and, if_pos h]

theorem split_nanos (v : Nat) : (⟨(v : Int).tdiv 1000000000, (v : Int).tmod 1000000000⟩ : Time).nanos = v ∧
    (⟨(v : Int).tdiv 1000000000, (v : Int).tmod 1000000000⟩ : Time).normal := by
  simp only [Time.nanos, Time.normal]
  rw [Int.tdiv_eq_ediv_of_nonneg (by omega), Int.tmod_eq_emod_of_nonneg (by omega)]
  omega

/-- **C77.**  A number with the unit s, ms, us or ns, or with no unit for microseconds, means what it says. -/
theorem flush_means (e : Env) (n : Nat) (u : Unit') (h : n * u.nanos < 2 ^ 53) :
    ∃ t, flushOf e (dec n ++ u.text) = some t ∧ t.nanos = n * u.nanos ∧ t.normal := by
  refine ⟨_, flush_value e n u h, ?_, (split_nanos _).2⟩
  rw [(split_nanos _).1]
  exact Int.natCast_mul n u.nanos

/-- "1500ms" is a second and a half -/
example : flushOf e0 (dec 1500 ++ Unit'.ms.text) = some ⟨1, 500000000⟩ ∧ 1500 * Unit'.ms.nanos < 2 ^ 53 := by decide +kernel

/-- **C77.**  A number with something behind it that does not begin with one of the letters of the units (s, m, u, n) is refused. -/
theorem flush_refused (e : Env) (n c : Nat) (r : Str) (hc : ¬(48 ≤ c ∧ c ≤ 57) ∧ c ≠ 46)
    (hu : c ∉ [115, 109, 117, 110, 83, 77, 85, 78]) : flushOf e (dec n ++ c :: r) = none := by
  obtain ⟨h1, h2⟩ := take_num (dec n) (c :: r) (numeral_all n) (by
    intro x s hx
    simp only [List.cons.injEq] at hx
    rw [← hx.1]
    simp only [numChar, SetOwner.isDigit, Bool.or_eq_false_iff, decide_eq_false_iff_not, beq_eq_false_iff_ne]
    exact hc)
  unfold flushOf
  simp only [h1, h2]
  have : unit (if (c :: r) = [] then [117, 115] else c :: r) = none := by
    rw [if_neg (by simp)]
    unfold unit
    simp only
    simp only [List.mem_cons, List.not_mem_nil, or_false, not_or] at hu
    have hl : lower c ≠ 115 ∧ lower c ≠ 109 ∧ lower c ≠ 117 ∧ lower c ≠ 110 := by unfold lower; split <;> omega
    simp [hl.1, hl.2.1, hl.2.2.1, hl.2.2.2]
  rw [this]
  rfl

/-- "5h", and "-5s" -/
example : flushOf e0 (dec 5 ++ 104 :: []) = none ∧ flushOf e0 (45 :: dec 5 ++ [115]) = none := by decide +kernel

/-! ## flushing -/

theorem add_nanos (a b : Time) : (a.add b).nanos = a.nanos + b.nanos := by
  unfold Time.add Time.nanos
  split <;> simp only <;> omega

theorem add_normal {a b : Time} (ha : a.normal) (hb : b.normal) : (a.add b).normal := by
  unfold Time.normal at *
  unfold Time.add
  split <;> simp only <;> omega

theorem cmp_nanos {a b : Time} (ha : a.normal) (hb : b.normal) : a.cmp b ≥ 0 ↔ b.nanos ≤ a.nanos := by
  unfold Time.normal at *
  unfold Time.cmp Time.nanos
  split
  · omega
  · split
    · omega
    · split
      · omega
      · split <;> omega

/-- the readings of the clock are normal -/
def Clock (xs : List Sample) : Prop := ∀ x ∈ xs, x.1.normal ∧ x.2.normal

theorem flush_iff {d last : Time} {x : Sample} (hd : d.normal) (hl : last.normal) (hx : x.1.normal) (hpos : 0 < d.nanos) :
    ((flushStep d last x.1 x.2).2 = true ↔ last.nanos + d.nanos ≤ x.1.nanos) ∧
    (flushStep d last x.1 x.2).1 = if last.nanos + d.nanos ≤ x.1.nanos then x.2 else last := by
  have hne : d.sec ≠ 0 ∨ d.nsec ≠ 0 := by
    unfold Time.nanos at hpos
    omega
  have hc := cmp_nanos (b := last.add d) hx (add_normal hl hd)
  rw [add_nanos] at hc
  unfold flushStep
  rw [if_pos hne]
  split
  · rename_i h
    have := hc.1 h
    simp [this]
  · rename_i h
    have : ¬ last.nanos + d.nanos ≤ x.1.nanos := fun q => h (hc.2 q)
    simp [this]

theorem step_normal {d last : Time} {x : Sample} (hl : last.normal) (hx : x.2.normal) : (flushStep d last x.1 x.2).1.normal := by
  unfold flushStep
  split
  · split
    · exact hx
    · exact hl
  · exact hl

/-- the time of the last flush after some samples -/
def lastFlush (last : Time) (rs : List (Time × Sample × Bool)) : Time :=
  rs.foldl (fun l r => if r.2.2 then r.2.1.2 else l) last

/-- **C77.**  With an interval, the store is flushed after a sample exactly if the interval has passed since the store was last flushed,
or since the policy was started. -/
theorem flushed_iff (d : Time) (hd : d.normal) (hpos : 0 < d.nanos) : ∀ (xs : List Sample) (last : Time), last.normal → Clock xs →
    ∀ pre r post, flushes d last xs = pre ++ r :: post →
      (r.2.2 = true ↔ (lastFlush last pre).nanos + d.nanos ≤ r.2.1.1.nanos)
  | [], _, _, _, pre, r, post, h => by
    simp only [flushes] at h
    exact absurd h (by simp)
  | x :: xs, last, hl, hc, pre, r, post, h => by
    simp only [flushes] at h
    obtain ⟨h1, h2⟩ := flush_iff hd hl (hc x (by simp)).1 hpos
    cases pre with
    | nil =>
      simp only [List.nil_append, List.cons.injEq] at h
      rw [← h.1]
      exact h1
    | cons y pre =>
      simp only [List.cons_append, List.cons.injEq] at h
      have ih := flushed_iff d hd hpos xs _ (step_normal hl (hc x (by simp)).2) (fun z hz => hc z (by simp [hz])) pre r post h.2
      rw [ih]
      have : lastFlush last (y :: pre) = lastFlush (flushStep d last x.1 x.2).1 pre := by
        unfold lastFlush
        rw [List.foldl_cons, ← h.1, h2]
        congr 1
        by_cases hh : last.nanos + d.nanos ≤ x.1.nanos
        · simp [h1.2 hh, hh]
        · have : (flushStep d last x.1 x.2).2 = false := by
            cases hb : (flushStep d last x.1 x.2).2 with
            | false => rfl
            | true => exact absurd (h1.1 hb) hh
          simp [this, hh]
      rw [this]

/-- **C77.**  As long as nothing is flushed, no sample comes an interval after the last flush: what was stored waits for the first
sample that does. -/
theorem unflushed_is_recent (d : Time) (hd : d.normal) (hpos : 0 < d.nanos) (xs : List Sample) (last : Time) (hl : last.normal)
    (hc : Clock xs) (hf : ∀ r ∈ flushes d last xs, r.2.2 = false) (y : Sample) (hy : y ∈ xs) :
    y.1.nanos < last.nanos + d.nanos := by
  induction xs with
  | nil => exact nomatch hy
  | cons x xs ih =>
    obtain ⟨h1, h2⟩ := flush_iff hd hl (hc x (by simp)).1 hpos
    have hb : (flushStep d last x.1 x.2).2 = false := hf (last, x, (flushStep d last x.1 x.2).2) (by simp [flushes])
    have hn : ¬ last.nanos + d.nanos ≤ x.1.nanos := fun q => by rw [h1.2 q] at hb; exact nomatch hb
    rw [if_neg hn] at h2
    rcases List.mem_cons.1 hy with rfl | hy
    · exact Int.not_le.1 hn
    · refine ih (fun z hz => hc z (by simp [hz])) (fun r hr => hf r ?_) hy
      simp only [flushes, List.mem_cons]
      exact .inr (by rw [h2]; exact hr)

/-- **C77.**  Without an interval the policy never flushes the store. -/
theorem no_interval_no_flush (d : Time) (hd : d.normal) (h0 : d.nanos = 0) (xs : List Sample) (last : Time)
    (r : Time × Sample × Bool) (hr : r ∈ flushes d last xs) : r.2.2 = false := by
  have hno : ¬(d.sec ≠ 0 ∨ d.nsec ≠ 0) := by
    unfold Time.normal at hd; unfold Time.nanos at h0; omega
  induction xs generalizing last with
  | nil => exact nomatch hr
  | cons x xs ih =>
    have hs : flushStep d last x.1 x.2 = (last, false) := by unfold flushStep; rw [if_neg hno]
    simp only [flushes, List.mem_cons, hs] at hr
    rcases hr with rfl | hr
    · rfl
    · exact ih last hr

/-- an interval of two seconds, started at 10 s; samples at 11.5 s, 12 s and 13.9 s -/
def threeSamples : List Sample := [(⟨11, 500000000⟩, ⟨11, 500000000⟩), (⟨12, 0⟩, ⟨12, 10⟩), (⟨13, 900000000⟩, ⟨13, 900000000⟩)]

example : (flushes ⟨2, 0⟩ ⟨10, 0⟩ threeSamples).map (·.2.2) = [false, true, false] ∧ (⟨2, 0⟩ : Time).nanos > 0 := by decide +kernel

end Verif.Strgp
