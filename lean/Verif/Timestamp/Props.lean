import Verif.Timestamp.Model

/-!
# Properties of timestamps (C26)
-/

namespace Verif.Timestamp

/-! ## specification -/

/-- the time in microseconds -/
def Ts.us (t : Ts) : Nat := t.sec * 1000000 + t.usec

/-- a normalised timestamp: 32-bit seconds, less than a million microseconds -/
def Ts.Ok (t : Ts) : Prop := t.sec < 4294967296 ∧ t.usec < 1000000

/-! ## proofs -/

/-- **C26.**  For all timestamps with `after` not earlier than `before`, the difference is exact. -/
theorem diff_exact (a b : Ts) (ha : a.Ok) (hb : b.Ok) (h : b.us ≤ a.us) :
    diff a b = a.us - b.us := by
  obtain ⟨ha1, ha2⟩ := ha
  obtain ⟨hb1, hb2⟩ := hb
  simp only [Ts.us] at h ⊢
  simp only [diff, sub32, add32, w32]
  by_cases hc : b.usec > a.usec
  · simp only [hc, if_true]
    rw [if_neg (by omega)]
    omega
  · simp only [hc, if_false]
    rw [if_neg (by omega)]
    omega

/-- **C26, earlier.**  If `after` is earlier than `before` the difference is 0, provided `after` is
not within the first second of the epoch. -/
theorem diff_earlier_partial (a b : Ts) (ha : a.Ok) (hb : b.Ok) (h : a.us < b.us) (hs : 0 < a.sec) :
    diff a b = 0 := by
  obtain ⟨ha1, ha2⟩ := ha
  obtain ⟨hb1, hb2⟩ := hb
  simp only [Ts.us] at h
  simp only [diff, sub32, add32, w32]
  by_cases hc : b.usec > a.usec
  · simp only [hc, if_true]
    rw [if_pos (by omega)]
  · simp only [hc, if_false]
    rw [if_pos (by omega)]

/-- **C26, defect.**  Within the first second the borrow wraps: the difference from any later time
in the same second is more than 136 years instead of 0. -/
theorem diff_wrap_defect (a b : Ts) (ha : a.Ok) (hb : b.Ok) (h : a.sec = 0) (hu : a.usec < b.usec) :
    diff a b = (4294967295 - b.sec) * 1000000 + (1000000 + a.usec - b.usec) := by
  obtain ⟨ha1, ha2⟩ := ha
  obtain ⟨hb1, hb2⟩ := hb
  simp only [diff, sub32, add32, w32]
  simp only [gt_iff_lt, hu, if_true, h]
  rw [if_neg (by omega)]
  omega

/-- **C26, transactions.**  The duration recorded at the end of a transaction is the time since its
begin, normalised, for every begin time and every end time not earlier (32-bit seconds). -/
theorem duration_exact (tv ts : Ts) (ht : tv.Ok) (hs : ts.Ok) (h : ts.us ≤ tv.us) :
    (duration tv ts).us = tv.us - ts.us ∧ (duration tv ts).Ok := by
  obtain ⟨ha1, ha2⟩ := ht
  obtain ⟨hb1, hb2⟩ := hs
  simp only [Ts.us] at h
  by_cases hc : ts.usec > tv.usec
  · have e : duration tv ts = ⟨sub32 (sub32 (tv.sec % w32) ts.sec) 1,
        add32 (sub32 (tv.usec % w32) ts.usec) 1000000⟩ :=
      if_pos (by simp only [sub32, w32]; omega)
    rw [e]
    simp only [Ts.us, Ts.Ok, sub32, add32, w32]
    omega
  · have e : duration tv ts = ⟨sub32 (tv.sec % w32) ts.sec, sub32 (tv.usec % w32) ts.usec⟩ :=
      if_neg (by simp only [sub32, w32]; omega)
    rw [e]
    simp only [Ts.us, Ts.Ok, sub32, w32]
    omega

example : diff ⟨5, 100⟩ ⟨3, 999999⟩ = 1000101 := by decide
example : duration ⟨5, 100⟩ ⟨3, 999999⟩ = ⟨1, 101⟩ := by decide
example : (⟨5, 100⟩ : Ts).Ok ∧ (⟨3, 999999⟩ : Ts).us ≤ (⟨5, 100⟩ : Ts).us := by
  simp [Ts.Ok, Ts.us]
example : diff ⟨0, 0⟩ ⟨0, 1⟩ = 4294967295999999 := by decide

end Verif.Timestamp
