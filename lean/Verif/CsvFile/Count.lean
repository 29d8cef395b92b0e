import Verif.CsvFile.Heads

/-!
# Proofs: counts of rows
-/

namespace Verif.CsvFile

/-- `store_count` and `c` more are the rows of the file. -/
def Cn (c : Int) (d : Name → List Item) (h : Hd) : Prop := h.stored + c = (h.rows d).length

theorem Cn.drain {c : Int} {d : Name → List Item} {h : Hd} (hC : Cn c d h) (k : Nat) :
    Cn c (append d h.name (h.buf.take k)) { h with buf := h.buf.drop k } := by
  unfold Cn Hd.rows at *
  simp only [append_same, rows_append, List.append_assoc]
  rw [← rows_append (h.buf.take k), List.take_append_drop]
  exact hC

theorem Cn.flush {c : Int} {d : Name → List Item} {h : Hd} (hC : Cn c d h) :
    Cn c (flush d h).1 (flush d h).2 := by
  have := hC.drain h.buf.length
  simpa [CsvFile.flush] using this

theorem Cn.flushDue {cfg : Cfg} {c : Int} {d : Name → List Item} {h : Hd} (hC : Cn c d h) :
    Cn c (flushDue cfg d h).1 (flushDue cfg d h).2 := by
  have l : ∀ x, Cn c d { h with lastflush := x } := fun _ => hC
  unfold CsvFile.flushDue
  split
  · exact (l _).flush
  · split
    · exact (l _).flush
    · split
      · exact hC.flush
      · exact hC

theorem Cn.header {cfg : Cfg} {o : Nat → Nat} {c : Int} {d : Name → List Item} {h : Hd}
    (hP : HP cfg o d h) (hC : Cn c d h) : Cn c (header cfg d h).1 (header cfg d h).2 := by
  obtain ⟨t, e1, e2, _⟩ := hP.2.tagged
  have key : Cn c (printHeader cfg d h).1 (printHeader cfg d h).2 := by
    unfold printHeader
    split
    · exact hC
    · split
      · unfold Cn Hd.rows at *
        simp only []
        rw [append_other _ (by rw [e1, e2]; simp)]
        exact hC
      · unfold Cn Hd.rows at *
        simp only [CsvFile.flush, append_same, rows_append, rows, List.append_nil]
        exact hC
  unfold CsvFile.header
  split
  · exact key
  · exact key
  · exact hC
  · exact hC

theorem Cn.write {c : Int} {d : Name → List Item} {h : Hd} (hC : Cn c d h) (r : Row) :
    Cn (c + 1) d (h.write r) := by
  unfold Cn Hd.rows at *
  simp only [Hd.write, rows_append, rows, List.length_append, List.length_cons, List.length_nil] at *
  omega

theorem Cn.inc {d : Name → List Item} {h : Hd} (hC : Cn (0 + 1) d h) : Cn 0 d h.inc := by
  unfold Cn Hd.rows at *
  simp only [Hd.inc] at *
  omega

/-- The state. -/
def CS (cfg : Cfg) (g : Log) (s : St) : Prop :=
  cfg.roll ≥ 1 → (∀ t, g.opens t ≤ 1) → ∀ h, s.h = some h → Cn 0 s.disk h

theorem trunc_data (cfg : Cfg) (d : Name → List Item) (n t : Option Nat) :
    (if cfg.alt then truncate d (.hdr n) else d) (.data t) = d (.data t) := by
  split
  · simp [truncate]
  · rfl

theorem CS_step {cfg : Cfg} {g : Log} {s : St} (hS : HS cfg g s) (hC : CS cfg g s) {op : Op}
    (hp : op ≠ .rowCount ∧ ∀ r, op ≠ .rowText r) : CS cfg (logStep g op) (step cfg s op) := by
  intro hr hone x hx
  cases op with
  | tick k => exact hC hr hone x hx
  | «open» =>
    have h1 := bump_one (o := g.opens) (now := g.now) hone
    simp only [step, «open»] at hx ⊢
    cases hh : s.h with
    | some h =>
      rw [hh] at hx
      cases hx
      exact hC hr h1.1 h hh
    | none =>
      rw [hh] at hx
      cases hx
      unfold Cn Hd.rows
      simp only [trunc_data]
      simp only [tag, if_pos hr, hS.now]
      rw [hS.files.unused hr g.now h1.2]
      rfl
  | close =>
    simp only [step, close] at hx ⊢
    cases hh : s.h with
    | none => rw [hh] at hx; simp only [hh] at hx; cases hx
    | some h =>
      rw [hh] at hx
      simp only [] at hx
      have := hC hr hone h hh
      split at hx
      · cases hx
      · rename_i c
        simp only [if_neg c]
        cases hx
        exact this
  | store r =>
    simp only [logStep, put_opens] at hone
    simp only [step, store] at hx ⊢
    cases hh : s.h with
    | none => rw [hh] at hx; simp only [hh] at hx; cases hx
    | some h =>
      have hP := (hS.pair hh).header
      rw [hh] at hx
      simp only [if_neg hP.1.2.ok] at hx ⊢
      cases hx
      exact ((((hC hr hone h hh).header (hS.pair hh)).write r).inc).flushDue
  | row r =>
    simp only [logStep, put_opens] at hone
    simp only [step, storeRow] at hx ⊢
    cases hh : s.h with
    | none => rw [hh] at hx; simp only [count, hh] at hx; cases hx
    | some h =>
      have hP := (hS.pair hh).header
      rw [hh] at hx
      simp only [if_neg hP.1.2.ok, count] at hx ⊢
      cases hx
      exact ((((hC hr hone h hh).header (hS.pair hh)).write r).flushDue).inc
  | rowText r => exact absurd rfl (hp.2 r)
  | rowCount => exact absurd rfl hp.1
  | roll =>
    have h1 := bump_one (o := g.opens) (now := g.now) hone
    simp only [step, if_pos hr, roll] at hx ⊢
    cases hh : s.h with
    | none => rw [hh] at hx; simp only [hh] at hx; cases hx
    | some h =>
      rw [hh] at hx
      simp only [] at hx ⊢
      cases hd : rollDue cfg h with
      | none =>
        rw [hd] at hx
        simp only [hh] at hx
        cases hx
        exact hC hr h1.1 x hh
      | some h' =>
        rw [hd] at hx
        cases hx
        obtain ⟨e1, e2, e3, e4, e5, e6⟩ := rollDue_same hd
        have ed : (flush s.disk h').1 = (flush s.disk h).1 := by simp [flush, e1, e3]
        unfold Cn Hd.rows
        simp only [trunc_data, ed]
        simp only [tag, if_pos hr, hS.now]
        rw [(hS.pair hh).flush.1.unused hr g.now h1.2]
        rfl
  | flush =>
    simp only [step] at hx ⊢
    cases hh : s.h with
    | none => rw [hh] at hx; simp only [hh] at hx; cases hx
    | some h =>
      rw [hh] at hx
      cases hx
      exact (hC hr hone h hh).flush
  | drain k =>
    simp only [step] at hx ⊢
    cases hh : s.h with
    | none => rw [hh] at hx; simp only [hh] at hx; cases hx
    | some h =>
      rw [hh] at hx
      cases hx
      exact (hC hr hone h hh).drain k
  | crash => cases hx

theorem CS_run (cfg : Cfg) (ops : List Op) (hp : Plain ops) : CS cfg (log ops) (run cfg ops) := by
  induction ops using snocInd with
  | h0 => intro _ _ x hx; cases hx
  | h1 ops op ih =>
    rw [run_snoc, log_snoc]
    exact CS_step (HS_run cfg ops) (ih fun o ho => hp o (by simp [ho])) (hp op (by simp))

end Verif.CsvFile
