import Verif.CsvFile.Count

/-!
# Proofs: counts of bytes
-/

namespace Verif.CsvFile

theorem weight_append (a b : List Row) : weight (a ++ b) = weight a + weight b := by simp [weight]

/-- `byte_count` is the size of the rows of the file. -/
def Cb (d : Name → List Item) (h : Hd) : Prop := h.bytes = weight (h.rows d)

theorem Cb.drain {d : Name → List Item} {h : Hd} (hC : Cb d h) (k : Nat) :
    Cb (append d h.name (h.buf.take k)) { h with buf := h.buf.drop k } := by
  unfold Cb Hd.rows at *
  simp only [append_same, rows_append, List.append_assoc]
  rw [← rows_append (h.buf.take k), List.take_append_drop]
  exact hC

theorem Cb.flush {d : Name → List Item} {h : Hd} (hC : Cb d h) :
    Cb (flush d h).1 (flush d h).2 := by
  have := hC.drain h.buf.length
  simpa [CsvFile.flush] using this

theorem Cb.flushDue {cfg : Cfg} {d : Name → List Item} {h : Hd} (hC : Cb d h) :
    Cb (flushDue cfg d h).1 (flushDue cfg d h).2 := by
  have l : ∀ x, Cb d { h with lastflush := x } := fun _ => hC
  unfold CsvFile.flushDue
  split
  · exact (l _).flush
  · split
    · exact (l _).flush
    · split
      · exact hC.flush
      · exact hC

theorem Cb.header {cfg : Cfg} {o : Nat → Nat} {d : Name → List Item} {h : Hd}
    (hP : HP cfg o d h) (hC : Cb d h) : Cb (header cfg d h).1 (header cfg d h).2 := by
  obtain ⟨t, e1, e2, _⟩ := hP.2.tagged
  have key : Cb (printHeader cfg d h).1 (printHeader cfg d h).2 := by
    unfold printHeader
    split
    · exact hC
    · split
      · unfold Cb Hd.rows at *
        simp only []
        rw [append_other _ (by rw [e1, e2]; simp)]
        exact hC
      · unfold Cb Hd.rows at *
        simp only [CsvFile.flush, append_same, rows_append, rows, List.append_nil]
        exact hC
  unfold CsvFile.header
  split
  · exact key
  · exact key
  · exact hC
  · exact hC

theorem Cb.write {d : Name → List Item} {h : Hd} (hC : Cb d h) (r : Row) : Cb d (h.write r) := by
  unfold Cb Hd.rows at *
  simp only [Hd.write, rows_append, rows, weight_append] at *
  simp only [weight, List.map_cons, List.map_nil, List.sum_cons, List.sum_nil] at *
  omega

theorem Cb.inc {d : Name → List Item} {h : Hd} (hC : Cb d h) : Cb d h.inc := hC

/-- The state. -/
def CB (cfg : Cfg) (g : Log) (s : St) : Prop :=
  cfg.roll = 4 → (∀ t, g.opens t ≤ 1) → ∀ h, s.h = some h → Cb s.disk h

theorem CB_step {cfg : Cfg} {g : Log} {s : St} (hS : HS cfg g s) (hC : CB cfg g s) (op : Op) :
    CB cfg (logStep g op) (step cfg s op) := by
  intro h4 hone x hx
  have hr : cfg.roll ≥ 1 := by omega
  cases op with
  | tick k => exact hC h4 hone x hx
  | «open» =>
    have h1 := bump_one (o := g.opens) (now := g.now) hone
    simp only [step, «open»] at hx ⊢
    cases hh : s.h with
    | some h =>
      rw [hh] at hx
      cases hx
      exact hC h4 h1.1 h hh
    | none =>
      rw [hh] at hx
      cases hx
      unfold Cb Hd.rows
      simp only [trunc_data]
      simp only [tag, if_pos hr, hS.now]
      rw [hS.files.unused hr g.now h1.2]
      rfl
  | close =>
    simp only [step, close] at hx ⊢
    cases hh : s.h with
    | none => rw [hh] at hx; simp only [hh] at hx; cases hx
    | some h =>
      rw [hh] at hx
      simp only [] at hx
      have := hC h4 hone h hh
      split at hx
      · cases hx
      · rename_i c
        simp only [if_neg c]
        cases hx
        exact this
  | store r =>
    simp only [logStep, put_opens] at hone
    simp only [step, store] at hx ⊢
    cases hh : s.h with
    | none => rw [hh] at hx; simp only [hh] at hx; cases hx
    | some h =>
      have hP := (hS.pair hh).header
      rw [hh] at hx
      simp only [if_neg hP.1.2.ok] at hx ⊢
      cases hx
      exact ((((hC h4 hone h hh).header (hS.pair hh)).write r).inc).flushDue
  | row r =>
    simp only [logStep, put_opens] at hone
    simp only [step, storeRow] at hx ⊢
    cases hh : s.h with
    | none => rw [hh] at hx; simp only [count, hh] at hx; cases hx
    | some h =>
      have hP := (hS.pair hh).header
      rw [hh] at hx
      simp only [if_neg hP.1.2.ok, count] at hx ⊢
      cases hx
      exact ((((hC h4 hone h hh).header (hS.pair hh)).write r).flushDue).inc
  | rowText r =>
    simp only [logStep, put_opens] at hone
    simp only [step, storeRow] at hx ⊢
    cases hh : s.h with
    | none => rw [hh] at hx; simp only [hh] at hx; cases hx
    | some h =>
      have hP := (hS.pair hh).header
      rw [hh] at hx
      simp only [if_neg hP.1.2.ok] at hx ⊢
      cases hx
      exact (((hC h4 hone h hh).header (hS.pair hh)).write r).flushDue
  | rowCount =>
    simp only [step, count] at hx ⊢
    cases hh : s.h with
    | none => rw [hh] at hx; simp only [hh] at hx; cases hx
    | some h =>
      rw [hh] at hx
      cases hx
      exact (hC h4 hone h hh).inc
  | roll =>
    have h1 := bump_one (o := g.opens) (now := g.now) hone
    simp only [step, if_pos hr, roll] at hx ⊢
    cases hh : s.h with
    | none => rw [hh] at hx; simp only [hh] at hx; cases hx
    | some h =>
      rw [hh] at hx
      simp only [] at hx ⊢
      cases hd : rollDue cfg h with
      | none =>
        rw [hd] at hx
        simp only [hh] at hx
        cases hx
        exact hC h4 h1.1 x hh
      | some h' =>
        rw [hd] at hx
        cases hx
        obtain ⟨e1, e2, e3, e4, e5, e6⟩ := rollDue_same hd
        have ed : (flush s.disk h').1 = (flush s.disk h).1 := by simp [flush, e1, e3]
        unfold Cb Hd.rows
        simp only [trunc_data, ed]
        simp only [tag, if_pos hr, hS.now]
        rw [(hS.pair hh).flush.1.unused hr g.now h1.2]
        unfold rollDue at hd
        rw [h4] at hd
        simp only [] at hd
        split at hd
        · cases hd
        · cases hd
          rfl
  | flush =>
    simp only [step] at hx ⊢
    cases hh : s.h with
    | none => rw [hh] at hx; simp only [hh] at hx; cases hx
    | some h =>
      rw [hh] at hx
      cases hx
      exact (hC h4 hone h hh).flush
  | drain k =>
    simp only [step] at hx ⊢
    cases hh : s.h with
    | none => rw [hh] at hx; simp only [hh] at hx; cases hx
    | some h =>
      rw [hh] at hx
      cases hx
      exact (hC h4 hone h hh).drain k
  | crash => cases hx

theorem CB_run (cfg : Cfg) (ops : List Op) : CB cfg (log ops) (run cfg ops) := by
  induction ops using snocInd with
  | h0 => intro _ _ x hx; cases hx
  | h1 ops op ih =>
    rw [run_snoc, log_snoc]
    exact CB_step (HS_run cfg ops) ih op

end Verif.CsvFile
