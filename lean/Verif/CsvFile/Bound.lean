import Verif.CsvFile.Proofs

/-!
# Proofs: what is not yet written
-/

namespace Verif.CsvFile

/-- The bytes of rows. -/
def size (l : List Row) : Int := ((l.map (·.bytes)).sum : Nat)

theorem size_append (a b : List Row) : size (a ++ b) = size a + size b := by
  simp [size]

theorem size_nonneg (a : List Row) : 0 ≤ size a := by simp [size]

/-- The counters of a handle bound what it has not written. -/
structure B (cfg : Cfg) (h : Hd) : Prop where
  zero : cfg.bufSz = 0 → rows h.buf = []
  lines : cfg.bufType = 3 → ((rows h.buf).length : Int) ≤ h.stored - h.lastflush ∧
    (0 < cfg.bufSz → h.stored - h.lastflush ≤ cfg.bufSz)
  bytes : cfg.bufType = 4 → 0 ≤ h.bytes ∧ size (rows h.buf) ≤ h.bytes - h.lastflush ∧
    (0 < cfg.bufSz → size (rows h.buf) < cfg.bufSz)

theorem B.small {cfg : Cfg} {h : Hd} (hB : B cfg h) : Small cfg (rows h.buf) := by
  refine ⟨hB.zero, ?_, ?_⟩
  · intro h3
    obtain ⟨a, b⟩ := hB.lines h3
    rcases Nat.eq_zero_or_pos cfg.bufSz with z | z
    · rw [hB.zero z]; simp
    · have := b z; omega
  · intro h4 z
    have := (hB.bytes h4).2.2 z
    unfold size at this
    omega

theorem B.less {cfg : Cfg} {h h' : Hd} (hB : B cfg h) {k : List Row}
    (e : rows h.buf = k ++ rows h'.buf) (e1 : h'.stored = h.stored) (e2 : h'.bytes = h.bytes)
    (e3 : h'.lastflush = h.lastflush) : B cfg h' := by
  have hl : (rows h'.buf).length ≤ (rows h.buf).length := by rw [e]; simp
  have hs : size (rows h'.buf) ≤ size (rows h.buf) := by
    rw [e, size_append]
    have := size_nonneg k
    omega
  refine ⟨?_, ?_, ?_⟩
  · intro z
    have := hB.zero z
    rw [e] at this
    exact (List.append_eq_nil_iff.mp this).2
  · intro h3
    obtain ⟨a, b⟩ := hB.lines h3
    rw [e1, e3]
    exact ⟨by omega, b⟩
  · intro h4
    obtain ⟨a, b, c⟩ := hB.bytes h4
    rw [e2, e3]
    exact ⟨a, by omega, fun z => by have := c z; omega⟩

theorem B.header {cfg : Cfg} {h : Hd} (hB : B cfg h) (d : Name → List Item) : B cfg (header cfg d h).2 := by
  unfold CsvFile.header printHeader flush
  split <;> (try exact hB) <;> split <;> (try (exact hB.less (k := []) rfl rfl rfl rfl)) <;> split <;>
    (first | exact hB.less (k := []) rfl rfl rfl rfl
           | exact hB.less (k := rows h.buf) (by simp [rows]) rfl rfl rfl)

/-- After flushing. -/
theorem B_flushed {cfg : Cfg} {h : Hd} (e : rows h.buf = [])
    (h3 : cfg.bufType = 3 → 0 ≤ h.stored - h.lastflush ∧
      (0 < cfg.bufSz → h.stored - h.lastflush ≤ cfg.bufSz))
    (h4 : cfg.bufType = 4 → 0 ≤ h.bytes ∧ h.lastflush ≤ h.bytes) : B cfg h := by
  refine ⟨fun _ => e, ?_, ?_⟩
  · intro t
    obtain ⟨a, b⟩ := h3 t
    rw [e]
    exact ⟨by simpa using a, b⟩
  · intro t
    obtain ⟨a, b⟩ := h4 t
    rw [e]
    exact ⟨a, by simp [size]; omega, fun z => by simp [size]; omega⟩

theorem B.store {cfg : Cfg} {h : Hd} (hB : B cfg h) (r : Row) (d : Name → List Item) :
    B cfg (flushDue cfg d (h.write r).inc).2 := by
  have er : rows (h.write r).buf = rows h.buf ++ [r] := by simp [Hd.write, rows]
  have es : size (rows (h.write r).buf) = size (rows h.buf) + r.bytes := by
    rw [er, size_append]; simp [size]
  unfold flushDue
  split
  · rename_i c
    refine B_flushed rfl ?_ ?_
    · intro _
      simp only [flush, Hd.inc, Hd.write]
      exact ⟨by omega, fun _ => by omega⟩
    · intro t; omega
  · rename_i c
    split
    · rename_i c4
      refine B_flushed rfl (fun t => by omega) ?_
      intro t
      have := (hB.bytes t).1
      simp only [flush, Hd.inc, Hd.write]
      exact ⟨by omega, by omega⟩
    · rename_i c4
      split
      · rename_i z
        refine B_flushed rfl ?_ ?_
        · intro t
          have := (hB.lines t).1
          simp only [flush, Hd.inc, Hd.write]
          exact ⟨by omega, fun _ => by omega⟩
        · intro t
          obtain ⟨a, b, _⟩ := hB.bytes t
          have := size_nonneg (rows h.buf)
          simp only [flush, Hd.inc, Hd.write]
          exact ⟨by omega, by omega⟩
      · rename_i z
        refine ⟨fun z' => absurd z' z, ?_, ?_⟩
        · intro t
          obtain ⟨a, b⟩ := hB.lines t
          simp only [Hd.inc, Hd.write] at c ⊢
          refine ⟨?_, fun z => by omega⟩
          simp only [rows_append, rows, List.length_append, List.length_cons, List.length_nil]
          omega
        · intro t
          obtain ⟨a, b, e⟩ := hB.bytes t
          simp only [Hd.inc, Hd.write] at c4 es ⊢
          refine ⟨by omega, by omega, fun z => by omega⟩

theorem B.row {cfg : Cfg} {h : Hd} (hB : B cfg h) (r : Row) (d : Name → List Item) :
    B cfg (flushDue cfg d (h.write r)).2.inc := by
  have er : rows (h.write r).buf = rows h.buf ++ [r] := by simp [Hd.write, rows]
  have es : size (rows (h.write r).buf) = size (rows h.buf) + r.bytes := by
    rw [er, size_append]; simp [size]
  unfold flushDue
  split
  · rename_i c
    refine B_flushed rfl ?_ ?_
    · intro _
      simp only [flush, Hd.inc]
      exact ⟨by omega, fun _ => by omega⟩
    · intro t; omega
  · rename_i c
    split
    · rename_i c4
      refine B_flushed rfl (fun t => by omega) ?_
      intro t
      have := (hB.bytes t).1
      simp only [flush, Hd.inc, Hd.write]
      exact ⟨by omega, by omega⟩
    · rename_i c4
      split
      · rename_i z
        refine B_flushed rfl ?_ ?_
        · intro t
          have := (hB.lines t).1
          simp only [flush, Hd.inc, Hd.write]
          exact ⟨by omega, fun _ => by omega⟩
        · intro t
          obtain ⟨a, b, _⟩ := hB.bytes t
          have := size_nonneg (rows h.buf)
          simp only [flush, Hd.inc, Hd.write]
          exact ⟨by omega, by omega⟩
      · rename_i z
        refine ⟨fun z' => absurd z' z, ?_, ?_⟩
        · intro t
          obtain ⟨a, b⟩ := hB.lines t
          simp only [Hd.inc, Hd.write] at c ⊢
          refine ⟨?_, fun z => by omega⟩
          simp only [rows_append, rows, List.length_append, List.length_cons, List.length_nil]
          omega
        · intro t
          obtain ⟨a, b, e⟩ := hB.bytes t
          simp only [Hd.inc, Hd.write] at c4 es ⊢
          refine ⟨by omega, by omega, fun z => by omega⟩

/-- All of the state. -/
def BS (cfg : Cfg) (s : St) : Prop := ∀ h, s.h = some h → B cfg h

theorem BS_step {cfg : Cfg} (hc : Counts cfg) {g : Log} {s : St} (hS : S cfg (fun _ => True) g s)
    (hB : BS cfg s) {op : Op}
    (hp : cfg.bufType = 3 → op ≠ .rowCount ∧ ∀ r, op ≠ .rowText r) : BS cfg (step cfg s op) := by
  intro x hx
  have inc : ∀ h : Hd, cfg.bufType ≠ 3 → B cfg h.inc → B cfg h := fun h n b =>
    ⟨b.zero, fun t => absurd t n, b.bytes⟩
  cases op with
  | tick k => exact hB x hx
  | «open» =>
    simp only [step, «open»] at hx
    cases hh : s.h with
    | some h =>
      rw [hh] at hx
      cases hx
      exact (hB h hh).less (k := []) rfl rfl rfl rfl
    | none =>
      rw [hh] at hx
      cases hx
      exact B_flushed rfl (fun _ => ⟨by simp, fun _ => by simp⟩) (fun _ => ⟨by simp, by simp⟩)
  | close =>
    simp only [step, close] at hx
    cases hh : s.h with
    | none => rw [hh] at hx; simp only [hh] at hx; cases hx
    | some h =>
      rw [hh] at hx
      simp only [] at hx
      split at hx
      · cases hx
      · cases hx
        exact (hB h hh).less (k := []) rfl rfl rfl rfl
  | store r =>
    simp only [step, store] at hx
    cases hh : s.h with
    | none => rw [hh] at hx; simp only [hh] at hx; cases hx
    | some h =>
      rw [hh] at hx
      simp only [] at hx
      split at hx
      · cases hx; exact (hB h hh).header _
      · cases hx; exact ((hB h hh).header _).store r _
  | row r =>
    simp only [step, storeRow] at hx
    cases hh : s.h with
    | none => rw [hh] at hx; simp only [count, hh] at hx; cases hx
    | some h =>
      rw [hh] at hx
      simp only [] at hx
      split at hx
      · rename_i hb
        obtain ⟨_, _, K, _, j⟩ := hS.some' h hh
        rw [j.header.2] at hb
        cases hb
      · simp only [count] at hx
        cases hx; exact ((hB h hh).header _).row r _
  | rowText r =>
    have n3 : cfg.bufType ≠ 3 := fun t => absurd rfl ((hp t).2 r)
    simp only [step, storeRow] at hx
    cases hh : s.h with
    | none => rw [hh] at hx; simp only [hh] at hx; cases hx
    | some h =>
      rw [hh] at hx
      simp only [] at hx
      split at hx
      · cases hx; exact (hB h hh).header _
      · cases hx; exact inc _ n3 (((hB h hh).header _).row r _)
  | rowCount =>
    have n3 : cfg.bufType ≠ 3 := fun t => absurd rfl (hp t).1
    simp only [step, count] at hx
    cases hh : s.h with
    | none => rw [hh] at hx; simp only [hh] at hx; cases hx
    | some h =>
      rw [hh] at hx
      cases hx
      have b := hB h hh
      exact ⟨b.zero, fun t => absurd t n3, b.bytes⟩
  | roll =>
    simp only [step] at hx
    split at hx
    · rename_i hr
      unfold roll at hx
      cases hh : s.h with
      | none => rw [hh] at hx; simp only [hh] at hx; cases hx
      | some h =>
        rw [hh] at hx
        simp only [] at hx
        have hb := hB h hh
        cases hd : rollDue cfg h with
        | none =>
          rw [hd] at hx
          simp only [hh] at hx
          cases hx
          exact hb
        | some h' =>
          rw [hd] at hx
          cases hx
          unfold rollDue at hd
          split at hd
          · split at hd
            · cases hd
            · cases hd
              refine B_flushed rfl (fun _ => ⟨by simp, fun _ => by simp⟩) ?_
              intro t
              exact ⟨(hb.bytes t).1, (hb.bytes t).1⟩
          · split at hd
            · cases hd
            · cases hd
              exact B_flushed rfl (fun _ => ⟨by simp, fun _ => by simp⟩) (fun _ => ⟨by simp, by simp⟩)
          · rename_i n3 n4
            split at hd
            · cases hd
            · cases hd
              refine B_flushed rfl ?_ ?_
              · intro t
                rcases hc t with e | e | e
                · omega
                · exact absurd e n3
                · exact absurd e n4
              · intro t
                obtain ⟨a, b, _⟩ := hb.bytes t
                have := size_nonneg (rows h.buf)
                exact ⟨a, by simp only []; omega⟩
    · exact hB x hx
  | flush =>
    simp only [step] at hx
    cases hh : s.h with
    | none => rw [hh] at hx; simp only [hh] at hx; cases hx
    | some h =>
      rw [hh] at hx
      cases hx
      exact (hB h hh).less (k := rows h.buf) (by simp [flush, rows]) rfl rfl rfl
  | drain k =>
    simp only [step] at hx
    cases hh : s.h with
    | none => rw [hh] at hx; simp only [hh] at hx; cases hx
    | some h =>
      rw [hh] at hx
      cases hx
      refine (hB h hh).less (k := rows (h.buf.take k)) ?_ rfl rfl rfl
      rw [← rows_append, List.take_append_drop]
  | crash => cases hx

theorem BS_run {cfg : Cfg} (hc : Counts cfg) (ops : List Op)
    (hp : cfg.bufType = 3 → Plain ops) : BS cfg (run cfg ops) := by
  induction ops using snocInd with
  | h0 => intro h hh; cases hh
  | h1 ops op ih =>
    rw [run_snoc]
    exact BS_step hc (S_run (L := fun _ => True) trivial ops (fun _ _ _ _ _ => trivial))
      (ih fun t o ho => hp t o (by simp [ho])) (fun t => hp t op (by simp))

end Verif.CsvFile
