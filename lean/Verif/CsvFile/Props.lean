import Verif.CsvFile.Bound
import Verif.CsvFile.Bytes

/-!
# C67: rows are kept over files

What is asked: every row is stored in one file, in order; a file begins with a header, or
has one beside it; if the program ends at any time, at most as much is lost as the
configuration says; files are rolled over when they should.
-/

namespace Verif.CsvFile

/-! ## Rows -/

/-- While the program does not crash no row is lost and none is there twice: when the
store is closed, the files, in the order of their times, have the rows in the order in
which they were stored, however often files were rolled, flushed and opened again. -/
theorem csvfile_rows (cfg : Cfg) {ops : List Op} (hc : Op.crash ∉ ops)
    (hclosed : (log ops).users = 0) : filed cfg (run cfg ops) = (log ops).cur := by
  have hS := S_run (cfg := cfg) (L := fun _ => True) trivial ops (fun _ _ _ _ _ => trivial)
  have hp : (log ops).past = [] := by
    clear hS hclosed
    induction ops using snocInd with
    | h0 => rfl
    | h1 ops op ih =>
      rw [log_snoc]
      have ih := ih fun h => hc (by simp [h])
      cases op <;> simp only [logStep, Log.opened] <;> first
        | exact ih
        | (unfold Log.put; split <;> exact ih)
        | (exfalso; exact hc (by simp))
  cases hh : (run cfg ops).h with
  | some h => have := (hS.some' h hh).2.1; omega
  | none =>
    obtain ⟨_, K, hK, e⟩ := hS.none' hh
    rw [filed_eq, e]
    rw [hp] at hK
    generalize hq : ([] : List (List Row)) = q at hK
    cases hK with
    | nil => rfl
    | snoc _ _ => simp at hq

def r (i : Nat) : Row := ⟨i, 10⟩

/-- A configuration: roll by time, flush after two rows. -/
def exCfg : Cfg := { roll := 1, over := 60, empty := true, bufSz := 2, bufType := 3, alt := false }

def exOps : List Op :=
  [.open, .store (r 1), .tick 3, .roll, .row (r 2), .open, .row (r 3), .tick 1, .roll, .close,
   .store (r 4), .close]

example : Op.crash ∉ exOps ∧ (log exOps).users = 0 ∧
    filed exCfg (run exCfg exOps) = [r 1, r 2, r 3, r 4] ∧
    (run exCfg exOps).disk (.data (some 3)) = [.head, .row (r 2), .row (r 3)] := by decide +kernel

/-- With crashes: the files have of each time between crashes a beginning, in order; what
is missing of it is small.  Partial: if flushing goes by lines, rolling does not go by
time, and rows are counted before anything else happens to the file. -/
theorem csvfile_crash_partial {cfg : Cfg} (hc : Counts cfg) {ops : List Op}
    (hp : cfg.bufType = 3 → Plain ops) :
    ∃ K kc l, Kept (Small cfg) (log ops).past K ∧ filed cfg (run cfg ops) = K ++ kc ∧
      (log ops).cur = kc ++ l ∧ Small cfg l ∧ ((log ops).users = 0 → l = []) := by
  have h0 : Small cfg [] := ⟨fun _ => rfl, fun _ => by simp, fun _ h => by simpa using h⟩
  have hB : ∀ pre post, pre ++ post = ops → ∀ h, (run cfg pre).h = some h → Small cfg (rows h.buf) := by
    intro pre post e h hh
    refine (BS_run hc pre ?_ h hh).small
    intro t o ho
    exact hp t o (by rw [← e]; simp [ho])
  have hS := S_run h0 ops hB
  cases hh : (run cfg ops).h with
  | some h =>
    obtain ⟨_, h2, K, hK, j⟩ := hS.some' h hh
    obtain ⟨kc, e1, e2⟩ := j.total
    exact ⟨K, kc, rows h.buf, hK, e1, e2.symm, hB ops [] (by simp) h hh, fun z => by omega⟩
  | none =>
    obtain ⟨_, K, hK, e⟩ := hS.none' hh
    exact ⟨K, (log ops).cur, [], hK, e, by simp, h0, fun _ => rfl⟩

/-- A crash: the third row is lost. -/
def exCrash : List Op :=
  [.open, .store (r 1), .store (r 2), .store (r 3), .crash, .tick 1, .open, .store (r 4), .close]

example : Counts { exCfg with roll := 0 } ∧ Plain exCrash ∧
    filed { exCfg with roll := 0 } (run { exCfg with roll := 0 } exCrash) = [r 1, r 2, r 4] ∧
    (log exCrash).past = [[r 1, r 2, r 3]] := by
  refine ⟨fun _ => .inl rfl, ?_, by decide +kernel, by decide +kernel⟩
  intro op hop
  simp only [exCrash, List.mem_cons, List.not_mem_nil, or_false] at hop
  rcases hop with e | e | e | e | e | e | e | e | e <;> subst e <;> simp

/-- With `buffer=0` all that was stored is in the files at any time. -/
theorem csvfile_unbuffered {cfg : Cfg} (h0 : cfg.bufSz = 0) (h3 : cfg.bufType ≠ 3) (ops : List Op) :
    filed cfg (run cfg ops) = (log ops).past.flatten ++ (log ops).cur := by
  obtain ⟨K, kc, l, hK, e, e', hs, _⟩ :=
    csvfile_crash_partial (cfg := cfg) (fun t => absurd t h3) (ops := ops) (fun t => absurd t h3)
  have hl := hs.1 h0
  subst hl
  have : ∀ {p k}, Kept (Small cfg) p k → k = p.flatten := by
    intro p k hk
    induction hk with
    | nil => rfl
    | snoc _ hl ih =>
      have := hl.1 h0
      subst this
      simp [ih]
  rw [e, e', this hK]
  simp

example : filed { exCfg with bufSz := 0, bufType := 0 }
    (run { exCfg with bufSz := 0, bufType := 0 } exCrash) = [r 1, r 2, r 3, r 4] := by decide +kernel

/-- What is accepted for `buffer` and `buffertype`. -/
theorem csvfile_buffer {bs bt : Option Int} {n t : Int} :
    configBuffer bs bt = some (n, t) ↔
      (bs = none ∧ bt = none ∧ n = 1 ∧ t = 0) ∨
      (bs = some n ∧ bt = none ∧ (n = 0 ∨ n = 1) ∧ t = 0) ∨
      (bs = some n ∧ bt = some 3 ∧ 2 ≤ n ∧ t = 3) ∨
      ∃ k, bs = some k ∧ bt = some 4 ∧ 2 ≤ k ∧ n = 1024 * k ∧ t = 4 := by
  unfold configBuffer
  cases bs with
  | none => cases bt <;> simp <;> omega
  | some k =>
    by_cases h : k < 0
    · cases bt <;> simp [h] <;> omega
    · by_cases h1 : k = 0 ∨ k = 1
      · cases bt <;> simp [h, h1] <;> omega
      · cases bt with
        | none => simp [h, h1]; omega
        | some u =>
          by_cases h3 : u = 3
          · subst h3; simp [h, h1]; omega
          · by_cases h4 : u = 4
            · subst h4; simp [h, h1]; omega
            · simp [h, h1, h3, h4]

/-! ## Headers -/

/-- Without `altheader` a file that has rows begins with a header. -/
theorem csvfile_header_first (cfg : Cfg) (ha : cfg.alt = false) (ops : List Op) (t : Option Nat)
    (hne : (run cfg ops).disk (.data t) ≠ []) :
    ((run cfg ops).disk (.data t)).head? = some .head :=
  ((HS_run cfg ops).files.first ha t).resolve_left hne

example : (run exCfg exOps).disk (.data (some 3)) ≠ [] := by decide +kernel

/-- It has no more headers than times it was opened; so with rolling, and if in no second
files are opened twice, exactly one.  Partial: see the next theorem. -/
theorem csvfile_header_once_partial (cfg : Cfg) (ha : cfg.alt = false) (ops : List Op) (t : Nat) :
    heads ((run cfg ops).disk (.data (some t))) ≤ (log ops).opens t :=
  (HS_run cfg ops).files.count ha t

example : (log exOps).opens 3 = 2 ∧ (log exOps).opens 4 = 1 := by decide +kernel

/-- Names of files have the second in which they are opened, so a file opened and rolled
in one second has two headers; and without rolling, so has a file that is closed and
opened again. -/
theorem csvfile_second_header_defect :
    (run exCfg [.open, .store (r 1), .roll, .store (r 2), .close]).disk (.data (some 0)) =
      [.head, .row (r 1), .head, .row (r 2)] ∧
    (run { exCfg with roll := 0 } [.open, .store (r 1), .close, .tick 5, .open, .store (r 2), .close]).disk
      (.data none) = [.head, .row (r 1), .head, .row (r 2)] := by decide +kernel

/-- With `altheader` there is no header among rows, and a file for headers has at most
one. -/
theorem csvfile_altheader (cfg : Cfg) (ha : cfg.alt = true) (ops : List Op) (t : Option Nat) :
    heads ((run cfg ops).disk (.data t)) = 0 ∧
    ((run cfg ops).disk (.hdr t) = [] ∨ (run cfg ops).disk (.hdr t) = [.head]) :=
  ⟨(HS_run cfg ops).files.none ha t, (HS_run cfg ops).files.hdr ha t⟩

/-- If in no second files are opened twice, each file with rows has a header beside it. -/
theorem csvfile_altheader_there_partial (cfg : Cfg) (ha : cfg.alt = true) (hr : cfg.roll ≥ 1)
    {ops : List Op} (h1 : ∀ t, (log ops).opens t ≤ 1) {t : Nat}
    (hne : rows ((run cfg ops).disk (.data (some t))) ≠ []) :
    (run cfg ops).disk (.hdr (some t)) = [.head] :=
  (HS_run cfg ops).files.headed ha hr h1 t hne

/-- Two files, each with its header. -/
def exAlt : List Op := [.open, .store (r 1), .tick 1, .roll, .store (r 2), .close]

theorem exAlt_opens (t : Nat) : (log exAlt).opens t ≤ 1 := by
  simp only [log, exAlt, List.foldl, logStep, Log.opened, Log.put]
  simp
  split <;> split <;> omega

example : (∀ t, (log exAlt).opens t ≤ 1) ∧
    rows ((run { exCfg with alt := true } exAlt).disk (.data (some 1))) = [r 2] :=
  ⟨exAlt_opens, by decide +kernel⟩

/-- Otherwise the header can be lost: a file opened again in the second it was opened in,
or, without rolling, at any time later, until the next row is stored. -/
theorem csvfile_altheader_lost_defect :
    (run { exCfg with alt := true } [.open, .store (r 1), .close, .open, .close]).disk (.hdr (some 0)) = [] ∧
    rows ((run { exCfg with alt := true } [.open, .store (r 1), .close, .open, .close]).disk
      (.data (some 0))) = [r 1] := by decide +kernel

/-! ## Flushing -/

/-- A handle with this many rows counted, counted at the last flush, and not written. -/
def Tr (a b : Int) (k : Nat) (s : St) : Prop :=
  ∃ h, s.h = some h ∧ (h.print = .dont ∨ h.print = .again ∧ h.hopen = true ∧ h.buf = []) ∧
    h.stored = a ∧ h.lastflush = b ∧ (rows h.buf).length = k

theorem Tr_store {a b : Int} {k : Nat} {s : St} (h : Tr a b k s) (x : Row) :
    (a + 1 - b < 2 → Tr (a + 1) b (k + 1) (step exCfg s (.store x))) ∧
    (2 ≤ a + 1 - b → Tr (a + 1) (a + 1) 0 (step exCfg s (.store x))) := by
  obtain ⟨⟨name, hname, buf, hopen, print, stored, bytes, lf, refs⟩, hh, hp, e1, e2, e3⟩ := h
  simp only at hp e1 e2 e3
  subst e1 e2 e3
  rcases hp with rfl | ⟨rfl, rfl, rfl⟩
  · constructor
    · intro hd
      simp only [step, store, hh, header, reduceCtorEq, if_false, flushDue, Hd.inc, Hd.write, exCfg,
        true_and]
      rw [if_neg (by omega)]
      exact ⟨_, rfl, .inl rfl, rfl, rfl, by simp [rows]⟩
    · intro hd
      simp only [step, store, hh, header, reduceCtorEq, if_false, flushDue, Hd.inc, Hd.write, exCfg,
        true_and]
      rw [if_pos (by omega)]
      exact ⟨_, rfl, .inl rfl, rfl, rfl, rfl⟩
  · constructor
    · intro hd
      simp only [step, store, hh, header, printHeader, flush, reduceCtorEq, if_false, flushDue, Hd.inc,
        Hd.write, exCfg, true_and, Bool.not_true, Bool.false_eq_true]
      rw [if_neg (by omega)]
      exact ⟨_, rfl, .inl rfl, rfl, rfl, by simp [rows]⟩
    · intro hd
      simp only [step, store, hh, header, printHeader, flush, reduceCtorEq, if_false, flushDue, Hd.inc,
        Hd.write, exCfg, true_and, Bool.not_true, Bool.false_eq_true]
      rw [if_pos (by omega)]
      exact ⟨_, rfl, .inl rfl, rfl, rfl, rfl⟩

/-- Rows. -/
def many (n : Nat) : List Op := List.replicate n (.store (r 0))

theorem Tr_many_flush {s : St} : ∀ (n : Nat) {a : Int}, Tr a a 0 s →
    Tr (a + 2 * n) (a + 2 * n) 0 ((many (2 * n)).foldl (step exCfg) s) := by
  intro n
  induction n generalizing s with
  | zero => intro a h; simpa [many] using h
  | succ n ih =>
    intro a h
    have h1 := (Tr_store h (r 0)).1 (by omega)
    have h2 := (Tr_store h1 (r 0)).2 (by omega)
    have := ih h2
    rw [show 2 * (n + 1) = 2 * n + 1 + 1 by omega]
    simp only [many, List.replicate_succ, List.foldl_cons]
    simp only [many] at this
    have e : a + 1 + 1 + 2 * (n : Int) = a + 2 * ((n + 1 : Nat) : Int) := by omega
    rwa [e] at this

theorem Tr_many_kept : ∀ (n : Nat) {s : St} {a b : Int} {k : Nat}, Tr a b k s → a + n - b < 2 →
    Tr (a + n) b (k + n) ((many n).foldl (step exCfg) s) := by
  intro n
  induction n with
  | zero => intro s a b k h _; simpa [many] using h
  | succ n ih =>
    intro s a b k h hd
    have h1 := (Tr_store h (r 0)).1 (by omega)
    have := ih h1 (by omega)
    simp only [many, List.replicate_succ, List.foldl_cons]
    simp only [many] at this
    have e : a + 1 + (n : Int) = a + ((n + 1 : Nat) : Int) := by omega
    rw [e, show k + 1 + n = k + (n + 1) by omega] at this
    exact this

/-- Rolling by time sets the count of rows back but not the count at the last flush: then
with `buffer=2 buffertype=3` any number of rows is not written, and lost if the program
ends. -/
theorem csvfile_flush_defect (n : Nat) :
    ∃ ops h, Plain ops ∧ (run exCfg ops).h = some h ∧ (rows h.buf).length = n := by
  have h0 : Tr 2 2 0 (run exCfg [.open, .store (r 0), .store (r 0)]) :=
    ⟨_, rfl, .inl rfl, rfl, rfl, rfl⟩
  have h1 := Tr_many_flush n h0
  have h2 : Tr 0 (2 + 2 * n) 0
      ([Op.tick 1, .roll].foldl (step exCfg)
        ((many (2 * n)).foldl (step exCfg) (run exCfg [.open, .store (r 0), .store (r 0)]))) := by
    obtain ⟨h, hh, hp, e1, e2, e3⟩ := h1
    have : ∃ n1 n2, ([Op.tick 1, .roll].foldl (step exCfg) ((many (2 * n)).foldl (step exCfg)
        (run exCfg [.open, .store (r 0), .store (r 0)]))).h = some { h with
          name := n1, hname := n2, buf := [], hopen := true, print := .again, stored := 0 } := by
      have hd : rollDue exCfg h = some h := by simp [rollDue, exCfg]
      have hr : exCfg.roll ≥ 1 := by decide
      simp only [List.foldl_cons, List.foldl_nil, step, roll, hh, hd, if_pos hr]
      exact ⟨_, _, rfl⟩
    obtain ⟨n1, n2, e⟩ := this
    exact ⟨_, e, .inr ⟨rfl, rfl, rfl⟩, rfl, e2, rfl⟩
  obtain ⟨h, hh, _, _, _, e⟩ := Tr_many_kept n h2 (by omega)
  refine ⟨[.open, .store (r 0), .store (r 0)] ++ many (2 * n) ++ [.tick 1, .roll] ++ many n, h, ?_, ?_, ?_⟩
  · intro op hop
    simp only [many, List.mem_append, List.mem_cons, List.not_mem_nil, or_false, List.mem_replicate] at hop
    rcases hop with ((hop | hop) | hop) | hop
    · rcases hop with e | e | e <;> subst e <;> simp
    · rw [hop.2]; simp
    · rcases hop with e | e <;> subst e <;> simp
    · rw [hop.2]; simp
  · simp only [run, List.foldl_append] at hh ⊢
    exact hh
  · simpa using e

/-! ## Rolling -/

/-- By count: after each check the file in use has fewer rows than the limit.  Partial: in
no second files are opened twice, and rows are counted at once. -/
theorem csvfile_roll_below_partial {cfg : Cfg} (h3 : cfg.roll = 3) {ops : List Op} (hp : Plain ops)
    (h1 : ∀ t, (log (ops ++ [.roll])).opens t ≤ 1) {h : Hd}
    (hh : (run cfg (ops ++ [.roll])).h = some h) :
    (h.rows (run cfg (ops ++ [.roll])).disk).length < max cfg.over 3 := by
  have hr : cfg.roll ≥ 1 := by omega
  have hp' : Plain (ops ++ [.roll]) := by
    intro op ho
    rcases List.mem_append.mp ho with ho | ho
    · exact hp op ho
    · simp at ho; subst ho; simp
  have hC := CS_run cfg _ hp' hr h1 h hh
  unfold Cn at hC
  have key : h.stored < max cfg.over 3 := by
    rw [run_snoc] at hh
    simp only [step, if_pos hr, roll] at hh
    cases hs : (run cfg ops).h with
    | none => rw [hs] at hh; simp only [hs] at hh; cases hh
    | some x =>
      rw [hs] at hh
      simp only [] at hh
      cases hd : rollDue cfg x with
      | none =>
        rw [hd] at hh
        simp only [hs] at hh
        cases hh
        unfold rollDue at hd
        rw [h3] at hd
        simp only [] at hd
        split at hd
        · assumption
        · cases hd
      | some x' =>
        rw [hd] at hh
        cases hh
        simp only []
        omega
  omega

/-- A file that was left has as many rows as the limit; by time, and if empty files are
not to be rolled, at least one. -/
theorem csvfile_rolled_partial {cfg : Cfg} (hr : cfg.roll ≥ 1) {ops : List Op} (hp : Plain ops)
    (h1 : ∀ t, (log ops).opens t ≤ 1) {h h' : Hd} (hh : (run cfg ops).h = some h)
    (hh' : (run cfg (ops ++ [.roll])).h = some h') (hn : h'.name ≠ h.name) :
    (cfg.roll = 3 → max cfg.over 3 ≤ (rows ((run cfg (ops ++ [.roll])).disk h.name)).length) ∧
    (cfg.roll ≠ 3 → cfg.roll ≠ 4 → cfg.empty = false →
      0 < (rows ((run cfg (ops ++ [.roll])).disk h.name)).length) := by
  have hC := CS_run cfg _ hp hr h1 h hh
  have hP := (HS_run cfg ops).pair hh
  obtain ⟨t, e1, e2, _⟩ := hP.2.tagged
  unfold Cn Hd.rows at hC
  rw [run_snoc] at hh' ⊢
  simp only [step, if_pos hr, roll, hh] at hh' ⊢
  cases hd : rollDue cfg h with
  | none =>
    rw [hd] at hh'
    simp only [hh] at hh'
    cases hh'
    exact absurd rfl hn
  | some x =>
    obtain ⟨a1, a2, a3, a4, a5, a6⟩ := rollDue_same hd
    have ed : (flush (run cfg ops).disk x).1 = (flush (run cfg ops).disk h).1 := by simp [flush, a1, a3]
    simp only [ed]
    rw [e1, trunc_data, ← e1]
    have el : rows ((flush (run cfg ops).disk h).1 h.name) =
        rows ((run cfg ops).disk h.name) ++ rows h.buf := by simp [flush, append_same]
    rw [el]
    unfold rollDue at hd
    constructor
    · intro h3
      rw [h3] at hd
      simp only [] at hd
      split at hd
      · cases hd
      · omega
    · intro n3 n4 he
      split at hd
      · rename_i e; exact absurd e n3
      · rename_i e; exact absurd e n4
      · split at hd
        · cases hd
        · rename_i c
          have : h.stored ≠ 0 := fun z => c ⟨z, he⟩
          omega

/-- By size: after each check the file in use has less than the limit, and a file that was
left has as much. -/
theorem csvfile_roll_size_partial {cfg : Cfg} (h4 : cfg.roll = 4) {ops : List Op}
    (h1 : ∀ t, (log (ops ++ [.roll])).opens t ≤ 1) {h' : Hd}
    (hh' : (run cfg (ops ++ [.roll])).h = some h') :
    weight (h'.rows (run cfg (ops ++ [.roll])).disk) < max cfg.over 1024 ∧
    ∀ h, (run cfg ops).h = some h → h'.name ≠ h.name →
      max cfg.over 1024 ≤ weight (rows ((run cfg (ops ++ [.roll])).disk h.name)) := by
  have hr : cfg.roll ≥ 1 := by omega
  have hB' := CB_run cfg _ h4 h1 h' hh'
  have h1' : ∀ t, (log ops).opens t ≤ 1 := by
    intro t
    have := h1 t
    rw [log_snoc] at this
    exact Nat.le_trans (bump_le _ _ _) this
  constructor
  · unfold Cb at hB'
    rw [← hB']
    clear hB'
    rw [run_snoc] at hh'
    simp only [step, if_pos hr, roll] at hh'
    cases hs : (run cfg ops).h with
    | none => rw [hs] at hh'; simp only [hs] at hh'; cases hh'
    | some x =>
      rw [hs] at hh'
      simp only [] at hh'
      cases hd : rollDue cfg x with
      | none =>
        rw [hd] at hh'
        simp only [hs] at hh'
        cases hh'
        unfold rollDue at hd
        rw [h4] at hd
        simp only [] at hd
        split at hd
        · assumption
        · cases hd
      | some x' =>
        rw [hd] at hh'
        cases hh'
        unfold rollDue at hd
        rw [h4] at hd
        simp only [] at hd
        split at hd
        · cases hd
        · cases hd
          simp only []
          omega
  · intro h hh hn
    have hB := CB_run cfg _ h4 h1' h hh
    obtain ⟨t, e1, e2, _⟩ := ((HS_run cfg ops).pair hh).2.tagged
    unfold Cb Hd.rows at hB
    rw [run_snoc] at hh' ⊢
    simp only [step, if_pos hr, roll, hh] at hh' ⊢
    cases hd : rollDue cfg h with
    | none =>
      rw [hd] at hh'
      simp only [hh] at hh'
      cases hh'
      exact absurd rfl hn
    | some x =>
      obtain ⟨a1, a2, a3, a4, a5, a6⟩ := rollDue_same hd
      have ed : (flush (run cfg ops).disk x).1 = (flush (run cfg ops).disk h).1 := by simp [flush, a1, a3]
      simp only [ed]
      rw [e1, trunc_data, ← e1]
      have el : rows ((flush (run cfg ops).disk h).1 h.name) =
          rows ((run cfg ops).disk h.name) ++ rows h.buf := by simp [flush, append_same]
      rw [el, ← hB]
      unfold rollDue at hd
      rw [h4] at hd
      simp only [] at hd
      split at hd
      · cases hd
      · omega

def rollCfg : Cfg := { roll := 3, over := 2, empty := true, bufSz := 1, bufType := 0, alt := false }

def exRoll : List Op := [.open, .store (r 1), .row (r 2), .store (r 3), .store (r 4), .tick 60]

example : (∀ t, (log (exRoll ++ [.roll])).opens t ≤ 1) ∧
    (run rollCfg (exRoll ++ [.roll])).disk (.data (some 0)) =
      [.head, .row (r 1), .row (r 2), .row (r 3), .row (r 4)] ∧
    (run rollCfg (exRoll ++ [.roll])).h.map (·.name) = some (.data (some 60)) := by
  refine ⟨?_, by decide +kernel, by decide +kernel⟩
  intro t
  simp only [log, exRoll, List.cons_append, List.nil_append, List.foldl, logStep, Log.opened, Log.put]
  simp
  split <;> split <;> omega

/-- By size: ten rows of 110 bytes are more than a kilobyte. -/
def sizeOps : List Op := .open :: List.replicate 10 (.row ⟨1, 110⟩) ++ [.tick 60]

example : (∀ t, (log (sizeOps ++ [.roll])).opens t ≤ 1) ∧
    (run { rollCfg with roll := 4 } (sizeOps ++ [.roll])).h.map (·.name) = some (.data (some 60)) ∧
    (run { rollCfg with roll := 4 } (sizeOps.drop 1 ++ [.roll])).h.isNone := by
  refine ⟨?_, by decide +kernel, by decide +kernel⟩
  intro t
  simp only [log, sizeOps, List.replicate, List.cons_append, List.nil_append, List.foldl, logStep, Log.opened,
    Log.put]
  simp
  split <;> split <;> omega

/-- A row is counted after the lock is released: if the file is rolled in between, the new
file is taken to have a row, and is rolled though it is empty and `rollempty=0`. -/
theorem csvfile_empty_rolled_defect :
    ∃ ops : List Op, (run { exCfg with empty := false } ops).disk (.data (some 1)) = [] ∧
      (run { exCfg with empty := false } ops).h.map (·.name) = some (.data (some 2)) ∧
      (run { exCfg with empty := false } (ops.take 6)).h.map (·.name) = some (.data (some 1)) ∧
      ops.drop 6 = [.tick 1, .roll] :=
  ⟨[.open, .row (r 1), .rowText (r 2), .tick 1, .roll, .rowCount, .tick 1, .roll], by decide +kernel⟩

/-! ## Times of rolling -/

/-- Daily: the thread wakes `rollover` seconds after a midnight, not earlier than in ten
seconds. -/
theorem csvfile_daily {over s : Int} :
    (s + sleep2 over s) % 86400 = over % 86400 ∧ (0 ≤ over → s < 86400 → 10 ≤ sleep2 over s) := by
  unfold sleep2
  simp only []
  split <;> exact ⟨by omega, fun _ _ => by omega⟩

/-- If the time of the day has come it is the next one. -/
theorem csvfile_daily_next {over s : Int} (h0 : 0 ≤ over) (h1 : over ≤ s) (h2 : s < 86400) :
    ∀ k, 10 ≤ k → (s + k) % 86400 = over % 86400 → sleep2 over s ≤ k := by
  intro k hk he
  unfold sleep2
  simp only []
  split <;> omega

example : sleep2 3600 3600 = 86400 ∧ sleep2 3600 86399 = 3601 ∧ sleep2 0 86395 = 86405 := by decide

/-- If it has not, it is missed: the thread sleeps over it, until the next day. -/
theorem csvfile_daily_defect {over s : Int} (h1 : s < over) :
    86400 < sleep2 over s ∧ (s + (over - s)) % 86400 = over % 86400 := by
  unfold sleep2
  simp only []
  split <;> exact ⟨by omega, by omega⟩

/-- Daily and again: the thread wakes at `rollover` or a number of times `rollagain` after
it, at the first of these times that is at least ten seconds off. -/
theorem csvfile_again {over again s : Int} (ha : 10 ≤ again) :
    ∃ k : Nat, s + sleep5 over again s = over + k * again ∧ 10 ≤ sleep5 over again s ∧
      ∀ j : Nat, s + 10 ≤ over + j * again → k ≤ j := by
  unfold sleep5
  simp only []
  by_cases h : s < over
  · simp only [if_pos h]
    by_cases h10 : over - s < 10
    · simp only [if_pos h10]
      refine ⟨1, by omega, by omega, ?_⟩
      intro j hj
      cases j with
      | zero => simp at hj; omega
      | succ j => omega
    · simp only [if_neg h10]
      exact ⟨0, by omega, by omega, fun j _ => by omega⟩
  · simp only [if_neg h]
    have hnn : 0 ≤ s - over := by omega
    obtain ⟨q, hq⟩ : ∃ q : Nat, (s - over).tdiv again = q :=
      ⟨((s - over).tdiv again).toNat, (Int.toNat_of_nonneg (Int.tdiv_nonneg hnn (by omega))).symm⟩
    have hq' : (s - over) / again = q := by rw [← hq, Int.tdiv_eq_ediv_of_nonneg hnn]
    have hm := Int.mul_ediv_add_emod (s - over) again
    have hl := Int.emod_lt_of_pos (s - over) (show 0 < again by omega)
    have hg := Int.emod_nonneg (s - over) (show again ≠ 0 by omega)
    rw [hq'] at hm
    rw [hq]
    have e : ((q : Int) + 1) * again = again * q + again := by
      rw [Int.add_mul, Int.one_mul, Int.mul_comm]
    rw [e]
    have least : ∀ j : Nat, s < over + j * again → q + 1 ≤ j := by
      intro j hj
      refine Decidable.byContradiction fun hn => ?_
      have hjq : (j : Int) ≤ q := by omega
      have := Int.mul_le_mul_of_nonneg_right hjq (show 0 ≤ again by omega)
      rw [Int.mul_comm (q : Int)] at this
      omega
    by_cases h10 : again * q + again + over - s < 10
    · simp only [if_pos h10]
      refine ⟨q + 2, ?_, by omega, ?_⟩
      · have : ((q + 2 : Nat) : Int) * again = again * q + again + again := by
          rw [Int.natCast_add, Int.add_mul, Int.mul_comm (q : Int)]
          omega
        omega
      · intro j hj
        have := least j (by omega)
        rcases Nat.lt_or_ge (q + 1) j with h' | h'
        · exact h'
        · have ej : j = q + 1 := by omega
          subst ej
          rw [Int.natCast_add, Int.add_mul, Int.mul_comm (q : Int)] at hj
          omega
    · simp only [if_neg h10]
      refine ⟨q + 1, ?_, by omega, fun j hj => least j (by omega)⟩
      have : ((q + 1 : Nat) : Int) * again = again * q + again := by
        rw [Int.natCast_add, Int.add_mul, Int.mul_comm (q : Int)]
        omega
      omega

example : sleep5 600 3600 0 = 600 ∧ sleep5 600 3600 600 = 3600 ∧ sleep5 600 3600 5000 = 2800 := by decide

/-- `rollover` of the next day is missed, unless `rollagain` divides a day: with
`rollagain` of 50000 seconds and `rollover=0` files are rolled at 50000 and then at 100000
seconds, in the next morning, not at midnight. -/
theorem csvfile_again_defect :
    sleep5 0 50000 0 = 50000 ∧ 50000 + sleep5 0 50000 50000 = 86400 + 13600 ∧
    (100000 - 86400) + sleep5 0 50000 (100000 - 86400) = 50000 := by decide

end Verif.CsvFile
