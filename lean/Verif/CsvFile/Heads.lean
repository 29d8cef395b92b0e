import Verif.CsvFile.Proofs

/-!
# Proofs: headers
-/

namespace Verif.CsvFile

/-- A file is empty or begins with a header. -/
def First (l : List Item) : Prop := l = [] ∨ l.head? = some .head

theorem First.append {l : List Item} (h : First l) (x : List Item) (hx : l = [] → First x) :
    First (l ++ x) := by
  rcases h with rfl | h
  · exact hx rfl
  · right
    cases l with
    | nil => cases h
    | cons a l => exact h

/-- A file for a header. -/
def OneHead (l : List Item) : Prop := l = [] ∨ l = [.head]

/-- What is kept of a handle. -/
structure HH (cfg : Cfg) (o : Nat → Nat) (d : Name → List Item) (h : Hd) : Prop where
  tagged : ∃ t, h.name = .data (tag cfg t) ∧ h.hname = .hdr (tag cfg t) ∧ 0 < o t
  due : h.hopen = true ↔ h.print = .first ∨ h.print = .again
  ok : h.print ≠ .bad
  empty : h.hopen = true → h.buf = []
  noHead : heads h.buf = 0
  begun : cfg.alt = false → h.hopen = false → d h.name ≠ []
  count : cfg.alt = false → h.hopen = true → ∀ t, h.name = .data (some t) →
    heads (d h.name) + 1 ≤ o t
  hdr : cfg.alt = true → h.hopen = true → d h.hname = []
  hdrDone : cfg.alt = true → h.hopen = false → d h.hname = [.head]
  fresh : cfg.roll ≥ 1 → (∀ t, o t ≤ 1) → h.hopen = true → d h.name = []

/-- What is kept of the files. -/
structure HD (cfg : Cfg) (o : Nat → Nat) (d : Name → List Item) : Prop where
  first : cfg.alt = false → ∀ t, First (d (.data t))
  count : cfg.alt = false → ∀ t, heads (d (.data (some t))) ≤ o t
  none : cfg.alt = true → ∀ t, heads (d (.data t)) = 0
  hdr : cfg.alt = true → ∀ t, OneHead (d (.hdr t))
  unused : cfg.roll ≥ 1 → ∀ t, o t = 0 → d (.data (some t)) = []
  headed : cfg.alt = true → cfg.roll ≥ 1 → (∀ t, o t ≤ 1) →
    ∀ t, rows (d (.data (some t))) ≠ [] → d (.hdr (some t)) = [.head]

def HP (cfg : Cfg) (o : Nat → Nat) (d : Name → List Item) (h : Hd) : Prop := HD cfg o d ∧ HH cfg o d h

theorem append_same (d : Name → List Item) (n : Name) (l : List Item) : append d n l n = d n ++ l := by
  simp [append]

theorem append_other (d : Name → List Item) {n m : Name} (h : m ≠ n) (l : List Item) :
    append d n l m = d m := by
  simp [append, h]

theorem heads_rows {l : List Item} (h : heads l = 0) : First l → l = [] := by
  intro hf
  rcases hf with h' | h'
  · exact h'
  · cases l with
    | nil => rfl
    | cons x l =>
      simp at h'
      subst h'
      simp [heads] at h

section
variable {cfg : Cfg} {o : Nat → Nat} {d : Name → List Item} {h : Hd}

theorem HP.drain (hP : HP cfg o d h) (k : Nat) :
    HP cfg o (append d h.name (h.buf.take k)) { h with buf := h.buf.drop k } := by
  obtain ⟨hd, hh⟩ := hP
  obtain ⟨t, e1, e2, e3⟩ := hh.tagged
  have nh : heads (h.buf.take k) = 0 := by
    have := congrArg heads (List.take_append_drop k h.buf)
    rw [heads_append, hh.noHead] at this
    omega
  have hx : ∀ u, append d h.name (h.buf.take k) (.hdr u) = d (.hdr u) := fun u =>
    append_other _ (by rw [e1]; simp) _
  have em : h.hopen = true → append d h.name (h.buf.take k) = d := by
    intro ho
    rw [hh.empty ho]
    funext m
    simp [append]
  constructor
  · refine ⟨?_, ?_, ?_, ?_, ?_, ?_⟩
    · intro ha u
      by_cases hu : Name.data u = h.name
      · rw [hu, append_same]
        have := hd.first ha u
        rw [hu] at this
        refine this.append _ ?_
        intro hn
        cases ho : h.hopen with
        | true => rw [hh.empty ho]; simp [First]
        | false => exact absurd hn (hh.begun ha ho)
      · rw [append_other _ hu]
        exact hd.first ha u
    · intro ha u
      by_cases hu : Name.data (some u) = h.name
      · rw [hu, append_same, heads_append, nh]
        have := hd.count ha u
        rw [hu] at this
        simpa using this
      · rw [append_other _ hu]
        exact hd.count ha u
    · intro ha u
      by_cases hu : Name.data u = h.name
      · rw [hu, append_same, heads_append, nh]
        have := hd.none ha u
        rw [hu] at this
        simpa using this
      · rw [append_other _ hu]
        exact hd.none ha u
    · intro ha u
      rw [hx]
      exact hd.hdr ha u
    · intro hr u hu
      rw [append_other, hd.unused hr u hu]
      rw [e1]
      intro e
      simp only [tag, if_pos hr, Name.data.injEq, Option.some.injEq] at e
      subst e
      omega
    · intro ha hr hone u hu
      rw [hx]
      by_cases hn : Name.data (some u) = h.name
      · cases ho : h.hopen with
        | true =>
          rw [em ho] at hu
          exact hd.headed ha hr hone u hu
        | false =>
          have := hh.hdrDone ha ho
          rw [e2] at this
          rw [e1] at hn
          simp only [Name.data.injEq] at hn
          rw [hn]
          exact this
      · rw [append_other _ hn] at hu
        exact hd.headed ha hr hone u hu
  · refine ⟨⟨t, e1, e2, e3⟩, hh.due, hh.ok, ?_, heads_drop hh.noHead k, ?_, ?_, ?_, ?_, ?_⟩
    · intro ho
      simp [hh.empty ho]
    · intro ha ho
      have := hh.begun ha ho
      simp only [append_same]
      simp [this]
    · intro ha ho u hu
      have := hh.count ha ho u hu
      simp only [append_same, heads_append, nh]
      omega
    · intro ha ho
      simp only [e2, hx]
      have := hh.hdr ha ho
      rwa [e2] at this
    · intro ha ho
      simp only [e2, hx]
      have := hh.hdrDone ha ho
      rwa [e2] at this
    · intro hr hone ho
      simp only [em ho]
      exact hh.fresh hr hone ho

theorem HP.flush (hP : HP cfg o d h) : HP cfg o (flush d h).1 (flush d h).2 := by
  have := hP.drain h.buf.length
  simpa [CsvFile.flush] using this

theorem HP.header (hP : HP cfg o d h) :
    HP cfg o (header cfg d h).1 (header cfg d h).2 ∧ (header cfg d h).2.hopen = false := by
  obtain ⟨hd, hh⟩ := hP
  obtain ⟨t, e1, e2, e3⟩ := hh.tagged
  have key : (h.print = .first ∨ h.print = .again) →
      HP cfg o (printHeader cfg d h).1 (printHeader cfg d h).2 ∧
        (printHeader cfg d h).2.hopen = false := by
    intro hp
    have ho := hh.due.mpr hp
    have hb := hh.empty ho
    unfold printHeader
    simp only [ho, Bool.not_true, Bool.false_eq_true, if_false]
    by_cases ha : cfg.alt = true
    · rw [if_pos ha]
      simp only []
      have hx : ∀ u, append d h.hname [.head] (.data u) = d (.data u) := fun u =>
        append_other _ (by rw [e2]; simp) _
      have h0 := hh.hdr ha ho
      have hs : append d h.hname [.head] h.hname = [.head] := by rw [append_same, h0]; rfl
      refine ⟨⟨⟨?_, ?_, ?_, ?_, ?_, ?_⟩, ⟨t, e1, e2, e3⟩, by simp, by simp, by simp, hh.noHead, ?_,
        by simp, by simp, ?_, by simp⟩, trivial⟩
      · intro ha'; rw [ha] at ha'; cases ha'
      · intro ha'; rw [ha] at ha'; cases ha'
      · intro _ u; rw [hx]; exact hd.none ha u
      · intro _ u
        by_cases hu : Name.hdr u = h.hname
        · rw [hu, hs]; exact .inr rfl
        · rw [append_other _ hu]; exact hd.hdr ha u
      · intro hr u hu; rw [hx]; exact hd.unused hr u hu
      · intro _ hr hone u hu
        by_cases hn : Name.hdr (some u) = h.hname
        · rw [hn, hs]
        · rw [append_other _ hn]
          rw [hx] at hu
          exact hd.headed ha hr hone u hu
      · intro ha'; rw [ha] at ha'; cases ha'
      · intro _ _
        exact hs
    · rw [if_neg ha]
      have ha' : cfg.alt = false := by simpa using ha
      simp only [CsvFile.flush, hb, List.nil_append]
      refine ⟨⟨⟨?_, ?_, ?_, ?_, ?_, ?_⟩, ⟨t, e1, e2, e3⟩, by simp, by simp, by simp, rfl, ?_,
        by simp, fun a => absurd a ha, fun a => absurd a ha, by simp⟩, trivial⟩
      · intro _ u
        by_cases hu : Name.data u = h.name
        · rw [hu, append_same]
          have := hd.first ha' u
          rw [hu] at this
          exact this.append _ fun _ => .inr rfl
        · rw [append_other _ hu]; exact hd.first ha' u
      · intro _ u
        by_cases hu : Name.data (some u) = h.name
        · rw [hu, append_same, heads_append]
          have := hh.count ha' ho u hu.symm
          simpa [heads] using this
        · rw [append_other _ hu]; exact hd.count ha' u
      · exact fun a => absurd a ha
      · exact fun a => absurd a ha
      · intro hr u hu
        rw [append_other, hd.unused hr u hu]
        rw [e1]
        intro e
        simp only [tag, if_pos hr, Name.data.injEq, Option.some.injEq] at e
        subst e
        omega
      · exact fun a => absurd a ha
      · intro _ _
        simp only [append_same]
        simp
  unfold CsvFile.header
  cases hp : h.print with
  | first => exact key (.inl hp)
  | again => exact key (.inr hp)
  | dont =>
    refine ⟨⟨hd, hh⟩, ?_⟩
    cases ho : h.hopen with
    | false => rfl
    | true => have := hh.due.mp ho; simp [hp] at this
  | bad => exact absurd hp hh.ok

theorem HP.inc (hP : HP cfg o d h) : HP cfg o d h.inc := by
  obtain ⟨hd, a1, a2, a3, a4, a5, a6, a7, a8, a9, a10⟩ := hP
  exact ⟨hd, a1, a2, a3, a4, a5, a6, a7, a8, a9, a10⟩

theorem HP.lastflush (hP : HP cfg o d h) (x : Int) : HP cfg o d { h with lastflush := x } := by
  obtain ⟨hd, a1, a2, a3, a4, a5, a6, a7, a8, a9, a10⟩ := hP
  exact ⟨hd, a1, a2, a3, a4, a5, a6, a7, a8, a9, a10⟩

theorem HP.refs (hP : HP cfg o d h) (x : Nat) : HP cfg o d { h with refs := x } := by
  obtain ⟨hd, a1, a2, a3, a4, a5, a6, a7, a8, a9, a10⟩ := hP
  exact ⟨hd, a1, a2, a3, a4, a5, a6, a7, a8, a9, a10⟩

theorem HP.write (hP : HP cfg o d h) (ho : h.hopen = false) (r : Row) : HP cfg o d (h.write r) := by
  obtain ⟨hd, a1, a2, a3, a4, a5, a6, a7, a8, a9, a10⟩ := hP
  exact ⟨hd, a1, a2, a3, (by intro h'; simp only [Hd.write, ho] at h'; cases h'),
    by simp [Hd.write, heads, a5], a6, a7, a8, a9, a10⟩

theorem HP.flushDue (hP : HP cfg o d h) :
    HP cfg o (flushDue cfg d h).1 (flushDue cfg d h).2 := by
  unfold CsvFile.flushDue
  split
  · exact (hP.lastflush _).flush
  · split
    · exact (hP.lastflush _).flush
    · split
      · exact hP.flush
      · exact hP

end

/-- One more opening at a time. -/
def bump (o : Nat → Nat) (now : Nat) : Nat → Nat := fun t => if t = now then o t + 1 else o t

theorem bump_le (o : Nat → Nat) (now t : Nat) : o t ≤ bump o now t := by
  unfold bump; split <;> omega

theorem bump_one {o : Nat → Nat} {now : Nat} (h : ∀ t, bump o now t ≤ 1) :
    (∀ t, o t ≤ 1) ∧ o now = 0 := by
  refine ⟨fun t => Nat.le_trans (bump_le o now t) (h t), ?_⟩
  have := h now
  simp [bump] at this
  exact this

theorem HD.bump {cfg : Cfg} {o : Nat → Nat} {d : Name → List Item} (hd : HD cfg o d) (now : Nat) :
    HD cfg (bump o now) d :=
  ⟨hd.first, fun ha t => Nat.le_trans (hd.count ha t) (bump_le _ _ _), hd.none, hd.hdr,
    fun hr t ht => hd.unused hr t (by have := bump_le o now t; omega),
    fun ha hr h1 => hd.headed ha hr (bump_one h1).1⟩

theorem HP.bump {cfg : Cfg} {o : Nat → Nat} {d : Name → List Item} {h : Hd} (hP : HP cfg o d h)
    (now : Nat) : HP cfg (bump o now) d h := by
  obtain ⟨hd, ⟨t, e1, e2, e3⟩, a2, a3, a4, a5, a6, a7, a8, a9, a10⟩ := hP
  refine ⟨hd.bump now, ⟨t, e1, e2, ?_⟩, a2, a3, a4, a5, a6, ?_, a8, a9, ?_⟩
  · have := bump_le o now t; omega
  · intro ha ho u hu
    exact Nat.le_trans (a7 ha ho u hu) (bump_le _ _ _)
  · intro hr h1
    exact a10 hr (bump_one h1).1

/-- A new file. -/
theorem HP_new {cfg : Cfg} {o : Nat → Nat} {d : Name → List Item} (hd : HD cfg o d) (now : Nat)
    {h : Hd} (e1 : h.name = .data (tag cfg now)) (e2 : h.hname = .hdr (tag cfg now))
    (e3 : h.buf = []) (e4 : h.hopen = true) (e5 : h.print = .first ∨ h.print = .again) :
    HP cfg (bump o now) (if cfg.alt then truncate d (.hdr (tag cfg now)) else d) h := by
  have hx : ∀ u, (if cfg.alt then truncate d (.hdr (tag cfg now)) else d) (.data u) = d (.data u) := by
    intro u
    split
    · simp [truncate]
    · rfl
  have hb := hd.bump now
  constructor
  · refine ⟨?_, ?_, ?_, ?_, ?_, ?_⟩
    · intro ha u; rw [hx]; exact hb.first ha u
    · intro ha u; rw [hx]; exact hb.count ha u
    · intro ha u; rw [hx]; exact hb.none ha u
    · intro ha u
      rw [if_pos ha]
      unfold truncate
      split
      · exact .inl rfl
      · exact hb.hdr ha u
    · intro hr u hu; rw [hx]; exact hb.unused hr u hu
    · intro ha hr h1 u hu
      rw [hx] at hu
      have h0 := (bump_one h1).2
      rw [if_pos ha]
      unfold truncate
      rw [if_neg]
      · exact hb.headed ha hr h1 u hu
      · intro e
        simp only [tag, if_pos hr, Name.hdr.injEq, Option.some.injEq] at e
        subst e
        rw [hd.unused hr u h0] at hu
        exact hu rfl
  · refine ⟨⟨now, e1, e2, by simp [bump]⟩, by simp [e4, e5], ?_, fun _ => e3, by rw [e3]; rfl, ?_, ?_,
      ?_, ?_, ?_⟩
    · rcases e5 with e | e <;> simp [e]
    · intro _ ho; rw [e4] at ho; cases ho
    · intro ha _ u hu
      rw [e1, hx]
      rw [e1] at hu
      unfold tag at hu ⊢
      split at hu
      · simp only [Name.data.injEq, Option.some.injEq] at hu
        subst hu
        rename_i hr
        simp only [if_pos hr]
        have := hd.count ha now
        simp [CsvFile.bump]
        exact this
      · simp at hu
    · intro ha _
      rw [if_pos ha, e2]
      simp [truncate]
    · intro _ ho; rw [e4] at ho; cases ho
    · intro hr h1 _
      rw [e1, hx]
      simp only [tag, if_pos hr]
      exact hd.unused hr now (bump_one h1).2

/-- The state. -/
structure HS (cfg : Cfg) (g : Log) (s : St) : Prop where
  now : s.now = g.now
  files : HD cfg g.opens s.disk
  handle : ∀ h, s.h = some h → HH cfg g.opens s.disk h

theorem HS.pair {cfg : Cfg} {g : Log} {s : St} (hS : HS cfg g s) {h : Hd} (hh : s.h = some h) :
    HP cfg g.opens s.disk h := ⟨hS.files, hS.handle h hh⟩

theorem HS_of {cfg : Cfg} {g : Log} {s : St} {h : Hd} (hn : s.now = g.now) (hh : s.h = some h)
    (hP : HP cfg g.opens s.disk h) : HS cfg g s :=
  ⟨hn, hP.1, fun x hx => by rw [hh] at hx; cases hx; exact hP.2⟩

theorem HS_log {cfg : Cfg} {g g' : Log} {s : St} (hS : HS cfg g s) (h1 : g'.now = g.now)
    (h2 : g'.opens = g.opens) : HS cfg g' s :=
  ⟨by rw [h1]; exact hS.now, by rw [h2]; exact hS.files, by rw [h2]; exact hS.handle⟩

theorem HS_bump {cfg : Cfg} {g : Log} {s : St} (hS : HS cfg g s) : HS cfg g.opened s :=
  ⟨hS.now, hS.files.bump _, fun _ hh => ((hS.pair hh).bump _).2⟩

theorem put_now (g : Log) (r : Row) : (g.put r).now = g.now := by unfold Log.put; split <;> rfl
theorem put_opens (g : Log) (r : Row) : (g.put r).opens = g.opens := by unfold Log.put; split <;> rfl

theorem HS_step {cfg : Cfg} {g : Log} {s : St} (hS : HS cfg g s) (op : Op) :
    HS cfg (logStep g op) (step cfg s op) := by
  cases op with
  | tick k => exact ⟨by simp [step, logStep, hS.now], hS.files, hS.handle⟩
  | «open» =>
    simp only [step, logStep, «open»]
    cases hh : s.h with
    | some h => exact HS_of hS.now rfl (((hS.pair hh).bump g.now).refs _)
    | none =>
      refine HS_of hS.now rfl ?_
      have := HP_new hS.files g.now (h := { name := .data (tag cfg s.now), hname := .hdr (tag cfg s.now), buf := []
                                            hopen := true, print := .first, stored := 0, bytes := 0
                                            lastflush := 0, refs := 1 })
        (by simp only [hS.now]) (by simp only [hS.now]) rfl rfl (.inl rfl)
      simp only [hS.now] at this ⊢
      exact this
  | close =>
    simp only [step, logStep, close]
    cases hh : s.h with
    | none => exact HS_log hS rfl rfl
    | some h =>
      simp only []
      split
      · exact ⟨hS.now, (hS.pair hh).flush.1, fun x hx => by cases hx⟩
      · exact HS_of hS.now rfl ((hS.pair hh).refs _)
  | store r =>
    simp only [step, logStep, store]
    cases hh : s.h with
    | none => exact HS_log hS (put_now g r) (put_opens g r)
    | some h =>
      have hp := (hS.pair hh).header
      simp only [if_neg hp.1.2.ok]
      refine HS_of (by rw [put_now]; exact hS.now) rfl ?_
      rw [put_opens]
      exact ((hp.1.write hp.2 r).inc).flushDue
  | row r =>
    simp only [step, logStep, storeRow]
    cases hh : s.h with
    | none => simp only [count, hh]; exact HS_log hS (put_now g r) (put_opens g r)
    | some h =>
      have hp := (hS.pair hh).header
      simp only [if_neg hp.1.2.ok, count]
      refine HS_of (by rw [put_now]; exact hS.now) rfl ?_
      rw [put_opens]
      exact ((hp.1.write hp.2 r).flushDue).inc
  | rowText r =>
    simp only [step, logStep, storeRow]
    cases hh : s.h with
    | none => exact HS_log hS (put_now g r) (put_opens g r)
    | some h =>
      have hp := (hS.pair hh).header
      simp only [if_neg hp.1.2.ok]
      refine HS_of (by rw [put_now]; exact hS.now) rfl ?_
      rw [put_opens]
      exact (hp.1.write hp.2 r).flushDue
  | rowCount =>
    simp only [step, logStep, count]
    cases hh : s.h with
    | none => exact hS
    | some h => exact HS_of hS.now rfl (hS.pair hh).inc
  | roll =>
    simp only [step, logStep]
    split
    · unfold roll
      cases hh : s.h with
      | none => exact HS_bump hS
      | some h =>
        simp only []
        cases hd : rollDue cfg h with
        | none => exact HS_bump hS
        | some h' =>
          obtain ⟨e1, e2, e3, e4, e5, e6⟩ := rollDue_same hd
          have ed : (flush s.disk h').1 = (flush s.disk h).1 := by simp [flush, e1, e3]
          simp only [ed]
          refine HS_of hS.now rfl ?_
          have := HP_new (hS.pair hh).flush.1 g.now
            (h := { h' with name := .data (tag cfg s.now), hname := .hdr (tag cfg s.now)
                            buf := [], hopen := true, print := .again, stored := 0 })
            (by simp only [hS.now]) (by simp only [hS.now]) rfl rfl (.inr rfl)
          simp only [hS.now] at this ⊢
          exact this
    · exact HS_bump hS
  | flush =>
    simp only [step, logStep]
    cases hh : s.h with
    | none => exact hS
    | some h => exact HS_of hS.now rfl (hS.pair hh).flush
  | drain k =>
    simp only [step, logStep]
    cases hh : s.h with
    | none => exact hS
    | some h => exact HS_of hS.now rfl ((hS.pair hh).drain k)
  | crash => exact ⟨hS.now, hS.files, fun x hx => by cases hx⟩

theorem HS_run (cfg : Cfg) (ops : List Op) : HS cfg (log ops) (run cfg ops) := by
  induction ops using snocInd with
  | h0 =>
    refine ⟨rfl, ⟨fun _ _ => .inl rfl, fun _ _ => Nat.le_refl _, fun _ _ => rfl, fun _ _ => .inl rfl,
      fun _ _ _ => rfl, ?_⟩, fun x hx => by cases hx⟩
    intro _ _ _ t ht
    exact absurd rfl ht
  | h1 ops op ih =>
    rw [run_snoc, log_snoc]
    exact HS_step ih op

end Verif.CsvFile
