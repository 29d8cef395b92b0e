import Verif.CsvFile.Spec

/-!
# Proofs: rows
-/

namespace Verif.CsvFile

@[simp] theorem rows_append (a b : List Item) : rows (a ++ b) = rows a ++ rows b := by
  induction a with
  | nil => rfl
  | cons x a ih => cases x <;> simp [rows, ih]

@[simp] theorem heads_append (a b : List Item) : heads (a ++ b) = heads a + heads b := by
  induction a with
  | nil => simp [heads]
  | cons x a ih => cases x <;> simp [heads, ih]; omega

theorem flat_append (f : Nat → List Row) (x : List Row) {t : Nat} (he : ∀ u, t < u → f u = []) :
    ∀ n, t ≤ n → (List.range (n + 1)).flatMap (fun u => if u = t then f u ++ x else f u) =
      (List.range (n + 1)).flatMap f ++ x
  | 0, h => by
    have : t = 0 := by omega
    subst this
    simp
  | n + 1, h => by
    rw [List.range_succ, List.flatMap_append, List.flatMap_append]
    by_cases ht : t = n + 1
    · subst ht
      have e : (List.range (n + 1)).flatMap (fun u => if u = n + 1 then f u ++ x else f u) =
          (List.range (n + 1)).flatMap f := by
        rw [List.flatMap_def, List.flatMap_def]
        congr 1
        refine List.map_congr_left ?_
        intro u hu
        have := List.mem_range.mp hu
        simp [show u ≠ n + 1 by omega]
      rw [e]
      simp
    · rw [flat_append f x he n (by omega)]
      have := he (n + 1) (by omega)
      simp [this, show n + 1 ≠ t by omega]

theorem flat_more (f : Nat → List Row) {n : Nat} (he : ∀ u, n < u → f u = []) :
    ∀ d, (List.range (n + d + 1)).flatMap f = (List.range (n + 1)).flatMap f
  | 0 => rfl
  | d + 1 => by
    rw [show n + (d + 1) + 1 = (n + d + 1) + 1 by omega, List.range_succ, List.flatMap_append,
      flat_more f he d]
    simp [he (n + d + 1) (by omega)]

/-- `filed`, of the files alone. -/
def filedD (cfg : Cfg) (now : Nat) (d : Name → List Item) : List Row :=
  filed cfg { now := now, disk := d, h := none }

theorem filed_eq (cfg : Cfg) (s : St) : filed cfg s = filedD cfg s.now s.disk := rfl

/-- No file has a later time. -/
def Fresh (d : Name → List Item) (t : Nat) : Prop := ∀ u, t < u → d (.data (some u)) = []

theorem Fresh.mono {d : Name → List Item} {t u : Nat} (h : Fresh d t) (hu : t ≤ u) : Fresh d u :=
  fun v hv => h v (by omega)

theorem filed_append {cfg : Cfg} {now t : Nat} {d : Name → List Item} (ht : t ≤ now) (hf : Fresh d t)
    (l : List Item) :
    filedD cfg now (append d (.data (tag cfg t)) l) = filedD cfg now d ++ rows l := by
  unfold filedD filed tag append
  by_cases hr : cfg.roll ≥ 1
  · simp only [if_pos hr]
    have e : (fun u => rows (if Name.data (some u) = Name.data (some t) then
        d (.data (some u)) ++ l else d (.data (some u)))) =
        fun u => if u = t then rows (d (.data (some u))) ++ rows l else rows (d (.data (some u))) := by
      funext u
      by_cases h : u = t <;> simp [h]
    rw [e]
    exact flat_append _ _ (fun u hu => by rw [hf u hu]; rfl) now ht
  · simp [if_neg hr]

theorem fresh_append {cfg : Cfg} {t : Nat} {d : Name → List Item} (hf : Fresh d t) (l : List Item) :
    Fresh (append d (.data (tag cfg t)) l) t := by
  intro u hu
  unfold append tag
  rw [if_neg, hf u hu]
  split
  · simp; omega
  · simp

/-- The data files are the same. -/
def SameData (d d' : Name → List Item) : Prop := ∀ t, d' (.data t) = d (.data t)

theorem SameData.filed {cfg : Cfg} {now : Nat} {d d' : Name → List Item} (h : SameData d d') :
    filedD cfg now d' = filedD cfg now d := by
  unfold filedD CsvFile.filed
  simp only [h _]

theorem SameData.fresh {t : Nat} {d d' : Name → List Item} (h : SameData d d') (hf : Fresh d t) :
    Fresh d' t := fun u hu => by rw [h, hf u hu]

theorem same_append (d : Name → List Item) (t : Option Nat) (l : List Item) :
    SameData d (append d (.hdr t) l) := fun u => by simp [append]

theorem same_truncate (d : Name → List Item) (t : Option Nat) : SameData d (truncate d (.hdr t)) :=
  fun u => by simp [truncate]

/-- The state of a handle: the rows `K` are in files from before, the rows `C` were
stored since. -/
structure J (cfg : Cfg) (now : Nat) (K C : List Row) (d : Name → List Item) (h : Hd) : Prop where
  time : ∃ t, t ≤ now ∧ Fresh d t ∧ h.name = .data (tag cfg t) ∧ h.hname = .hdr (tag cfg t)
  ok : h.print ≠ .bad
  due : h.hopen = true ↔ h.print = .first ∨ h.print = .again
  noHead : heads h.buf = 0
  total : ∃ kc, filedD cfg now d = K ++ kc ∧ kc ++ rows h.buf = C

section
variable {cfg : Cfg} {now : Nat} {K C : List Row} {d : Name → List Item} {h : Hd}

theorem heads_drop {l : List Item} (hl : heads l = 0) (k : Nat) : heads (l.drop k) = 0 := by
  have := congrArg heads (List.take_append_drop k l)
  rw [heads_append] at this
  omega

theorem J.drain (hJ : J cfg now K C d h) (k : Nat) :
    J cfg now K C (append d h.name (h.buf.take k)) { h with buf := h.buf.drop k } := by
  obtain ⟨t, ht, hf, hn, hh⟩ := hJ.time
  obtain ⟨kc, h1, h2⟩ := hJ.total
  refine ⟨⟨t, ht, by rw [hn]; exact fresh_append hf _, hn, hh⟩, hJ.ok, hJ.due, heads_drop hJ.noHead k,
    ⟨kc ++ rows (h.buf.take k), ?_, ?_⟩⟩
  · rw [hn, filed_append ht hf, h1, List.append_assoc]
  · rw [List.append_assoc, ← rows_append, List.take_append_drop, h2]

theorem J.flush (hJ : J cfg now K C d h) : J cfg now K C (flush d h).1 (flush d h).2 := by
  have := hJ.drain h.buf.length
  simpa [CsvFile.flush] using this

theorem J.header (hJ : J cfg now K C d h) :
    J cfg now K C (header cfg d h).1 (header cfg d h).2 ∧ (header cfg d h).2.print = .dont := by
  obtain ⟨t, ht, hf, hn, hh⟩ := hJ.time
  obtain ⟨kc, h1, h2⟩ := hJ.total
  have key : (h.print = .first ∨ h.print = .again) →
      J cfg now K C (printHeader cfg d h).1 (printHeader cfg d h).2 ∧
        (printHeader cfg d h).2.print = .dont := by
    intro hp
    have ho := hJ.due.mpr hp
    unfold printHeader
    simp only [ho, Bool.not_true, Bool.false_eq_true, if_false]
    by_cases ha : cfg.alt = true
    · rw [if_pos ha]
      rw [hh]
      refine ⟨⟨⟨t, ht, (same_append _ _ _).fresh hf, hn, rfl⟩, by simp, by simp, hJ.noHead,
        ⟨kc, ?_, h2⟩⟩, rfl⟩
      rw [(same_append _ _ _).filed, h1]
    · rw [if_neg ha]
      simp only [CsvFile.flush]
      refine ⟨⟨⟨t, ht, by rw [hn]; exact fresh_append hf _, hn, hh⟩, by simp, by simp, rfl,
        ⟨kc ++ rows h.buf, ?_, by simpa [rows] using h2⟩⟩, trivial⟩
      simp only [hn]
      rw [filed_append ht hf, h1]
      simp [rows]
  unfold CsvFile.header
  cases hp : h.print with
  | first => exact key (.inl hp)
  | again => exact key (.inr hp)
  | dont => exact ⟨hJ, hp⟩
  | bad => exact absurd hp hJ.ok

theorem J.write (hJ : J cfg now K C d h) (r : Row) : J cfg now K (C ++ [r]) d (h.write r) := by
  obtain ⟨kc, h1, h2⟩ := hJ.total
  refine ⟨hJ.time, hJ.ok, hJ.due, by simp [Hd.write, heads, hJ.noHead], ⟨kc, h1, ?_⟩⟩
  simp [Hd.write, rows, ← h2]

theorem J.inc (hJ : J cfg now K C d h) : J cfg now K C d h.inc :=
  ⟨hJ.time, hJ.ok, hJ.due, hJ.noHead, hJ.total⟩

theorem J.lastflush (hJ : J cfg now K C d h) (x : Int) : J cfg now K C d { h with lastflush := x } :=
  ⟨hJ.time, hJ.ok, hJ.due, hJ.noHead, hJ.total⟩

theorem J.flushDue (hJ : J cfg now K C d h) :
    J cfg now K C (flushDue cfg d h).1 (flushDue cfg d h).2 := by
  unfold CsvFile.flushDue
  split
  · exact (hJ.lastflush _).flush
  · split
    · exact (hJ.lastflush _).flush
    · split
      · exact hJ.flush
      · exact hJ

end

theorem flushDue_refs (cfg : Cfg) (d : Name → List Item) (h : Hd) :
    (flushDue cfg d h).2.refs = h.refs := by
  unfold flushDue flush
  split
  · rfl
  · split
    · rfl
    · split <;> rfl

theorem header_refs (cfg : Cfg) (d : Name → List Item) (h : Hd) :
    (header cfg d h).2.refs = h.refs := by
  unfold header printHeader flush
  cases h.print <;> simp only [] <;> (try rfl) <;> (split <;> (try rfl)) <;> split <;> rfl

theorem rollDue_same {cfg : Cfg} {h h' : Hd} (e : rollDue cfg h = some h') :
    h'.name = h.name ∧ h'.hname = h.hname ∧ h'.buf = h.buf ∧ h'.hopen = h.hopen ∧
      h'.print = h.print ∧ h'.refs = h.refs := by
  unfold rollDue at e
  split at e <;> split at e <;> simp at e <;> subst e <;> simp

/-- The state. -/
structure S (cfg : Cfg) (L : List Row → Prop) (g : Log) (s : St) : Prop where
  now : s.now = g.now
  fresh : Fresh s.disk s.now
  some' : ∀ h, s.h = some h → h.refs = g.users ∧ 0 < g.users ∧
    ∃ K, Kept L g.past K ∧ J cfg s.now K g.cur s.disk h
  none' : s.h = none → g.users = 0 ∧ ∃ K, Kept L g.past K ∧ filedD cfg s.now s.disk = K ++ g.cur

theorem filed_tick {cfg : Cfg} {now : Nat} {d : Name → List Item} (hf : Fresh d now) (k : Nat) :
    filedD cfg (now + k) d = filedD cfg now d := by
  unfold filedD filed
  split
  · exact flat_more _ (fun u hu => by show rows (d _) = []; rw [hf u hu]; rfl) k
  · rfl

theorem fresh_of_J {cfg : Cfg} {now : Nat} {K C : List Row} {d : Name → List Item} {h : Hd}
    (hJ : J cfg now K C d h) : Fresh d now := by
  obtain ⟨t, ht, hf, _⟩ := hJ.time
  exact hf.mono ht

theorem S_tick {cfg : Cfg} {L : List Row → Prop} {g : Log} {s : St} (hS : S cfg L g s) (k : Nat) :
    S cfg L { g with now := g.now + k } { s with now := s.now + k } := by
  refine ⟨by simp [hS.now], hS.fresh.mono (by simp), ?_, ?_⟩
  · intro h hh
    obtain ⟨h1, h2, K, hK, hJ⟩ := hS.some' h hh
    refine ⟨h1, h2, K, hK, ?_⟩
    obtain ⟨t, ht, hf, hn⟩ := hJ.time
    obtain ⟨kc, e1, e2⟩ := hJ.total
    exact ⟨⟨t, by simp; omega, hf, hn⟩, hJ.ok, hJ.due, hJ.noHead, ⟨kc, by
      simp only []; rw [filed_tick hS.fresh, e1], e2⟩⟩
  · intro hh
    obtain ⟨h1, K, hK, e⟩ := hS.none' hh
    exact ⟨h1, K, hK, by simp only []; rw [filed_tick hS.fresh, e]⟩

/-- A step that changes only the files and the handle. -/
theorem S_handle {cfg : Cfg} {L : List Row → Prop} {g : Log} {s : St} {h h' : Hd}
    {d' : Name → List Item} {r : List Row} (hS : S cfg L g s) (hh : s.h = some h)
    (hr : h'.refs = h.refs)
    (hJ : ∀ K C, J cfg s.now K C s.disk h → J cfg s.now K (C ++ r) d' h') :
    S cfg L { g with cur := g.cur ++ r } { s with disk := d', h := some h' } := by
  obtain ⟨h1, h2, K, hK, j⟩ := hS.some' h hh
  have j' := hJ K _ j
  refine ⟨hS.now, fresh_of_J j', ?_, by simp⟩
  intro x hx
  cases hx
  exact ⟨by rw [hr, h1], h2, K, hK, j'⟩

theorem S_same {cfg : Cfg} {L : List Row → Prop} {g : Log} {s : St} {h h' : Hd}
    {d' : Name → List Item} (hS : S cfg L g s) (hh : s.h = some h)
    (hr : h'.refs = h.refs)
    (hJ : ∀ K C, J cfg s.now K C s.disk h → J cfg s.now K C d' h') :
    S cfg L g { s with disk := d', h := some h' } := by
  have := S_handle (r := []) hS hh hr (fun K C j => by rw [List.append_nil]; exact hJ K C j)
  simpa using this

theorem S_put {cfg : Cfg} {L : List Row → Prop} {g : Log} {s : St} (hS : S cfg L g s) {h : Hd}
    (hh : s.h = some h) (r : Row) : g.put r = { g with cur := g.cur ++ [r] } := by
  obtain ⟨_, h2, _⟩ := hS.some' h hh
  simp [Log.put, show g.users ≠ 0 by omega]

theorem S_opened {cfg : Cfg} {L : List Row → Prop} {g : Log} {s : St} (hS : S cfg L g s) :
    S cfg L g.opened s := ⟨hS.now, hS.fresh, hS.some', hS.none'⟩

theorem S_step {cfg : Cfg} {L : List Row → Prop} {g : Log} {s : St} (hS : S cfg L g s)
    (hL0 : L []) (hL : ∀ h, s.h = some h → L (rows h.buf)) (op : Op) :
    S cfg L (logStep g op) (step cfg s op) := by
  cases op with
  | tick k => exact S_tick hS k
  | «open» =>
    simp only [step, logStep, «open»]
    cases hh : s.h with
    | some h =>
      obtain ⟨h1, h2, K, hK, j⟩ := hS.some' h hh
      refine ⟨hS.now, hS.fresh, ?_, by simp⟩
      intro x hx
      cases hx
      exact ⟨by simp [h1], by simp, K, hK, ⟨j.time, j.ok, j.due, j.noHead, j.total⟩⟩
    | none =>
      obtain ⟨h1, K, hK, e⟩ := hS.none' hh
      have sd : SameData s.disk (if cfg.alt then truncate s.disk (.hdr (tag cfg s.now)) else s.disk) := by
        split
        · exact same_truncate _ _
        · intro t; rfl
      refine ⟨hS.now, sd.fresh hS.fresh, ?_, by simp⟩
      intro x hx
      cases hx
      refine ⟨by simp [h1], by simp, K, hK,
        ⟨⟨s.now, by simp, sd.fresh hS.fresh, rfl, rfl⟩, by simp, by simp, rfl, ⟨g.cur, ?_, by simp [rows, Log.opened]⟩⟩⟩
      simp only []
      rw [sd.filed, e]
  | close =>
    simp only [step, logStep, close]
    cases hh : s.h with
    | none =>
      obtain ⟨h1, h2⟩ := hS.none' hh
      refine ⟨hS.now, hS.fresh, ?_, ?_⟩
      · intro x hx; simp only [hh] at hx; cases hx
      · intro _; exact ⟨by simp [h1], h2⟩
    | some h =>
      obtain ⟨h1, h2, K, hK, j⟩ := hS.some' h hh
      by_cases hr : h.refs ≤ 1
      · simp only [if_pos hr]
        have jf := j.flush
        obtain ⟨kc, e1, e2⟩ := jf.total
        refine ⟨hS.now, fresh_of_J jf, by simp, ?_⟩
        intro _
        refine ⟨by simp; omega, K, hK, ?_⟩
        simp only []
        rw [e1]
        simp only [flush, rows, List.append_nil] at e2
        rw [e2]
      · simp only [if_neg hr]
        refine ⟨hS.now, hS.fresh, ?_, by simp⟩
        intro x hx
        cases hx
        exact ⟨by simp; omega, by simp; omega, K, hK, ⟨j.time, j.ok, j.due, j.noHead, j.total⟩⟩
  | store r =>
    simp only [step, logStep, store]
    cases hh : s.h with
    | none =>
      obtain ⟨h1, h2⟩ := hS.none' hh
      simpa [Log.put, h1] using hS
    | some h =>
      rw [S_put hS hh]
      obtain ⟨h1, h2, K, hK, j⟩ := hS.some' h hh
      have hd := j.header.2
      simp only [hd, reduceCtorEq, if_false]
      refine S_handle hS hh (by rw [flushDue_refs]; exact header_refs _ _ _) ?_
      intro K C j
      exact ((j.header.1.write r).inc).flushDue
  | row r =>
    simp only [step, logStep, storeRow]
    cases hh : s.h with
    | none =>
      obtain ⟨h1, h2⟩ := hS.none' hh
      simpa [Log.put, h1, count, hh] using hS
    | some h =>
      rw [S_put hS hh]
      obtain ⟨h1, h2, K, hK, j⟩ := hS.some' h hh
      have hd := j.header.2
      simp only [hd, reduceCtorEq, if_false, count]
      refine S_handle hS hh (by simp only [Hd.inc]; rw [flushDue_refs]; exact header_refs _ _ _) ?_
      intro K C j
      exact ((j.header.1.write r).flushDue).inc
  | rowText r =>
    simp only [step, logStep, storeRow]
    cases hh : s.h with
    | none =>
      obtain ⟨h1, h2⟩ := hS.none' hh
      simpa [Log.put, h1] using hS
    | some h =>
      rw [S_put hS hh]
      obtain ⟨h1, h2, K, hK, j⟩ := hS.some' h hh
      have hd := j.header.2
      simp only [hd, reduceCtorEq, if_false]
      refine S_handle hS hh (by rw [flushDue_refs]; exact header_refs _ _ _) ?_
      intro K C j
      exact (j.header.1.write r).flushDue
  | rowCount =>
    simp only [step, logStep, count]
    cases hh : s.h with
    | none => simpa [hh] using hS
    | some h => exact S_same hS hh rfl fun K C j => j.inc
  | roll =>
    simp only [step, logStep]
    by_cases hr : cfg.roll ≥ 1
    · rw [if_pos hr]
      refine S_opened ?_
      unfold roll
      cases hh : s.h with
      | none => exact hS
      | some h =>
        simp only []
        cases hd : rollDue cfg h with
        | none => exact hS
        | some h' =>
          obtain ⟨e1, e2, e3, e4, e5, e6⟩ := rollDue_same hd
          refine S_same hS hh e6 ?_
          intro K C j
          have jf := j.flush
          have ed : (flush s.disk h').1 = (flush s.disk h).1 := by simp [flush, e1, e3]
          simp only [ed]
          generalize (flush s.disk h).1 = d at jf
          have sd : SameData d (if cfg.alt then truncate d (.hdr (tag cfg s.now)) else d) := by
            split
            · exact same_truncate _ _
            · intro t; rfl
          obtain ⟨kc, t1, t2⟩ := jf.total
          exact ⟨⟨s.now, by simp, sd.fresh (fresh_of_J jf), rfl, rfl⟩, by simp, by simp, rfl,
            ⟨kc, by rw [sd.filed, t1], by simpa [flush] using t2⟩⟩
    · rw [if_neg hr]
      exact S_opened hS
  | flush =>
    simp only [step, logStep]
    cases hh : s.h with
    | none => exact hS
    | some h => exact S_same hS hh rfl fun K C j => j.flush
  | drain k =>
    simp only [step, logStep]
    cases hh : s.h with
    | none => exact hS
    | some h => exact S_same hS hh rfl fun K C j => j.drain k
  | crash =>
    simp only [step, logStep]
    refine ⟨hS.now, hS.fresh, by simp, ?_⟩
    intro _
    refine ⟨rfl, ?_⟩
    cases hh : s.h with
    | none =>
      obtain ⟨_, K, hK, e⟩ := hS.none' hh
      refine ⟨K ++ g.cur, ?_, by simp [e]⟩
      have := Kept.snoc (p := g.cur) hK hL0
      rwa [List.append_nil] at this
    | some h =>
      obtain ⟨h1, h2, K, hK, j⟩ := hS.some' h hh
      obtain ⟨kc, e1, e2⟩ := j.total
      refine ⟨K ++ kc, ?_, by simp [e1]⟩
      have := Kept.snoc (p := kc) hK (hL h hh)
      rwa [e2] at this

theorem run_snoc (cfg : Cfg) (ops : List Op) (op : Op) :
    run cfg (ops ++ [op]) = step cfg (run cfg ops) op := by simp [run]

theorem log_snoc (ops : List Op) (op : Op) : log (ops ++ [op]) = logStep (log ops) op := by
  simp [log]

/-- Induction from the end. -/
theorem snocInd {p : List Op → Prop} (h0 : p []) (h1 : ∀ l x, p l → p (l ++ [x])) (l : List Op) : p l := by
  have : ∀ l : List Op, p l.reverse := by
    intro l
    induction l with
    | nil => exact h0
    | cons x l ih => rw [List.reverse_cons]; exact h1 _ _ ih
  simpa using this l.reverse

theorem S_run {cfg : Cfg} {L : List Row → Prop} (hL0 : L []) (ops : List Op)
    (hL : ∀ pre post, pre ++ post = ops → ∀ h, (run cfg pre).h = some h → L (rows h.buf)) :
    S cfg L (log ops) (run cfg ops) := by
  induction ops using snocInd with
  | h0 =>
    refine ⟨rfl, fun _ _ => rfl, (by intro h hh; cases hh), ?_⟩
    intro _
    refine ⟨rfl, [], .nil, ?_⟩
    simp [filedD, filed, run, init, log, rows]
  | h1 ops op ih =>
    rw [run_snoc, log_snoc]
    refine S_step (ih fun pre post e => hL pre (post ++ [op]) (by simp [← e])) hL0 ?_ op
    exact hL ops [op] rfl

end Verif.CsvFile
